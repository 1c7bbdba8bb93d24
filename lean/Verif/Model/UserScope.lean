import Verif.Model.Describe

/-!
# `ast.go` over scopes of any type

`Scope` (scope.go:15-51) is an interface with exported methods only, so a program can put values of its own types into an `Ast`.
A `World` is whatever the methods of these values can look at and change; the heap of nodes is a part of it.  A scope is known by a number.
A method returns an answer in a changed world, or does not return (`none`: it panics or runs forever).
Methods that call into the `Ast` they are in are not excluded (they change the world), but the slice that is iterated over is
evaluated once (ast.go:98, 214, 229, 241: `range`), so a list of numbers is passed; its elements are taken not to be overwritten meanwhile.
-/

namespace Goast

/-- The methods of `Scope` that ast.go calls. -/
structure Scopes (World : Type) where
  /-- the nodes as they are -/
  heap : World → Heap
  kind : Nat → World → Option (ScopeKind × World)
  node : Nat → World → Option (Ptr × World)
  description : Nat → World → Option (Bytes × World)
  copy : Nat → World → Option (Nat × World)

namespace Scopes

variable {World : Type} (I : Scopes World)

/-- ast.go:97-108: the loop of `findPackageName`, and the scope it finds. -/
def findPackage : List Nat → World → Option (Option Nat × World)
  | [], w => some (none, w)
  | sc :: scs, w =>
    match I.kind sc w with
    | none => none
    | some (k, w) => if k = .package_ then some (some sc, w) else findPackage scs w

/-- ast.go:97-124 `findPackageName`. -/
def packageName (scs : List Nat) (w : World) : Option (Except Err Bytes × World) :=
  match I.findPackage scs w with
  | none => none
  | some (none, w) => some (.error .ErrNoPackage, w)
  | some (some sc, w) =>
    match I.node sc w with
    | none => none
    | some (p, w) => (findPackageNode (I.heap w) p).map fun r => (.ok ((I.heap w).text r), w)

/-- ast.go:135-143 `NewAst`: whether it succeeds (it keeps the slice of scopes it was given). -/
def newAst (scs : List Nat) (w : World) : Option (Option Err × World) :=
  (I.packageName scs w).map fun r => match r with
    | (.error e, w) => (some e, w)
    | (.ok _, w) => (none, w)

/-- ast.go:229-234: the texts `Save` puts together. -/
def text : List Nat → World → Option (Bytes × World)
  | [], w => some ([], w)
  | sc :: scs, w =>
    match I.node sc w with
    | none => none
    | some (p, w) =>
      match chainText (I.heap w) p with
      | none => none
      | some t => (text scs w).map fun r => (t ++ r.1, r.2)

/-- ast.go:226-237 `Save`. -/
def save (env : Env) (fs : FS) (scs : List Nat) (file : Bytes) (autoImport : List Bool) (w : World) : Option ((FS × Option Err) × World) :=
  (I.text scs w).map fun r => (saveFile env fs file r.1 autoImport, r.2)

/-- ast.go:211-224 `Description`. -/
def describe : List Nat → World → Option (Bytes × World)
  | [], w => some ([], w)
  | sc :: scs, w =>
    match I.description sc w with
    | none => none
    | some (d, w) =>
      match I.node sc w with
      | none => none
      | some (p, w) =>
        match (I.heap w).iterNext (fun (buf : Bytes) a => (buf ++ (I.heap w).describe (some a), true)) [] p with
        | none => none
        | some (t, _) => (describe scs w).map fun r => (d ++ t ++ r.1, r.2)

/-- ast.go:240-243: the scopes of the copy that `Copy` makes. -/
def copies : List Nat → World → Option (List Nat × World)
  | [], w => some ([], w)
  | sc :: scs, w =>
    match I.copy sc w with
    | none => none
    | some (c, w) => (copies scs w).map fun r => (c :: r.1, r.2)

end Scopes

end Goast
