import Verif.Model.Scope
import Verif.Model.File

/-!
# Model of `/repo/ast.go`

`ast.scope` is a Go slice, and several methods share it, so slices are modelled with their backing
arrays: `AppendScope` may write into an array that another `Ast` also uses.
A nil `*ast` (guarded in the getters) cannot be obtained through the API and is not modelled.
-/

namespace Goast

/-- A Go slice header: backing array, offset, length, capacity. -/
structure Slice where
  arr : Nat
  off : Nat
  len : Nat
  cap : Nat
deriving DecidableEq, Repr, Inhabited

/-- Everything `Ast` values can reach: the node heap and the backing arrays of scope slices. -/
structure AState where
  heap : Heap
  arrs : List (List ScopeRec)
deriving DecidableEq, Repr, Inhabited

namespace AState

/-- The elements of a slice. -/
def elems (st : AState) (s : Slice) : List ScopeRec :=
  (((st.arrs[s.arr]?).getD []).drop s.off).take s.len

/-- A slice in a fresh array: holding exactly `l`, with room for `spare` more elements. -/
def newSlice (st : AState) (l : List ScopeRec) (spare : Nat) : AState × Slice :=
  ({ st with arrs := st.arrs ++ [l ++ List.replicate spare default] },
   { arr := st.arrs.length, off := 0, len := l.length, cap := l.length + spare })

/-- Overwrite `xs` into `l` from index `i` on. -/
def overwrite (l : List ScopeRec) (i : Nat) (xs : List ScopeRec) : List ScopeRec :=
  l.take i ++ xs ++ l.drop (i + xs.length)

/-- Go `append(s, xs...)`: in place when the capacity allows it, otherwise into a fresh array whose
capacity is the larger of `grow need` and the needed length (Go only promises it is large enough,
so theorems quantify over `grow`). -/
def append (grow : Nat → Nat) (st : AState) (s : Slice) (xs : List ScopeRec) : AState × Slice :=
  if s.len + xs.length ≤ s.cap then
    ({ st with arrs := st.arrs.modify s.arr fun l => overwrite l (s.off + s.len) xs },
     { s with len := s.len + xs.length })
  else
    let need := s.len + xs.length
    let l := st.elems s ++ xs
    ({ st with arrs := st.arrs ++ [l ++ List.replicate (grow need - need) default] },
     { arr := st.arrs.length, off := 0, len := need, cap := need + (grow need - need) })

end AState

/-- ast.go:126-132 `type ast struct`. -/
structure AstRec where
  file : Bytes
  dir : Bytes
  name : Bytes
  ext : Bytes
  scope : Slice
deriving DecidableEq, Repr, Inhabited

/-- ast.go:110-121: the node the search in the package scope stops at.  The captured variable is
`packageKeywordAppeared`. -/
def findPackageNode (h : Heap) (n : Ptr) : Option Ptr :=
  (h.iterNext (fun (appeared : Bool) a =>
      if appeared && decide (h.kind (some a) = .raw) then (appeared, false)
      else if h.kind (some a) = .package_ then (true, true)
      else (appeared, true)) false n).map (·.2)

/-- ast.go:97-124 `findPackageName` (outer `none`: non-termination). -/
def findPackageName (h : Heap) (scs : List ScopeRec) : Option (Except Err Bytes) :=
  match scs.find? (fun sc => sc.kind = .package_) with
  | none => some (.error .ErrNoPackage)
  | some sc => (findPackageNode h sc.node).map fun r => .ok (h.text r)

/-- ast.go:134-143 `NewAst(scope...)`; the variadic slice is kept as it is. -/
def newAst (st : AState) (scope : Slice) : Option (Except Err AstRec) :=
  (findPackageName st.heap (st.elems scope)).map fun r =>
    match r with
    | .error e => .error e
    | .ok _ => .ok { file := [], dir := [], name := [], ext := [], scope }

/-- ast.go:62-95 `ParseAst(file)`.  The slice built by the `append`s of scope.go:79 may have spare
capacity: `spare`. -/
def parseAst (env : Env) (spare : Nat) (fs : FS) (st : AState) (file : Bytes) :
    Option (Except Err (AState × AstRec)) :=
  match readFile env fs file with
  | .error e => some (.error (if e = .notExist then .ErrNotExist else e))
  | .ok data =>
    match parseScope st.heap 0 data with
    | none => none
    | some (h, scs) =>
      (findPackageName h scs).map fun r =>
        match r with
        | .error e => .error e
        | .ok _ =>
          let (st, sl) := AState.newSlice { st with heap := h } scs spare
          .ok (st, { file, dir := env.dir file, name := env.base file, ext := env.ext file,
                     scope := sl })

namespace AstRec

/-- ast.go:145-147 `Package`. -/
def package (st : AState) (f : AstRec) : Option (Except Err Bytes) :=
  findPackageName st.heap (st.elems f.scope)

/-- ast.go:181-187 `Scope()`: the slice; its elements are `st.elems`. -/
def scopes (st : AState) (f : AstRec) : List ScopeRec := st.elems f.scope

/-- ast.go:189-195 `IterScope` with a callback acting on captured state `σ` (not on the slice):
the state afterwards. -/
def iterScope {σ : Type} (fn : σ → ScopeRec → σ × Bool) : List ScopeRec → σ → σ
  | [], s => s
  | sc :: scs, s =>
    match fn s sc with
    | (s, true) => iterScope fn scs s
    | (s, false) => s

/-- ast.go:197-205 `SetScope`. -/
def setScope (f : AstRec) (scope : Slice) : AstRec :=
  { file := f.file, dir := f.dir, name := f.name, ext := f.ext, scope }

/-- ast.go:207-209 `AppendScope`. -/
def appendScope (grow : Nat → Nat) (st : AState) (f : AstRec) (scs : List ScopeRec) :
    AState × AstRec :=
  let r := st.append grow f.scope scs
  (r.1, { f with scope := r.2 })

end AstRec

/-- The concatenated texts of the nodes `IterNext` visits from `n` (the loops of ast.go:230-233). -/
def chainText (h : Heap) (n : Ptr) : Option Bytes :=
  (h.iterNext (fun (buf : Bytes) a => (buf ++ h.text (some a), true)) [] n).map (·.1)

/-- ast.go:229-234: the concatenation over all scopes. -/
def scopesText (h : Heap) : List ScopeRec → Option Bytes
  | [] => some []
  | sc :: scs =>
    match chainText h sc.node with
    | none => none
    | some t => (scopesText h scs).map (t ++ ·)

/-- ast.go:226-237 `Save`. -/
def AstRec.save (env : Env) (fs : FS) (st : AState) (f : AstRec) (file : Bytes)
    (autoImport : List Bool) : Option (FS × Option Err) :=
  (scopesText st.heap (f.scopes st)).map fun data => saveFile env fs file data autoImport

/-- ast.go:241-243: copy the scopes one after the other. -/
def copyScopes : Heap → List ScopeRec → Option (Heap × List ScopeRec)
  | h, [] => some (h, [])
  | h, sc :: scs =>
    match sc.copy h with
    | none => none
    | some (h, sc') => (copyScopes h scs).map fun r => (r.1, sc' :: r.2)

/-- ast.go:239-252 `Copy`.  (`make([]Scope, 0, len)` then one `append` per scope: a fresh array of
exactly that capacity.) -/
def AstRec.copy (st : AState) (f : AstRec) : Option (AState × AstRec) :=
  (copyScopes st.heap (f.scopes st)).map fun r =>
    let (st, sl) := AState.newSlice { st with heap := r.1 } r.2 0
    (st, { file := f.file, dir := f.dir, name := f.name, ext := f.ext, scope := sl })

end Goast
