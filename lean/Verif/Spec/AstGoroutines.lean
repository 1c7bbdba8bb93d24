import Verif.Spec.Goroutines

/-!
# Goroutines that work on files

The goroutines of `Spec/Goroutines`, which now also hold `Ast` values and slices of scopes and read and save files.  They share the
nodes, the backing arrays of the slices and the files.  What they may do with a slice is what Go allows: make one, cut one, write an
element, read the elements, look at its length and capacity.
-/

namespace Goast

/-- What the goroutines share. -/
structure Shared2 where
  st : AState
  fs : FS

/-- The choices Go leaves open: the capacity of an array made by `append` (see `AState.append`), and the spare capacity of the slice
that `ParseAst` makes of a source text. -/
structure Caps where
  grow : Nat → Nat
  spare : Bytes → Nat

/-- What a goroutine does in one step.  Nodes, scopes, slices and `Ast`s are named by the position of the variable that holds them. -/
inductive Act2
  /-- a step of `Spec/Goroutines` -/
  | base (a : Act)
  /-- `helper.ReadFile(file)` -/
  | readFile (file : Bytes)
  /-- `helper.SaveFile(file, data, autoImport...)` -/
  | saveFile (file data : Bytes) (auto : List Bool)
  /-- `ParseAst(file)`; the `Ast` is put into a new variable -/
  | parseAst (file : Bytes)
  /-- `[]Scope{...}` of scopes in variables, into a new variable -/
  | slice (is : List Nat)
  /-- `s[i:j]`, into a new variable -/
  | cut (s i j : Nat)
  /-- `s[i] = sc` -/
  | write (s i sc : Nat)
  /-- the elements of a slice, into new variables -/
  | elems (s : Nat)
  /-- `NewAst(s...)`, into a new variable -/
  | newAst (s : Nat)
  /-- `Scope()`, into a new variable -/
  | scope (a : Nat)
  /-- `SetScope(s)`, into a new variable -/
  | setScope (a s : Nat)
  /-- `AppendScope(s...)` -/
  | appendScope (a s : Nat)
  /-- `Copy()` of an `Ast`, into a new variable -/
  | copyAst (a : Nat)
  /-- `Save(file, autoImport...)` -/
  | save (a : Nat) (file : Bytes) (auto : List Bool)
  /-- `File()`, `Dir()`, `Filename()`, `Ext()` -/
  | names (a : Nat)
  /-- all that the methods of an `Ast` and its scopes show -/
  | show_ (a : Nat)

/-- The files a step can write. -/
def Act2.writes : Act2 → List Bytes
  | .saveFile file _ _ => [goFileName file]
  | .save _ file _ => [goFileName file]
  | _ => []

/-- The files a step can read or write. -/
def Act2.files : Act2 → List Bytes
  | .readFile file => [goFileName file]
  | .parseAst file => [goFileName file]
  | a => a.writes

/-- What a goroutine is shown. -/
inductive Obs2
  | base (o : Obs)
  | read (r : Except Err Bytes)
  | err (e : Option Err)
  | slice (len cap : Nat)
  | scopes (n : Nat)
  | done
  | names (file dir name ext : Bytes)
  | view (v : ParseView)

/-- A goroutine: its variables, and what it was shown so far. -/
structure Gor2 where
  nodes : List Ptr
  scopes : List ScopeRec
  slices : List Slice
  asts : List AstRec
  seen : List Obs2

namespace Gor2

def see (g : Gor2) (o : Obs2) : Gor2 := { g with seen := g.seen ++ [o] }
def putSlice (g : Gor2) (s : Slice) : Gor2 := { g with slices := g.slices ++ [s], seen := g.seen ++ [.slice s.len s.cap] }
def putAst (g : Gor2) (a : AstRec) : Gor2 := { g with asts := g.asts ++ [a], seen := g.seen ++ [.err none] }
def putScopes (g : Gor2) (scs : List ScopeRec) : Gor2 := { g with scopes := g.scopes ++ scs, seen := g.seen ++ [.scopes scs.length] }
def setAst (g : Gor2) (i : Nat) (a : AstRec) : Gor2 := { g with asts := g.asts.set i a, seen := g.seen ++ [.done] }

/-- The part of a goroutine that `Spec/Goroutines` knows. -/
def base (g : Gor2) : Gor := ⟨g.nodes, g.scopes, []⟩

/-- A step of `Spec/Goroutines` was made. -/
def withBase (g : Gor2) (b : Gor) : Gor2 := { g with nodes := b.nodes, scopes := b.scopes, seen := g.seen ++ b.seen.map .base }

end Gor2

/-- Go `s[i:j]`: same array, `i ≤ j ≤ cap(s)`; `none` is a panic. -/
def Slice.cut (s : Slice) (i j : Nat) : Option Slice :=
  if i ≤ j ∧ j ≤ s.cap then some { arr := s.arr, off := s.off + i, len := j - i, cap := s.cap - i } else none

/-- Go `s[i] = sc`; `none` is a panic. -/
def AState.write (st : AState) (s : Slice) (i : Nat) (sc : ScopeRec) : Option AState :=
  if i < s.len then some { st with arrs := st.arrs.modify s.arr fun l => l.set (s.off + i) sc } else none

/-- One step of a goroutine; `none` is a panic, non-termination, or a variable that does not exist. -/
def Act2.step (env : Env) (caps : Caps) (w : Shared2) (g : Gor2) : Act2 → Option (Shared2 × Gor2)
  | .base a => (a.step w.st.heap g.base).map fun r => (⟨{ w.st with heap := r.1 }, w.fs⟩, g.withBase r.2)
  | .readFile file => some (w, g.see (.read (Goast.readFile env w.fs file)))
  | .saveFile file data auto =>
    let r := Goast.saveFile env w.fs file data auto
    some (⟨w.st, r.1⟩, g.see (.err r.2))
  | .parseAst file =>
    (Goast.parseAst env (caps.spare ((Goast.readFile env w.fs file).toOption.getD [])) w.fs w.st file).map fun
      | .error e => (w, g.see (.err (some e)))
      | .ok r => (⟨r.1, w.fs⟩, g.putAst r.2)
  | .slice is =>
    let r := w.st.newSlice (is.filterMap (g.scopes[·]?)) 0
    some (⟨r.1, w.fs⟩, g.putSlice r.2)
  | .cut s i j => do
    let s ← g.slices[s]?
    let s' ← s.cut i j
    some (w, g.putSlice s')
  | .write s i sc => do
    let s ← g.slices[s]?
    let sc ← g.scopes[sc]?
    let st ← w.st.write s i sc
    some (⟨st, w.fs⟩, g.see .done)
  | .elems s => do
    let s ← g.slices[s]?
    some (w, g.putScopes (w.st.elems s))
  | .newAst s => do
    let s ← g.slices[s]?
    match ← Goast.newAst w.st s with
      | .error e => some (w, g.see (.err (some e)))
      | .ok a => some (w, g.putAst a)
  | .scope a => do
    let a ← g.asts[a]?
    some (w, g.putSlice a.scope)
  | .setScope a s => do
    let a ← g.asts[a]?
    let s ← g.slices[s]?
    some (w, g.putAst (a.setScope s))
  | .appendScope i s => do
    let a ← g.asts[i]?
    let s ← g.slices[s]?
    let r := a.appendScope caps.grow w.st (w.st.elems s)
    some (⟨r.1, w.fs⟩, g.setAst i r.2)
  | .copyAst a => do
    let a ← g.asts[a]?
    let r ← a.copy w.st
    some (⟨r.1, w.fs⟩, g.putAst r.2)
  | .save a file auto => do
    let a ← g.asts[a]?
    let r ← a.save env w.fs w.st file auto
    some (⟨w.st, r.1⟩, g.see (.err r.2))
  | .names a => do
    let a ← g.asts[a]?
    some (w, g.see (.names a.file a.dir a.name a.ext))
  | .show_ a => do
    let a ← g.asts[a]?
    let _ ← scopesText w.st.heap (a.scopes w.st)
    some (w, g.see (.view (scopesView w.st.heap (a.scopes w.st))))

/-- The program of a goroutine: what it does next, given what it was shown so far. -/
abbrev Prog2 := List Obs2 → Act2

/-- One goroutine alone, for `n` steps. -/
def solo2 (env : Env) (caps : Caps) (prog : Prog2) : Nat → Shared2 → Gor2 → Option (Shared2 × Gor2)
  | 0, w, g => some (w, g)
  | n + 1, w, g => match (prog g.seen).step env caps w g with
    | none => none
    | some (w, g) => solo2 env caps prog n w g

/-- Many goroutines: the schedule says who makes the next step. -/
def together2 (env : Env) (caps : Caps) (progs : Nat → Prog2) : List Nat → Shared2 → (Nat → Gor2) → Option (Shared2 × (Nat → Gor2))
  | [], w, gs => some (w, gs)
  | i :: sched, w, gs => match (progs i (gs i).seen).step env caps w (gs i) with
    | none => none
    | some (w, g) => together2 env caps progs sched w (fun j => if j = i then g else gs j)

/-- The goroutines have nothing in common: to each belong nodes (as in `Apart`) and backing arrays; the arrays of its slices and
`Ast`s are its own, and so are the nodes of the scopes in its arrays; no node and no array belongs to two. -/
structure Apart2 (st : AState) (gs : Nat → Gor2) (own : Nat → Addr → Prop) (ownArr : Nat → Nat → Prop) : Prop where
  base : Apart st.heap (fun i => (gs i).base) own
  exist : ∀ i x, ownArr i x → x < st.arrs.length
  inside : ∀ i x, ownArr i x → ∀ l, st.arrs[x]? = some l → ∀ sc ∈ l, ∀ a, sc.node = some a → own i a
  slices : ∀ i, ∀ s ∈ (gs i).slices, ownArr i s.arr
  asts : ∀ i, ∀ a ∈ (gs i).asts, ownArr i a.scope.arr
  disjoint : ∀ i j x, ownArr i x → ownArr j x → i = j

/-- No goroutine writes a file that another reads or writes, whatever they are shown. -/
def FilesApart (progs : Nat → Prog2) : Prop :=
  ∀ i j seen seen' f, i ≠ j → f ∈ (progs i seen).writes → f ∉ (progs j seen').files

end Goast
