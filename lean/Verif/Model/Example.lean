import Verif.Model.Ast
import Verif.Model.Describe

/-!
# The program of exported/main_test.go:11-51 (`TestExample`): take the comments out of a file

It is a client of the API.  Below it, the other one the repository shows: `TestUsecase` (exported/main_test.go:56-77),
which prints the interfaces of a file.
-/

namespace Goast

/-- node.go:98-120 `IterNext` with a callback that changes nodes (but makes no new ones, so that the number of nodes at
the start bounds the number of steps; see `C63_strip` for why this fuel suffices). -/
def Heap.iterEdit {σ : Type} (h : Heap) (fn : Heap × σ → Addr → (Heap × σ) × Bool) (s : σ) (n : Ptr) : Option ((Heap × σ) × Ptr) :=
  loop (fun (w : Heap × σ) a => w.1.next (some a)) (fun w a => some (fn w a)) (h.size + 1) (h, s) n

/-- exported/main_test.go:24-36: the callback on nodes; the captured variable is `takePrev`. -/
def stripStep (w : Heap × Bool) (a : Addr) : (Heap × Bool) × Bool :=
  let h := if w.2 then (w.1.takePrev (some a)).1 else w.1
  ((h, decide (h.kind (some a) = .comment)), true)

/-- exported/main_test.go:22: the kinds of scopes that are kept. -/
def keptKinds : List ScopeKind := [.const_, .variable, .type_, .func_, .package_, .import_]

/-- exported/main_test.go:20-40: the callback on scopes.  The state is the heap (`none`: an iteration did not end) and
the scopes collected in `sc`. -/
def stripScope (s : Option Heap × List ScopeRec) (sc : ScopeRec) : (Option Heap × List ScopeRec) × Bool :=
  if sc.kind ∈ keptKinds then
    match s.1 with
    | none => (s, true)
    | some h =>
      match h.iterEdit stripStep false sc.node with
      | none => ((none, s.2), true)
      | some r => ((some r.1.1, s.2 ++ [sc]), true)
  else (s, true)

/-- exported/main_test.go:18-42: iterate over the scopes, then `SetScope` with those collected.  (`make([]Scope, 0, n)`
with `n` the number of scopes, and one `append` per scope kept: a fresh array of capacity `n`.) -/
def stripComments (st : AState) (f : AstRec) : Option (AState × AstRec) :=
  match AstRec.iterScope stripScope (f.scopes st) (some st.heap, []) with
  | (none, _) => none
  | (some h, scs) =>
    let (st, sl) := AState.newSlice { st with heap := h } scs ((f.scopes st).length - scs.length)
    some (st, f.setScope sl)

/-- exported/main_test.go:63-76: the callback on scopes.  The state is what was written to standard error (`none`: an
iteration did not end). -/
def usecaseScope (h : Heap) (out : Option Bytes) (s : ScopeRec) : Option Bytes × Bool :=
  match s.getInterfaceName h with
  | none => (none, true)
  | some (_, false) => (out, true)
  | some (_, true) =>
    match h.iterNext (fun (buf : Bytes) a => (buf ++ h.print (some a), true)) s.print s.node with
    | none => (none, true)
    | some (t, _) => (out.map (· ++ t), true)

/-- exported/main_test.go:56-77 `TestUsecase`, from the parsed file on: what it prints. -/
def printInterfaces (st : AState) (f : AstRec) : Option Bytes :=
  AstRec.iterScope (usecaseScope st.heap) (f.scopes st) (some [])

end Goast
