import Verif.Model.Example
import Verif.Props.Edit
import Verif.Props.Describe
import Verif.Props.Getters

/-!
# C77: the program that prints the interfaces of a file
-/

set_option linter.unusedSimpArgs false
set_option linter.unusedVariables false

namespace Goast
open Heap

/-! ## Specification -/

/-- What is printed for one scope with the nodes `l`: a line for the scope and a line for each node. -/
def printed (h : Heap) (sc : ScopeRec) (l : List Addr) : Bytes :=
  (sc.describe ++ [10]) ++ l.flatMap fun a => [9, 32] ++ h.describe (some a) ++ [10]

/-- The scopes (with their nodes) that are type declarations with an `interface` among their words. -/
def interfaces (h : Heap) (scs : List (ScopeRec × List Addr)) : List (ScopeRec × List Addr) :=
  scs.filter fun x => decide (x.1.kind = .type_) && x.2.any fun a => decide (h.kind (some a) = .interface_)

/-! ## C77 -/

theorem walk_print (h : Heap) : ∀ (l : List Addr) (s : Bytes),
    (walk (fun (buf : Bytes) a => (buf ++ h.print (some a), true)) s l).1 = s ++ l.flatMap fun a => [9, 32] ++ h.describe (some a) ++ [10]
  | [], s => by simp [walk]
  | a :: l, s => by
    simp only [walk, if_true]
    rw [walk_print h l]
    simp [Heap.print]

theorem usecaseScope_eq (h : Heap) (sc : ScopeRec) {l : List Addr} (f : Fwd h sc.node l) (out : Bytes) :
    usecaseScope h (some out) sc = (some (out ++ (interfaces h [(sc, l)]).flatMap fun x => printed h x.1 x.2), true) := by
  by_cases hd : sc.kind = .type_
  · obtain ⟨name, found, b, _, e, hb⟩ := C22_interface h sc hd f
    have hb' : (l.any fun a => decide (h.kind (some a) = .interface_)) = b := by
      cases b with
      | true => simpa using hb
      | false =>
        have : ¬ ∃ a ∈ l, h.kind (some a) = .interface_ := fun hh => by simpa using hb.2 hh
        simpa using this
    unfold usecaseScope
    rw [e]
    cases b with
    | true =>
      rw [C32_iterNext h _ f]
      simp only [interfaces, List.filter_cons, hd, decide_true, hb', Bool.and_self, if_true, Option.map_some, walk_print]
      simp [printed, ScopeRec.print]
    | false => simp [interfaces, hb', hd]
  · simp [usecaseScope, ScopeRec.getInterfaceName, hd, interfaces]

theorem printInterfaces_eq (h : Heap) : ∀ {scs : List ScopeRec} {lss : List (List Addr)}, ScopeNodes h scs lss → ∀ out : Bytes,
    AstRec.iterScope (usecaseScope h) scs (some out) = some (out ++ (interfaces h (scs.zip lss)).flatMap fun x => printed h x.1 x.2) := by
  intro scs lss sn
  induction sn with
  | nil => intro out; simp [AstRec.iterScope, interfaces]
  | @cons sc l scs lss f sn ih =>
    intro out
    simp only [AstRec.iterScope, usecaseScope_eq h sc f, if_true, ih]
    simp only [List.zip_cons_cons, interfaces, List.filter_cons]
    split <;> simp

/-- **C77** On every `Ast` whose scopes are finite lists of nodes, the program ends and prints, in order, exactly the scopes that are type
declarations with an `interface` among their words: a line for the scope and one for each of its nodes. -/
theorem C77_prints (st : AState) (f : AstRec) {lss : List (List Addr)} (sn : ScopeNodes st.heap (f.scopes st) lss) :
    printInterfaces st f = some ((interfaces st.heap ((f.scopes st).zip lss)).flatMap fun x => printed st.heap x.1 x.2) := by
  rw [printInterfaces, printInterfaces_eq st.heap sn]; simp

/-- **C77** It does so on whatever `ParseAst` returns, for any file and any state of the program. -/
theorem C77_parsed {env : Env} {spare : Nat} {fs : FS} {st st' : AState} {file : Bytes} {f : AstRec} (w : WF st.heap) (ac : Acyclic st.heap)
    (e : parseAst env spare fs st file = some (.ok (st', f))) :
    ∃ lss, ScopeNodes st'.heap (f.scopes st') lss ∧
      printInterfaces st' f = some ((interfaces st'.heap ((f.scopes st').zip lss)).flatMap fun x => printed st'.heap x.1 x.2) := by
  obtain ⟨lss, _, d, _⟩ := C61_parsed w ac e
  exact ⟨lss, d.nodes, C77_prints st' f d.nodes⟩

/-- **C77** A file with no type declaration that has an `interface` among its words gets no output, and no text or comment can make a function,
a variable or an import be printed. -/
theorem C77_none (st : AState) (f : AstRec) {lss : List (List Addr)} (sn : ScopeNodes st.heap (f.scopes st) lss)
    (hn : ∀ x ∈ (f.scopes st).zip lss, x.1.kind = .type_ → ∀ a ∈ x.2, st.heap.kind (some a) ≠ .interface_) : printInterfaces st f = some [] := by
  rw [C77_prints st f sn]
  have : interfaces st.heap ((f.scopes st).zip lss) = [] := by
    simp only [interfaces, List.filter_eq_nil_iff, Bool.and_eq_true, decide_eq_true_eq, List.any_eq_true, not_and, not_exists]
    exact fun x hx hk a ha => hn x hx hk a ha
  simp [this]

/-- Of a package clause, a function and an interface only the interface is printed, all its words. -/
example : (match parseScope Heap.empty 0 b!"package a\nfunc f() {}\ntype I interface{}\n" with
    | some (h, scs) => AstRec.iterScope (usecaseScope h) scs (some [])
    | none => none) = some (b!"4 .... *Scope.Type\n\t 3 .... type .... *Node.Type\n\t 3 .... · .... *Node.Space\n\t 3 .... I .... *Node.TypeName\n" ++
      b!"\t 3 .... · .... *Node.Space\n\t 3 .... interface .... *Node.Interface\n\t 3 .... { .... *Node.CurlyBracketLeft\n\t 3 .... } .... *Node.CurlyBracketRight\n" ++
      b!"\t 3 .... \\n .... *Node.NewLine\n") := by
  decide +kernel

end Goast
