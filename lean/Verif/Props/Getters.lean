import Verif.Props.Scope
import Verif.Proofs.Front

/-!
# C22: what the name getters of a scope return, node by node
-/

set_option linter.unusedSimpArgs false
set_option linter.unusedVariables false

namespace Goast
open Heap

/-! ## C22 -/

/-- The search of `GetTypeName`, `GetMethodName` and `GetMethodReceiver` over the nodes `l`: the text of the first node
of kind `k`; if there is none, the text of the *last* node (nothing if there are no nodes) with `false`. -/
theorem findKindName_eq (h : Heap) {p : Ptr} {l : List Addr} (f : Fwd h p l) (k : Kind) :
    findKindName h p k = some (match l.find? fun a => decide (h.kind (some a) = k) with
      | some a => (h.text (some a), true)
      | none => (((l.getLast?).map fun a => h.text (some a)).getD [], false)) := by
  unfold findKindName
  rw [C32_iterNext h _ f, Option.map_some]
  congr 1
  clear f
  have key : ∀ (l : List Addr) (s : Bytes × Bool), (walk (fun (_ : Bytes × Bool) a =>
      ((h.text (some a), decide (h.kind (some a) = k)), !decide (h.kind (some a) = k))) s l).1 =
      match l.find? fun a => decide (h.kind (some a) = k) with
      | some a => (h.text (some a), true)
      | none => ((l.getLast?).map fun a => (h.text (some a), false)).getD s := by
    intro l
    induction l with
    | nil => intro s; rfl
    | cons a l ih =>
      intro s
      by_cases hk : h.kind (some a) = k
      · simp [walk, hk]
      · simp only [walk, hk, decide_false, Bool.not_false, if_true, ih, List.find?_cons]
        cases l.find? fun a => decide (h.kind (some a) = k) with
        | some b => rfl
        | none =>
          simp only
          cases l with
          | nil => rfl
          | cons b l => rw [List.getLast?_cons_cons]; cases hl : (b :: l).getLast? <;> simp_all
  have := key l ([], false)
  simp only at this ⊢
  rw [this]
  cases l.find? fun a => decide (h.kind (some a) = k) with
  | some b => rfl
  | none => cases l.getLast? <;> rfl

theorem any_walk (h : Heap) (k : Kind) : ∀ (l : List Addr) (s : Bool),
    (walk (fun (_ : Bool) a => (decide (h.kind (some a) = k), !decide (h.kind (some a) = k))) s l).1 =
      if l = [] then s else l.any fun a => decide (h.kind (some a) = k)
  | [], s => rfl
  | a :: l, s => by
    by_cases hk : h.kind (some a) = k
    · simp [walk, hk]
    · simp only [walk, hk, decide_false, Bool.not_false, if_true, any_walk h k l]
      cases l <;> simp [hk]

/-- **C22** `GetStructName` of a type scope with the nodes `l` reports true exactly when some node, wherever it is,
has kind `Struct`; the name is the one `GetTypeName` returns. -/
theorem C22_struct (h : Heap) (d : ScopeRec) (hd : d.kind = .type_) {l : List Addr} (f : Fwd h d.node l) :
    ∃ name found isStruct, d.getTypeName h = some (name, found) ∧ d.getStructName h = some (name, isStruct) ∧
      (isStruct = true ↔ ∃ a ∈ l, h.kind (some a) = .struct_) := by
  have e := findKindName_eq h f .typeName
  refine ⟨_, _, l.any fun a => decide (h.kind (some a) = .struct_), by rw [ScopeRec.getTypeName, if_neg (by simp [hd]), e], ?_, by simp⟩
  rw [ScopeRec.getStructName, if_neg (by simp [hd])]
  dsimp only
  rw [C32_iterNext h _ f]
  have := any_walk h .struct_ l false
  rcases hw : walk (fun (_ : Bool) a => (decide (h.kind (some a) = .struct_), !decide (h.kind (some a) = .struct_))) false l with ⟨b, q⟩
  rw [hw] at this
  simp only at this ⊢
  rw [ScopeRec.getTypeName, if_neg (by simp [hd]), e, this]
  cases l <;> simp

/-- **C22** The same for `GetInterfaceName` and kind `Interface`. -/
theorem C22_interface (h : Heap) (d : ScopeRec) (hd : d.kind = .type_) {l : List Addr} (f : Fwd h d.node l) :
    ∃ name found isInterface, d.getTypeName h = some (name, found) ∧ d.getInterfaceName h = some (name, isInterface) ∧
      (isInterface = true ↔ ∃ a ∈ l, h.kind (some a) = .interface_) := by
  have e := findKindName_eq h f .typeName
  refine ⟨_, _, l.any fun a => decide (h.kind (some a) = .interface_), by rw [ScopeRec.getTypeName, if_neg (by simp [hd]), e], ?_, by simp⟩
  rw [ScopeRec.getInterfaceName, if_neg (by simp [hd])]
  dsimp only
  rw [C32_iterNext h _ f]
  have := any_walk h .interface_ l false
  rcases hw : walk (fun (_ : Bool) a => (decide (h.kind (some a) = .interface_), !decide (h.kind (some a) = .interface_))) false l with ⟨b, q⟩
  rw [hw] at this
  simp only at this ⊢
  rw [ScopeRec.getTypeName, if_neg (by simp [hd]), e, this]
  cases l <;> simp

/-- **C22** On a scope of another kind every getter of type names returns `("", false)`. -/
theorem C22_other (h : Heap) (d : ScopeRec) (hd : d.kind ≠ .type_) :
    d.getTypeName h = some ([], false) ∧ d.getStructName h = some ([], false) ∧ d.getInterfaceName h = some ([], false) := by
  simp [ScopeRec.getTypeName, ScopeRec.getStructName, ScopeRec.getInterfaceName, hd]

/-- What the five getters say about the scope number `i` of a text. -/
def names (text : Bytes) (i : Nat) : Option (List (Bytes × Bool)) :=
  match parseScope Heap.empty 0 text with
  | none => none
  | some (h, scs) =>
    match scs[i]? with
    | none => none
    | some sc => [sc.getFuncName h, sc.getTypeName h, sc.getStructName h, sc.getInterfaceName h, sc.getMethodReceiver h,
        sc.getMethodName h].mapM id

/-- **C22** A struct with an interface-typed field is reported as a struct and as an interface. -/
theorem C22_both : names b!"package a\ntype S struct {\n\tx interface{}\n}\n" 1 =
    some [(b!"", false), (b!"S", true), (b!"S", true), (b!"S", true), (b!"", false), (b!"", false)] := by decide +kernel

/-- **C22** When there is no name the getter returns the text of the last node, with false. -/
theorem C22_last_text : names b!"package a\nfunc f(x int) int {\n}\n" 1 =
    some [(b!"f", true), (b!"", false), (b!"", false), (b!"", false), (b!"\n", false), (b!"", false)] := by decide +kernel

/-- `C22_struct` and `C22_interface`: a struct, an interface and a type that is neither. -/
example : names b!"package a\ntype S struct {\n\tx int\n}\n" 1 =
      some [(b!"", false), (b!"S", true), (b!"S", true), (b!"S", false), (b!"", false), (b!"", false)] ∧
    names b!"package a\ntype I interface {\n\tM()\n}\n" 1 =
      some [(b!"", false), (b!"I", true), (b!"I", false), (b!"I", true), (b!"", false), (b!"", false)] ∧
    names b!"package a\ntype N int\n" 1 =
      some [(b!"", false), (b!"N", true), (b!"N", false), (b!"N", false), (b!"", false), (b!"", false)] := by decide +kernel

end Goast
