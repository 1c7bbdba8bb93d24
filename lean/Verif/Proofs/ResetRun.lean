import Verif.Proofs.ResetType

/-!
# `resetKind` keeps the invariant
-/

set_option linter.unusedSimpArgs false
set_option linter.unusedVariables false

namespace Goast

open Classical in
/-- The number of nodes behind a node. -/
noncomputable def behind (h : Heap) (ac : Acyclic h) (a : Addr) : Nat :=
  if ha : a < h.size then (Classical.choose (ac a ha)).length - 1 else 0

theorem behind_lt {h : Heap} (ac : Acyclic h) {a : Addr} (ha : a < h.size) : behind h ac a < h.size := by
  simp only [behind, ha, dif_pos]
  have f := Classical.choose_spec (ac a ha)
  have := f.length_le
  omega

theorem behind_next {h : Heap} (w : WF h) (ac : Acyclic h) (a b : Addr) (hab : h.next (some a) = some b) :
    behind h ac b < behind h ac a := by
  have ha := Heap.lt_of_next hab
  have hb := w.valid_next _ _ hab
  simp only [behind, ha, hb, dif_pos]
  have fa := Classical.choose_spec (ac a ha)
  have fb := Classical.choose_spec (ac b hb)
  have e : Fwd h (some a) (a :: Classical.choose (ac b hb)) := .cons ha (by rw [hab]; exact fb)
  rw [Fwd.det fa e]
  cases hl : Classical.choose (ac b hb) with
  | nil => rw [hl] at fb; cases fb
  | cons x l => simp

/-- The data of a run of `resetKind` on the chain `l`. -/
noncomputable def rctx (h : Heap) (ac : Acyclic h) (l : List Addr) (X : Heap → Prop) : RCtx :=
  { f := behind h ac, S := (· ∈ l), h0 := h, F := h.size, top := h.size, ne := false, X }

theorem chain_next_mem {h : Heap} {l : List Addr} (w : WF h) (ch : Chain h l) {a b : Addr}
    (e : h.next (some a) = some b) : a ∈ l ↔ b ∈ l := by
  constructor
  · intro ha
    obtain ⟨l₁, l₂, rfl⟩ := ch.fwd.next_mem ha e
    simp
  · intro hb
    obtain ⟨l₁, l₂, rfl⟩ := List.append_of_mem hb
    rcases l₁.eq_nil_or_concat with rfl | ⟨l₁, x, rfl⟩
    · have := ch.2.1 b (by simp)
      rw [(w.inverse a b).1 e] at this
      cases this
    · have := (ch.2.2.2 l₁ x b l₂ (by simp)).2
      rw [(w.inverse a b).1 e] at this
      cases this
      simp

theorem good_start {h : Heap} (w : WF h) (ac : Acyclic h) {l : List Addr} (ch : Chain h l) {X : Heap → Prop}
    (hx : X h) : Good (rctx h ac l X) h where
  wf := w
  size := rfl
  rank := behind_next w ac
  closed :=
    { lt := fun a ra => ra.1
      next := fun a b ra e => ⟨w.valid_next _ _ e, fun hb => ra.2 ((chain_next_mem w ch e).2 hb)⟩
      prev := fun a b ra e => ⟨by
          have := (w.inverse b a).2 e
          exact Heap.lt_of_next this, fun hb => ra.2 ((chain_next_mem w ch ((w.inverse b a).2 e)).1 hb)⟩ }
  same := fun a _ => ⟨rfl, rfl, rfl⟩
  line _ := rfl
  comm _ := Iff.rfl
  kinds _ := .inl rfl
  x := hx

theorem inv_start {h : Heap} (w : WF h) (ac : Acyclic h) {l : List Addr} (ch : Chain h l) {X : Heap → Prop}
    (hx : X h) : Inv (rctx h ac l X) ⟨h, []⟩ where
  good := good_start w ac ch hx
  buf p ps e := by cases e
  ne e := by cases e

/-- The general form: any property `X` of heaps that survives relabelling and merging. -/
theorem resetKind_good {h : Heap} (w : WF h) (ac : Acyclic h) {l : List Addr} (ch : Chain h l) {a : Addr}
    (ha : a ∈ l) {X : Heap → Prop} (hx : X h) (o : (rctx h ac l X).OK)
    (hparam : h.kind (some a) = .type_ → ∀ w b, Inv (rctx h ac l X) w → b ∈ l → behind h ac b ≤ behind h ac a →
      w.heap.kind (some b) = .raw →
      Tot (rctx h ac l X) (behind h ac a) (paramRun (resetDepth h) w (some b))) :
    ∃ h' r, resetKind h (some a) = some (h', r) ∧ Good (rctx h ac l X) h' := by
  have i := inv_start w ac ch hx
  have hlt : behind h ac a < h.size := behind_lt ac (ch.1 a ha)
  have hp : (rctx h ac l X).P (behind h ac a) (some a) := .some ha (Nat.le_refl _)
  have hM : behind h ac a ≤ (rctx h ac l X).F := Nat.le_of_lt hlt
  have hd : 8 * behind h ac a + 5 ≤ resetDepth h := by unfold resetDepth; omega
  unfold resetKind
  split
  · obtain ⟨w', r, e, i', _⟩ := (fns o (resetDepth h)).func _ { isFuncKeywordLeading := true } ⟨h, []⟩ (some a) []
      hM H_nil i hp hd
    exact ⟨w'.heap, r, by rw [e]; rfl, i'.good⟩
  · rename_i hk
    obtain ⟨w', r, e, i', _⟩ := typeRun_inv o (M := behind h ac a) (d := resetDepth h)
      (fun w b i sb fb hk' => hparam hk w b i sb fb hk') i hM hp hd
    exact ⟨w'.heap, r, by rw [e]; rfl, i'.good⟩
  · exact ⟨h, none, rfl, i.good⟩

theorem ok_true {h : Heap} (ac : Acyclic h) {l : List Addr} (ch : Chain h l) : (rctx h ac l fun _ => True).OK where
  lt := ch.1
  bound a ha := behind_lt ac (ch.1 a ha)
  xKind := fun _ _ _ _ _ _ _ _ => trivial
  xMerge := fun _ _ _ _ _ _ _ _ _ _ => trivial

theorem resetKind_inv {h : Heap} (w : WF h) (ac : Acyclic h) {l : List Addr} (ch : Chain h l) {a : Addr}
    (ha : a ∈ l) : ∃ h' r, resetKind h (some a) = some (h', r) ∧ Good (rctx h ac l fun _ => True) h' := by
  have hlt : behind h ac a < h.size := behind_lt ac (ch.1 a ha)
  refine resetKind_good w ac ch ha trivial (ok_true ac ch) ?_
  intro _ w b i sb fb _
  exact paramRun_inv (ok_true ac ch) (fun _ _ _ _ _ _ _ _ _ _ => trivial) i (Nat.le_of_lt hlt) (Nat.le_of_lt hlt) (.some sb fb) (by unfold resetDepth; omega)

end Goast
