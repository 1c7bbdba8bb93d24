import Verif.Spec.Links

/-!
# The effect of the link operations on `next` and `prev`
-/

namespace Goast
namespace Heap

/-! ## Basic observers after a modification -/

@[simp] theorem size_modify (h : Heap) (a f) : (h.modify a f).size = h.size := by
  simp [size, modify]

theorem getElem?_modify (h : Heap) (a f x) :
    (h.modify a f).cells[x]? = if a = x then (h.cells[x]?).map f else h.cells[x]? := by
  simp [modify, List.getElem?_modify]
  split <;> simp

theorem next_modify (h : Heap) (a f) (x : Addr) :
    (h.modify a f).next (some x) =
      if a = x then (h.cells[x]?).bind fun r => (f r).next else h.next (some x) := by
  simp only [next, getElem?_modify]
  split
  · cases h.cells[x]? <;> rfl
  · rfl

theorem prev_modify (h : Heap) (a f) (x : Addr) :
    (h.modify a f).prev (some x) =
      if a = x then (h.cells[x]?).bind fun r => (f r).prev else h.prev (some x) := by
  simp only [prev, getElem?_modify]
  split
  · cases h.cells[x]? <;> rfl
  · rfl

theorem line_modify (h : Heap) (a f) (hf : ∀ r, (f r).line = r.line) (p : Ptr) :
    (h.modify a f).line p = h.line p := by
  cases p with
  | none => rfl
  | some x =>
    simp only [line, getElem?_modify]
    by_cases hax : a = x
    · cases h.cells[x]? <;> simp [hf, hax]
    · simp [hax]

theorem kind_modify (h : Heap) (a f) (hf : ∀ r, (f r).kind = r.kind) (p : Ptr) :
    (h.modify a f).kind p = h.kind p := by
  cases p with
  | none => rfl
  | some x =>
    simp only [kind, getElem?_modify]
    by_cases hax : a = x
    · cases h.cells[x]? <;> simp [hf, hax]
    · simp [hax]

theorem text_modify (h : Heap) (a f) (hf : ∀ r, (f r).text = r.text) (p : Ptr) :
    (h.modify a f).text p = h.text p := by
  cases p with
  | none => rfl
  | some x =>
    simp only [text, getElem?_modify]
    by_cases hax : a = x
    · cases h.cells[x]? <;> simp [hf, hax]
    · simp [hax]

@[simp] theorem next_none (h : Heap) : h.next none = none := rfl
@[simp] theorem prev_none (h : Heap) : h.prev none = none := rfl

theorem lt_of_next {h : Heap} {a b : Addr} (hn : h.next (some a) = some b) : a < h.size := by
  simp only [next] at hn
  cases hc : h.cells[a]? with
  | none => simp [hc] at hn
  | some r => exact (List.getElem?_eq_some_iff.1 hc).1

theorem lt_of_prev {h : Heap} {a b : Addr} (hn : h.prev (some a) = some b) : a < h.size := by
  simp only [prev] at hn
  cases hc : h.cells[a]? with
  | none => simp [hc] at hn
  | some r => exact (List.getElem?_eq_some_iff.1 hc).1

theorem getElem?_of_lt {h : Heap} {a : Addr} (ha : a < h.size) : ∃ r, h.cells[a]? = some r :=
  ⟨_, List.getElem?_eq_getElem ha⟩

/-! ## `setNext`, `setPrev` -/

theorem next_setNext (h : Heap) (n nn : Ptr) (hn : Valid h n) (x : Addr) :
    (h.setNext n nn).next (some x) =
      if n = some x ∧ n ≠ nn then nn else h.next (some x) := by
  cases n with
  | none => simp [setNext]
  | some a =>
    have ha := hn a rfl
    obtain ⟨r, hr⟩ := getElem?_of_lt ha
    by_cases he : some a = nn
    · simp [setNext, he]
    · simp only [setNext, he, if_false]
      cases hx : h.next (some a) with
      | none =>
        simp only [next_modify, Option.some.injEq]
        by_cases hax : a = x
        · subst hax; simp [hr, he]
        · simp [hax]
      | some p =>
        simp only [next_modify, getElem?_modify, Option.some.injEq]
        by_cases hax : a = x
        · subst hax
          by_cases hp : p = a
          · subst hp; simp [hr, he]
          · simp [hr, he, hp]
        · by_cases hpx : p = x
          · subst hpx; simp only [next]; cases h.cells[p]? <;> simp [hax]
          · simp [hax, hpx]

theorem prev_setNext (h : Heap) (n nn : Ptr) (x : Addr) :
    (h.setNext n nn).prev (some x) =
      if n ≠ none ∧ n ≠ nn ∧ h.next n = some x then none else h.prev (some x) := by
  cases n with
  | none => simp [setNext]
  | some a =>
    by_cases he : some a = nn
    · simp [setNext, he]
    · simp only [setNext, he, if_false]
      cases hx : h.next (some a) with
      | none =>
        simp only [prev_modify]
        by_cases hax : a = x
        · subst hax; simp only [prev]; simp
        · simp [hax]
      | some p =>
        simp only [prev_modify, getElem?_modify, Option.some.injEq]
        by_cases hpx : p = x
        · subst hpx
          by_cases hap : a = p
          · subst hap; cases h.cells[a]? <;> simp [he]
          · cases h.cells[p]? <;> simp [hap, he]
        · by_cases hax : a = x
          · subst hax; simp only [prev]; simp [hpx]
          · simp [hax, hpx]

theorem sameData_refl (h : Heap) : SameData h h := ⟨rfl, fun _ => ⟨rfl, rfl, rfl⟩⟩

theorem sameData_trans {h₁ h₂ h₃ : Heap} (a : SameData h₁ h₂) (b : SameData h₂ h₃) :
    SameData h₁ h₃ := ⟨b.1.trans a.1, fun p => ⟨(b.2 p).1.trans (a.2 p).1,
      (b.2 p).2.1.trans (a.2 p).2.1, (b.2 p).2.2.trans (a.2 p).2.2⟩⟩

theorem sameData_modify (h : Heap) (a f) (hf : ∀ r : NodeRec, (f r).line = r.line ∧
    (f r).kind = r.kind ∧ (f r).text = r.text) : SameData h (h.modify a f) :=
  ⟨size_modify .., fun p => ⟨line_modify _ _ _ (fun r => (hf r).1) p,
    kind_modify _ _ _ (fun r => (hf r).2.1) p, text_modify _ _ _ (fun r => (hf r).2.2) p⟩⟩

theorem sameData_setNext (h : Heap) (n nn : Ptr) : SameData h (h.setNext n nn) := by
  cases n with
  | none => exact sameData_refl _
  | some a =>
    simp only [setNext]
    split
    · exact sameData_refl _
    · cases h.next (some a) with
      | none => exact sameData_modify _ _ _ fun r => ⟨rfl, rfl, rfl⟩
      | some p =>
        refine sameData_trans (h₂ := h.modify p ({ · with prev := none })) ?_ ?_
        · exact sameData_modify _ _ _ fun r => ⟨rfl, rfl, rfl⟩
        · exact sameData_modify _ _ _ fun r => ⟨rfl, rfl, rfl⟩

@[simp] theorem size_setNext (h : Heap) (n nn : Ptr) : (h.setNext n nn).size = h.size :=
  (sameData_setNext h n nn).1

/-! ## Mirror symmetry: swapping `prev` and `next` exchanges the two directions -/

/-- Swap the two links of a node. -/
def _root_.Goast.NodeRec.mirror (r : NodeRec) : NodeRec :=
  { r with prev := r.next, next := r.prev }

/-- Swap the links of every node. -/
def mirror (h : Heap) : Heap := ⟨h.cells.map NodeRec.mirror⟩

@[simp] theorem mirror_mirror (h : Heap) : h.mirror.mirror = h := by
  cases h with
  | mk cells =>
    simp only [mirror, List.map_map]
    congr 1
    conv => rhs; rw [← List.map_id cells]
    congr 1

@[simp] theorem size_mirror (h : Heap) : h.mirror.size = h.size := by simp [mirror, size]

@[simp] theorem next_mirror (h : Heap) (p : Ptr) : h.mirror.next p = h.prev p := by
  cases p with
  | none => rfl
  | some a => simp only [next, prev, mirror, List.getElem?_map]; cases h.cells[a]? <;> rfl

@[simp] theorem prev_mirror (h : Heap) (p : Ptr) : h.mirror.prev p = h.next p := by
  cases p with
  | none => rfl
  | some a => simp only [next, prev, mirror, List.getElem?_map]; cases h.cells[a]? <;> rfl

@[simp] theorem line_mirror (h : Heap) (p : Ptr) : h.mirror.line p = h.line p := by
  cases p with
  | none => rfl
  | some a => simp only [line, mirror, List.getElem?_map]; cases h.cells[a]? <;> rfl

@[simp] theorem kind_mirror (h : Heap) (p : Ptr) : h.mirror.kind p = h.kind p := by
  cases p with
  | none => rfl
  | some a => simp only [kind, mirror, List.getElem?_map]; cases h.cells[a]? <;> rfl

@[simp] theorem text_mirror (h : Heap) (p : Ptr) : h.mirror.text p = h.text p := by
  cases p with
  | none => rfl
  | some a => simp only [text, mirror, List.getElem?_map]; cases h.cells[a]? <;> rfl

theorem modify_mirror (h : Heap) (a : Addr) (f : NodeRec → NodeRec) :
    (h.modify a f).mirror = h.mirror.modify a (fun r => (f r.mirror).mirror) := by
  simp only [mirror, modify]
  congr 1
  apply List.ext_getElem?
  intro i
  simp only [List.getElem?_map, List.getElem?_modify]
  split <;> cases h.cells[i]? <;> rfl

theorem setPrev_eq_mirror (h : Heap) (n nn : Ptr) :
    h.setPrev n nn = (h.mirror.setNext n nn).mirror := by
  cases n with
  | none => simp [setPrev, setNext]
  | some a =>
    simp only [setPrev, setNext, next_mirror]
    split
    · simp
    · cases h.prev (some a) with
      | none => simp [modify_mirror, NodeRec.mirror]
      | some p => simp [modify_mirror, NodeRec.mirror]

theorem setNext_eq_mirror (h : Heap) (n nn : Ptr) :
    h.setNext n nn = (h.mirror.setPrev n nn).mirror := by
  rw [setPrev_eq_mirror]; simp

theorem setNext_mirror (h : Heap) (n nn : Ptr) : h.mirror.setNext n nn = (h.setPrev n nn).mirror := by
  rw [setPrev_eq_mirror]; simp

theorem setPrev_mirror (h : Heap) (n nn : Ptr) : h.mirror.setPrev n nn = (h.setNext n nn).mirror := by
  rw [setNext_eq_mirror]; simp

theorem prev_setPrev (h : Heap) (n nn : Ptr) (hn : Valid h n) (x : Addr) :
    (h.setPrev n nn).prev (some x) =
      if n = some x ∧ n ≠ nn then nn else h.prev (some x) := by
  rw [setPrev_eq_mirror, prev_mirror, next_setNext _ _ _ (by simpa [Valid] using hn), next_mirror]

theorem next_setPrev (h : Heap) (n nn : Ptr) (x : Addr) :
    (h.setPrev n nn).next (some x) =
      if n ≠ none ∧ n ≠ nn ∧ h.prev n = some x then none else h.next (some x) := by
  rw [setPrev_eq_mirror, next_mirror, prev_setNext, next_mirror, prev_mirror]

theorem sameData_mirror (h : Heap) : SameData h h.mirror :=
  ⟨size_mirror h, fun p => ⟨line_mirror h p, kind_mirror h p, text_mirror h p⟩⟩

theorem sameData_setPrev (h : Heap) (n nn : Ptr) : SameData h (h.setPrev n nn) := by
  rw [setPrev_eq_mirror]
  exact sameData_trans (sameData_mirror h)
    (sameData_trans (sameData_setNext _ _ _) (sameData_mirror _))

@[simp] theorem size_setPrev (h : Heap) (n nn : Ptr) : (h.setPrev n nn).size = h.size :=
  (sameData_setPrev h n nn).1

end Heap

theorem WF.mirror {h : Heap} (w : WF h) : WF h.mirror where
  inverse a b := by simp [w.inverse b a]
  irrefl a := by
    rw [Heap.next_mirror]
    intro hh
    exact w.irrefl a ((w.inverse a a).2 hh)

theorem Valid.mirror {h : Heap} {p : Ptr} (v : Valid h p) : Valid h.mirror p := by
  simpa [Valid] using v

theorem Valid.none (h : Heap) : Valid h Option.none := by intro a ha; cases ha

theorem WF.valid_next {h : Heap} (w : WF h) (p : Ptr) : Valid h (h.next p) := by
  intro b hb
  cases p with
  | none => simp at hb
  | some a => exact Heap.lt_of_prev ((w.inverse a b).1 hb)

theorem WF.valid_prev {h : Heap} (w : WF h) (p : Ptr) : Valid h (h.prev p) := by
  intro b hb
  cases p with
  | none => simp at hb
  | some a => exact Heap.lt_of_next ((w.inverse b a).2 hb)

end Goast
