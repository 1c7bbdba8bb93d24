import Verif.Proofs.Loop

/-!
# `Copy` and `NewNodes` allocate whole chains
-/

set_option linter.unusedSimpArgs false

namespace Goast
namespace Heap

/-- A copy of a node with new links. -/
def copyCell (h : Heap) (a : Addr) (pre nxt : Ptr) : NodeRec :=
  ⟨h.line (some a), h.kind (some a), h.text (some a), pre, nxt⟩

/-- The cells `deepCopy` makes when it walks backwards. -/
def backCells (h : Heap) : Nat → Ptr → List Addr → List NodeRec
  | _, _, [] => []
  | s, nxt, a :: l =>
    copyCell h a (if l = [] then none else some (s + 1)) nxt :: backCells h (s + 1) (some s) l

/-- The cells `deepCopy` makes when it walks forwards. -/
def fwdCells (h : Heap) : Nat → Ptr → List Addr → List NodeRec
  | _, _, [] => []
  | s, pre, a :: l =>
    copyCell h a pre (if l = [] then none else some (s + 1)) :: fwdCells h (s + 1) (some s) l

@[simp] theorem length_backCells (h : Heap) (l : List Addr) : ∀ s q, (backCells h s q l).length = l.length := by
  induction l with
  | nil => intros; rfl
  | cons a l ih => intro s q; simp [backCells, ih]

@[simp] theorem length_fwdCells (h : Heap) (l : List Addr) : ∀ s q, (fwdCells h s q l).length = l.length := by
  induction l with
  | nil => intros; rfl
  | cons a l ih => intro s q; simp [fwdCells, ih]

theorem modify_append_length {α : Type} (f : α → α) (r : α) (rest : List α) : ∀ l : List α,
    (l ++ r :: rest).modify l.length f = l ++ f r :: rest := by
  intro l
  induction l with
  | nil => rfl
  | cons a l ih => simp [List.modify_succ_cons, ih]

theorem modify_extend (h : Heap) (es : List NodeRec) (r : NodeRec) (rest : List NodeRec) (f) :
    (h.extend (es ++ r :: rest)).modify (h.size + es.length) f = h.extend (es ++ f r :: rest) := by
  simp only [extend, modify, size, Heap.mk.injEq]
  rw [← List.append_assoc, ← List.append_assoc]
  have : h.cells.length + es.length = (h.cells ++ es).length := by simp
  rw [this, modify_append_length]

theorem deepCopy_back (h : Heap) {p : Ptr} {l : List Addr} (b : Bwd h p l) :
    ∀ (fuel : Nat) (es : List NodeRec) (q : Addr), l.length ≤ fuel →
    deepCopy fuel (h.extend es) p none (some q) =
      some (h.extend (es ++ backCells h (h.size + es.length) (some q) l),
        if l = [] then none else some (h.size + es.length)) := by
  induction b with
  | nil => intro fuel es q _; cases fuel <;> simp [deepCopy, backCells]
  | @cons a l ha b ih =>
    intro fuel es q hl
    cases fuel with
    | zero => simp at hl
    | succ fuel =>
      simp only [deepCopy, alloc_eq, extend_extend]
      rw [prev_extend_lt ha]
      have e : (h.extend es).size = h.size + es.length := size_extend ..
      rw [e]
      rw [ih fuel _ _ (by simpa using hl)]
      simp only [line_extend_lt ha, kind_extend_lt ha, text_extend_lt ha, List.append_assoc,
        List.singleton_append, modify_extend, List.length_append, List.length_singleton]
      simp [backCells, copyCell, Nat.add_assoc]

theorem deepCopy_fwd (h : Heap) {p : Ptr} {l : List Addr} (b : Fwd h p l) :
    ∀ (fuel : Nat) (es : List NodeRec) (q : Addr), l.length ≤ fuel →
    deepCopy fuel (h.extend es) p (some q) none =
      some (h.extend (es ++ fwdCells h (h.size + es.length) (some q) l),
        if l = [] then none else some (h.size + es.length)) := by
  induction b with
  | nil => intro fuel es q _; cases fuel <;> simp [deepCopy, fwdCells]
  | @cons a l ha b ih =>
    intro fuel es q hl
    cases fuel with
    | zero => simp at hl
    | succ fuel =>
      simp only [deepCopy, alloc_eq, extend_extend]
      rw [next_extend_lt ha]
      have e : (h.extend es).size = h.size + es.length := size_extend ..
      rw [e]
      rw [ih fuel _ _ (by simpa using hl)]
      simp only [line_extend_lt ha, kind_extend_lt ha, text_extend_lt ha, List.append_assoc,
        List.singleton_append, modify_extend, List.length_append, List.length_singleton]
      simp [fwdCells, copyCell, Nat.add_assoc]

/-- The cells of a relative copy of node `a` with predecessors `lb` (nearest first) and successors
`lf`, allocated from address `s` on. -/
def copyCells (h : Heap) (s : Nat) (a : Addr) (lb lf : List Addr) : List NodeRec :=
  copyCell h a (if lb = [] then none else some (s + 1))
      (if lf = [] then none else some (s + 1 + lb.length)) ::
    (backCells h (s + 1) (some s) lb ++ fwdCells h (s + 1 + lb.length) (some s) lf)

theorem copy_eq (h : Heap) {a : Addr} {lb lf : List Addr} (b : Bwd h (some a) (a :: lb))
    (f : Fwd h (some a) (a :: lf)) :
    h.copy (some a) true = some (h.extend (copyCells h h.size a lb lf), some h.size) := by
  have hb := Bwd.cons_iff.1 b
  have hf := Fwd.cons_iff.1 f
  have lb_le := b.length_le
  have lf_le := f.length_le
  simp only [List.length_cons] at lb_le lf_le
  simp only [copy, if_true, deepCopy, alloc_eq]
  rw [prev_extend_lt hb.2.1, deepCopy_back h hb.2.2 _ _ _ (by omega)]
  simp only [next_extend_lt hb.2.1]
  rw [deepCopy_fwd h hf.2.2 _ _ _ (by omega)]
  have := modify_extend h []
  simp only [List.nil_append, List.length_nil, Nat.add_zero] at this
  simp only [List.singleton_append, List.cons_append, this]
  simp [copyCells, copyCell, Nat.add_assoc, Nat.add_comm, Nat.add_left_comm]

/-! ### Partial correctness: a copy that returns copied a finite chain -/

theorem bwd_of_deepCopy (h : Heap) (w : WF h) : ∀ (fuel : Nat) (es : List NodeRec) (p : Ptr) (q : Addr) r,
    Valid h p → deepCopy fuel (h.extend es) p none (some q) = some r → ∃ l, Bwd h p l := by
  intro fuel
  induction fuel with
  | zero =>
    intro es p q r hv hd
    cases p with
    | none => exact ⟨[], .nil⟩
    | some a => simp [deepCopy] at hd
  | succ fuel ih =>
    intro es p q r hv hd
    cases p with
    | none => exact ⟨[], .nil⟩
    | some a =>
      have ha := hv a rfl
      simp only [deepCopy, alloc_eq, extend_extend] at hd
      rw [prev_extend_lt ha] at hd
      split at hd
      · cases hd
      · rename_i h1 p1 hc
        obtain ⟨l, hl⟩ := ih _ _ _ _ (w.valid_prev _) hc
        exact ⟨a :: l, .cons ha hl⟩

theorem fwd_of_deepCopy (h : Heap) (w : WF h) : ∀ (fuel : Nat) (es : List NodeRec) (p : Ptr) (q : Addr) r,
    Valid h p → deepCopy fuel (h.extend es) p (some q) none = some r → ∃ l, Fwd h p l := by
  intro fuel
  induction fuel with
  | zero =>
    intro es p q r hv hd
    cases p with
    | none => exact ⟨[], .nil⟩
    | some a => simp [deepCopy] at hd
  | succ fuel ih =>
    intro es p q r hv hd
    cases p with
    | none => exact ⟨[], .nil⟩
    | some a =>
      have ha := hv a rfl
      simp only [deepCopy, alloc_eq, extend_extend] at hd
      rw [next_extend_lt ha] at hd
      split at hd
      · cases hd
      · rename_i h1 p1 hc
        obtain ⟨l, hl⟩ := ih _ _ _ _ (w.valid_next _) hc
        exact ⟨a :: l, .cons ha hl⟩

theorem lists_of_copy (h : Heap) (w : WF h) (a : Addr) (ha : a < h.size) (r)
    (hc : h.copy (some a) true = some r) :
    ∃ lb lf, Bwd h (some a) (a :: lb) ∧ Fwd h (some a) (a :: lf) := by
  simp only [copy, if_true, deepCopy, alloc_eq] at hc
  rw [prev_extend_lt ha] at hc
  split at hc
  · cases hc
  · rename_i h1 p1 hd
    obtain ⟨lb, hb⟩ := bwd_of_deepCopy h w _ _ _ _ _ (w.valid_prev _) hd
    have e := deepCopy_back h hb h.size [⟨h.line (some a), h.kind (some a), h.text (some a), none, none⟩]
      h.size hb.length_le
    rw [e] at hd
    cases hd
    rw [next_extend_lt ha] at hc
    split at hc
    · cases hc
    · rename_i h2 p2 hd2
      obtain ⟨lf, hf⟩ := fwd_of_deepCopy h w _ _ _ _ _ (w.valid_next _) hd2
      exact ⟨lb, lf, .cons ha hb, .cons ha hf⟩

/-! ### Links inside the copied cells -/

theorem getElem?_backCells (h : Heap) (l : List Addr) : ∀ (s : Nat) (q : Ptr) (i : Nat) (a : Addr),
    l[i]? = some a → (backCells h s q l)[i]? =
      some (copyCell h a (if i + 1 = l.length then none else some (s + i + 1))
        (if i = 0 then q else some (s + i - 1))) := by
  induction l with
  | nil => intro s q i a hi; simp at hi
  | cons x l ih =>
    intro s q i a hi
    cases i with
    | zero =>
      simp only [List.getElem?_cons_zero, Option.some.injEq] at hi
      subst hi
      cases l <;> simp [backCells]
    | succ i =>
      rw [List.getElem?_cons_succ] at hi
      simp only [backCells, List.getElem?_cons_succ]
      rw [ih (s + 1) _ i a hi]
      simp only [List.length_cons]
      congr 2
      · by_cases hl : i + 1 = l.length
        · simp [hl]
        · simp [hl, Nat.add_assoc, Nat.add_comm, Nat.add_left_comm]
      · cases i <;> simp [Nat.add_assoc, Nat.add_comm, Nat.add_left_comm]

theorem getElem?_fwdCells (h : Heap) (l : List Addr) : ∀ (s : Nat) (q : Ptr) (i : Nat) (a : Addr),
    l[i]? = some a → (fwdCells h s q l)[i]? =
      some (copyCell h a (if i = 0 then q else some (s + i - 1))
        (if i + 1 = l.length then none else some (s + i + 1))) := by
  induction l with
  | nil => intro s q i a hi; simp at hi
  | cons x l ih =>
    intro s q i a hi
    cases i with
    | zero =>
      simp only [List.getElem?_cons_zero, Option.some.injEq] at hi
      subst hi
      cases l <;> simp [fwdCells]
    | succ i =>
      rw [List.getElem?_cons_succ] at hi
      simp only [fwdCells, List.getElem?_cons_succ]
      rw [ih (s + 1) _ i a hi]
      simp only [List.length_cons]
      congr 2
      · cases i <;> simp [Nat.add_assoc, Nat.add_comm, Nat.add_left_comm]
      · by_cases hl : i + 1 = l.length
        · simp [hl]
        · simp [hl, Nat.add_assoc, Nat.add_comm, Nat.add_left_comm]

theorem copyCells_next (h : Heap) (s : Nat) (a : Addr) (lb lf : List Addr) (j : Nat) :
    (copyCells h s a lb lf)[j]?.bind (·.next) =
      if j = 0 then (if lf.length = 0 then none else some (s + 1 + lb.length))
      else if j ≤ lb.length then some (s + j - 1)
      else if j < lb.length + lf.length then some (s + j + 1) else none := by
  cases j with
  | zero => simp [copyCells, copyCell]
  | succ j =>
    simp only [copyCells, List.getElem?_cons_succ]
    by_cases h1 : j < lb.length
    · rw [List.getElem?_append_left (by simpa using h1),
        getElem?_backCells h lb _ _ j lb[j] (List.getElem?_eq_getElem h1)]
      have : j + 1 ≤ lb.length := h1
      simp [copyCell, this]
      try omega
    · rw [List.getElem?_append_right (by simpa using h1), length_backCells]
      have h1' : ¬ (j + 1 ≤ lb.length) := by omega
      by_cases h2 : j - lb.length < lf.length
      · rw [getElem?_fwdCells h lf _ _ _ lf[j - lb.length] (List.getElem?_eq_getElem h2)]
        simp only [copyCell, Option.bind_some, h1']
        by_cases h3 : j - lb.length + 1 = lf.length
        · simp [h3]; omega
        · simp [h3]; omega
      · rw [List.getElem?_eq_none (by simpa using h2)]
        have : ¬ (j + 1 < lb.length + lf.length) := by omega
        simp [h1', this]

theorem copyCells_prev (h : Heap) (s : Nat) (a : Addr) (lb lf : List Addr) (j : Nat) :
    (copyCells h s a lb lf)[j]?.bind (·.prev) =
      if j = 0 then (if lb.length = 0 then none else some (s + 1))
      else if j < lb.length then some (s + j + 1)
      else if j ≤ lb.length then none
      else if j ≤ lb.length + lf.length then (if j = lb.length + 1 then some s else some (s + j - 1))
      else none := by
  cases j with
  | zero => simp [copyCells, copyCell]
  | succ j =>
    simp only [copyCells, List.getElem?_cons_succ]
    by_cases h1 : j < lb.length
    · rw [List.getElem?_append_left (by simpa using h1),
        getElem?_backCells h lb _ _ j lb[j] (List.getElem?_eq_getElem h1)]
      have : j + 1 ≤ lb.length := h1
      by_cases h3 : j + 1 = lb.length
      · simp [copyCell, h3]
      · have : j + 1 < lb.length := by omega
        simp [copyCell, h3, this]; omega
    · rw [List.getElem?_append_right (by simpa using h1), length_backCells]
      have h1' : ¬ (j + 1 < lb.length) := by omega
      have h1'' : ¬ (j + 1 ≤ lb.length) := by omega
      by_cases h2 : j - lb.length < lf.length
      · rw [getElem?_fwdCells h lf _ _ _ lf[j - lb.length] (List.getElem?_eq_getElem h2)]
        have h4 : j + 1 ≤ lb.length + lf.length := by omega
        simp only [copyCell, Option.bind_some, h1', h1'', h4]
        by_cases h3 : j - lb.length = 0
        · have : j = lb.length := by omega
          simp [this]
        · have : j ≠ lb.length := by omega
          simp [h3, this]; omega
      · rw [List.getElem?_eq_none (by simpa using h2)]
        have : ¬ (j + 1 ≤ lb.length + lf.length) := by omega
        simp [h1', h1'', this]

theorem wf_extend_copyCells {h : Heap} (w : WF h) (a : Addr) (lb lf : List Addr) :
    WF (h.extend (copyCells h h.size a lb lf)) := by
  have split : ∀ x : Addr, x < h.size ∨ ∃ j, x = h.size + j := fun x => by
    by_cases hx : x < h.size
    · exact .inl hx
    · exact .inr ⟨x - h.size, by omega⟩
  constructor
  · intro x y
    rcases split x with hx | ⟨j, rfl⟩ <;> rcases split y with hy | ⟨k, rfl⟩
    · rw [next_extend_lt hx, prev_extend_lt hy]; exact w.inverse x y
    · rw [next_extend_lt hx, prev_extend_ge, copyCells_prev]
      constructor
      · intro hh; have := w.valid_next _ _ hh; omega
      · intro hh
        exfalso
        repeat' (split at hh)
        all_goals (first | (simp only [Option.some.injEq] at hh; omega) | cases hh)
    · rw [next_extend_ge, prev_extend_lt hy, copyCells_next]
      constructor
      · intro hh
        exfalso
        repeat' (split at hh)
        all_goals (first | (simp only [Option.some.injEq] at hh; omega) | cases hh)
      · intro hh; have := w.valid_prev _ _ hh; omega
    · rw [next_extend_ge, prev_extend_ge, copyCells_next, copyCells_prev]
      grind
  · intro x
    rcases split x with hx | ⟨j, rfl⟩
    · rw [next_extend_lt hx]; exact w.irrefl x
    · rw [next_extend_ge, copyCells_next]
      grind

theorem fwd_range (h : Heap) : ∀ (n t : Nat),
    (∀ i, i < n → t + i < h.size ∧
      h.next (some (t + i)) = if i + 1 = n then none else some (t + i + 1)) →
    Fwd h (if n = 0 then none else some t) (List.range' t n) := by
  intro n
  induction n with
  | zero => intro t _; exact .nil
  | succ n ih =>
    intro t hh
    rw [List.range'_succ]
    refine .cons (hh 0 (by omega)).1 ?_
    have h0 := (hh 0 (by omega)).2
    have := ih (t + 1) (by
      intro i hi
      have := hh (i + 1) (by omega)
      have e : t + 1 + i = t + (i + 1) := by omega
      rw [e]
      refine ⟨this.1, ?_⟩
      rw [this.2]
      by_cases h1 : i + 1 = n
      · simp [h1]
      · simp [h1])
    rw [Nat.add_zero] at h0
    rw [h0]
    cases n with
    | zero => simpa using this
    | succ n => simpa using this

/-- The addresses of the copy, in chain order. -/
def copyAddrs (s : Nat) (nb nf : Nat) : List Addr :=
  (List.range' (s + 1) nb).reverse ++ s :: List.range' (s + 1 + nb) nf

theorem length_copyCells (h s a lb lf) :
    (copyCells h s a lb lf).length = 1 + lb.length + lf.length := by
  simp [copyCells]; omega

theorem chain_copyCells {h : Heap} (w : WF h) (a : Addr) (lb lf : List Addr) :
    Chain (h.extend (copyCells h h.size a lb lf)) (copyAddrs h.size lb.length lf.length) ∧
    Fwd (h.extend (copyCells h h.size a lb lf)) (some h.size)
      (h.size :: List.range' (h.size + 1 + lb.length) lf.length) := by
  have w' := wf_extend_copyCells w a lb lf
  have hsz : (h.extend (copyCells h h.size a lb lf)).size = h.size + (1 + lb.length + lf.length) := by
    rw [size_extend, length_copyCells]
  have hf : Fwd (h.extend (copyCells h h.size a lb lf)) (some h.size)
      (h.size :: List.range' (h.size + 1 + lb.length) lf.length) := by
    refine .cons (by rw [hsz]; omega) ?_
    have e := @next_extend_ge h (copyCells h h.size a lb lf) 0
    rw [copyCells_next] at e
    simp only [Nat.add_zero, if_true] at e
    rw [e]
    refine fwd_range _ _ _ ?_
    intro i hi
    refine ⟨by rw [hsz]; omega, ?_⟩
    rw [show h.size + 1 + lb.length + i = h.size + (1 + lb.length + i) by omega, next_extend_ge,
      copyCells_next]
    grind
  have hb : Bwd (h.extend (copyCells h h.size a lb lf)) (some h.size)
      (h.size :: List.range' (h.size + 1) lb.length) := by
    refine .cons (by rw [hsz]; omega) ?_
    have e := @prev_extend_ge h (copyCells h h.size a lb lf) 0
    rw [copyCells_prev] at e
    simp only [Nat.add_zero, if_true] at e
    rw [e, bwd_iff_fwd_mirror]
    refine fwd_range _ _ _ ?_
    intro i hi
    rw [size_mirror, next_mirror]
    refine ⟨by rw [hsz]; omega, ?_⟩
    rw [show h.size + 1 + i = h.size + (1 + i) by omega, prev_extend_ge, copyCells_prev]
    grind
  exact ⟨chain_of_lists w' hb hf, hf⟩

end Heap
end Goast
