import Verif.Proofs.Chains
import Verif.Spec.Walk

/-!
# `IterNext`, `IterPrev`, `First`, `Last` on finite chains; allocation
-/

namespace Goast
namespace Heap

theorem loop_fwd {σ : Type} (h : Heap) (fn : σ → Addr → σ × Bool) {p : Ptr} {l : List Addr}
    (f : Fwd h p l) : ∀ (fuel : Nat) (s : σ), l.length ≤ fuel →
    loop (fun _ a => h.next (some a)) (fun s a => some (fn s a)) fuel s p = some (walk fn s l) := by
  induction f with
  | nil => intro fuel s _; cases fuel <;> simp [loop, walk]
  | @cons a l ha f ih =>
    intro fuel s hl
    cases fuel with
    | zero => simp at hl
    | succ fuel =>
      simp only [loop, walk]
      rcases hfn : fn s a with ⟨s', _ | _⟩
      · rfl
      · simp only
        exact ih fuel s' (by simpa using hl)

theorem iterNext_eq {σ : Type} (h : Heap) (fn : σ → Addr → σ × Bool) {p : Ptr} {l : List Addr}
    (f : Fwd h p l) (s : σ) : h.iterNext fn s p = some (walk fn s l) :=
  loop_fwd h fn f _ s (by have := f.length_le; omega)

theorem loop_bwd {σ : Type} (h : Heap) (fn : σ → Addr → σ × Bool) {p : Ptr} {l : List Addr}
    (f : Bwd h p l) : ∀ (fuel : Nat) (s : σ), l.length ≤ fuel →
    loop (fun _ a => h.prev (some a)) (fun s a => some (fn s a)) fuel s p = some (walk fn s l) := by
  intro fuel s hl
  have := loop_fwd h.mirror fn (bwd_iff_fwd_mirror.1 f) fuel s hl
  simpa using this

theorem iterPrev_eq {σ : Type} (h : Heap) (fn : σ → Addr → σ × Bool) {p : Ptr} {l : List Addr}
    (f : Bwd h p l) (s : σ) : h.iterPrev fn s p = some (walk fn s l) :=
  loop_bwd h fn f _ s (by have := f.length_le; omega)

/-- Conversely, an iteration that runs to the end has visited a finite forward list. -/
theorem fwd_of_loop {σ : Type} (h : Heap) (w : WF h) (fn : σ → Addr → σ × Bool)
    (hfn : ∀ s a, (fn s a).2 = true) : ∀ (fuel : Nat) (s : σ) (p : Ptr) (r : σ × Ptr), Valid h p →
    loop (fun _ a => h.next (some a)) (fun s a => some (fn s a)) fuel s p = some r →
    ∃ l, Fwd h p l := by
  intro fuel
  induction fuel with
  | zero =>
    intro s p r hv hl
    cases p with
    | none => exact ⟨[], .nil⟩
    | some a => simp [loop] at hl
  | succ fuel ih =>
    intro s p r hv hl
    cases p with
    | none => exact ⟨[], .nil⟩
    | some a =>
      have h1 := hfn s a
      simp only [loop] at hl
      rcases hf : fn s a with ⟨s', b⟩
      rw [hf] at h1 hl
      simp only at h1 hl
      subst h1
      obtain ⟨l, fl⟩ := ih s' _ r (w.valid_next _) hl
      exact ⟨a :: l, .cons (hv a rfl) fl⟩

theorem walk_last (h : Heap) {l : List Addr} : ∀ {p : Ptr}, Fwd h p l →
    (walk (fun (_ : Unit) a => ((), decide (h.next (some a) ≠ none))) () l).2 = l.getLast? := by
  induction l with
  | nil => intro p f; rfl
  | cons a l ih =>
    intro p f
    have f' := Fwd.cons_iff.1 f
    simp only [walk]
    cases l with
    | nil =>
      have := Fwd.nil_iff.1 f'.2.2
      simp [this]
    | cons b l =>
      have := (Fwd.cons_iff.1 f'.2.2).1
      simp only [this, ne_eq, reduceCtorEq, not_false_eq_true, decide_true]
      rw [ih f'.2.2, List.getLast?_cons_cons]

theorem last_eq (h : Heap) {p : Ptr} {l : List Addr} (f : Fwd h p l) :
    h.last p = some l.getLast? := by
  have e := iterNext_eq h (fun (_ : Unit) a => ((), decide (h.next (some a) ≠ none))) f ()
  simp only [last]
  rw [e, Option.map_some, walk_last h f]

theorem first_eq (h : Heap) {p : Ptr} {l : List Addr} (f : Bwd h p l) :
    h.first p = some l.getLast? := by
  have e := iterPrev_eq h (fun (_ : Unit) a => ((), decide (h.prev (some a) ≠ none))) f ()
  simp only [first]
  rw [e]
  have := walk_last h.mirror (bwd_iff_fwd_mirror.1 f)
  simp only [next_mirror] at this
  rw [Option.map_some, this]

/-! ## Allocation -/

/-- A heap with more nodes behind. -/
def extend (h : Heap) (rs : List NodeRec) : Heap := ⟨h.cells ++ rs⟩

@[simp] theorem size_extend (h : Heap) (rs) : (h.extend rs).size = h.size + rs.length := by
  simp [size, extend]

@[simp] theorem extend_nil (h : Heap) : h.extend [] = h := by simp [extend]

theorem extend_extend (h : Heap) (rs rs') : (h.extend rs).extend rs' = h.extend (rs ++ rs') := by
  simp [extend]

theorem getElem?_extend_lt {h : Heap} {rs} {x : Addr} (hx : x < h.size) :
    (h.extend rs).cells[x]? = h.cells[x]? := by
  simp only [extend]
  exact List.getElem?_append_left hx

theorem getElem?_extend_ge {h : Heap} {rs} {i : Nat} :
    (h.extend rs).cells[h.size + i]? = rs[i]? := by
  simp only [extend, size]
  rw [List.getElem?_append_right (by omega)]
  congr 1
  omega

theorem next_extend_lt {h : Heap} {rs} {x : Addr} (hx : x < h.size) :
    (h.extend rs).next (some x) = h.next (some x) := by simp only [next, getElem?_extend_lt hx]

theorem prev_extend_lt {h : Heap} {rs} {x : Addr} (hx : x < h.size) :
    (h.extend rs).prev (some x) = h.prev (some x) := by simp only [prev, getElem?_extend_lt hx]

theorem line_extend_lt {h : Heap} {rs} {x : Addr} (hx : x < h.size) :
    (h.extend rs).line (some x) = h.line (some x) := by simp only [line, getElem?_extend_lt hx]

theorem kind_extend_lt {h : Heap} {rs} {x : Addr} (hx : x < h.size) :
    (h.extend rs).kind (some x) = h.kind (some x) := by simp only [kind, getElem?_extend_lt hx]

theorem text_extend_lt {h : Heap} {rs} {x : Addr} (hx : x < h.size) :
    (h.extend rs).text (some x) = h.text (some x) := by simp only [text, getElem?_extend_lt hx]

theorem next_extend_ge {h : Heap} {rs} {i : Nat} :
    (h.extend rs).next (some (h.size + i)) = (rs[i]?).bind (·.next) := by
  simp only [next, getElem?_extend_ge]

theorem prev_extend_ge {h : Heap} {rs} {i : Nat} :
    (h.extend rs).prev (some (h.size + i)) = (rs[i]?).bind (·.prev) := by
  simp only [prev, getElem?_extend_ge]

theorem alloc_eq (h : Heap) (r : NodeRec) : h.alloc r = (h.extend [r], h.size) := rfl

theorem next_of_ge {h : Heap} {x : Addr} (hx : h.size ≤ x) : h.next (some x) = none := by
  cases hn : h.next (some x) with
  | none => rfl
  | some b => exact absurd (lt_of_next hn) (Nat.not_lt.2 hx)

theorem prev_of_ge {h : Heap} {x : Addr} (hx : h.size ≤ x) : h.prev (some x) = none := by
  cases hn : h.prev (some x) with
  | none => rfl
  | some b => exact absurd (lt_of_prev hn) (Nat.not_lt.2 hx)

/-- Allocating unlinked nodes does not change any link. -/
theorem next_extend_unlinked {h : Heap} {rs} (hr : ∀ r ∈ rs, r.next = none) (p : Ptr) :
    (h.extend rs).next p = h.next p := by
  cases p with
  | none => rfl
  | some x =>
    by_cases hx : x < h.size
    · exact next_extend_lt hx
    · obtain ⟨i, rfl⟩ := Nat.exists_eq_add_of_le (Nat.le_of_not_lt hx)
      rw [next_extend_ge, next_of_ge (by omega)]
      cases hi : rs[i]? with
      | none => rfl
      | some r => exact hr r (List.mem_of_getElem? hi)

theorem prev_extend_unlinked {h : Heap} {rs} (hr : ∀ r ∈ rs, r.prev = none) (p : Ptr) :
    (h.extend rs).prev p = h.prev p := by
  cases p with
  | none => rfl
  | some x =>
    by_cases hx : x < h.size
    · exact prev_extend_lt hx
    · obtain ⟨i, rfl⟩ := Nat.exists_eq_add_of_le (Nat.le_of_not_lt hx)
      rw [prev_extend_ge, prev_of_ge (by omega)]
      cases hi : rs[i]? with
      | none => rfl
      | some r => exact hr r (List.mem_of_getElem? hi)

/-- `NewNode` allocates one unlinked node. -/
theorem newNode_eq (h : Heap) (line : Int) (text : Bytes) (kinds : List Kind) :
    h.newNode line text kinds = (h.extend [⟨line, kinds.headD (Kind.new text), text, none, none⟩], h.size) := by
  cases kinds <;> rfl

theorem wf_extend_unlinked {h : Heap} (w : WF h) {rs} (hn : ∀ r ∈ rs, r.next = none)
    (hp : ∀ r ∈ rs, r.prev = none) : WF (h.extend rs) where
  inverse a b := by rw [next_extend_unlinked hn, prev_extend_unlinked hp]; exact w.inverse a b
  irrefl a := by rw [next_extend_unlinked hn]; exact w.irrefl a

theorem wf_newNode {h : Heap} (w : WF h) (line text kinds) : WF (h.newNode line text kinds).1 := by
  rw [newNode_eq]
  exact wf_extend_unlinked w (by simp) (by simp)

theorem fwd_extend {h : Heap} {rs} {p : Ptr} {l : List Addr} (f : Fwd h p l) :
    Fwd (h.extend rs) p l :=
  f.congr (fun a ha => by rw [size_extend]; exact Nat.lt_add_right _ (f.lt a ha)) (fun a ha => next_extend_lt (f.lt a ha))

/-! ## `SetKind`, `SetText` -/

@[simp] theorem next_setKind (h : Heap) (n : Ptr) (k) (p : Ptr) : (h.setKind n k).next p = h.next p := by
  cases n with
  | none => rfl
  | some a =>
    cases p with
    | none => rfl
    | some x => rw [setKind, next_modify]; split <;> rfl

@[simp] theorem prev_setKind (h : Heap) (n : Ptr) (k) (p : Ptr) : (h.setKind n k).prev p = h.prev p := by
  cases n with
  | none => rfl
  | some a =>
    cases p with
    | none => rfl
    | some x => rw [setKind, prev_modify]; split <;> rfl

@[simp] theorem line_setKind (h : Heap) (n : Ptr) (k) (p : Ptr) : (h.setKind n k).line p = h.line p := by
  cases n with
  | none => rfl
  | some a => exact line_modify h a _ (by intro r; rfl) p

@[simp] theorem text_setKind (h : Heap) (n : Ptr) (k) (p : Ptr) : (h.setKind n k).text p = h.text p := by
  cases n with
  | none => rfl
  | some a => exact text_modify h a _ (by intro r; rfl) p

@[simp] theorem size_setKind (h : Heap) (n : Ptr) (k) : (h.setKind n k).size = h.size := by
  cases n with
  | none => rfl
  | some a => exact size_modify ..

theorem kind_setKind (h : Heap) (a : Addr) (k) (p : Ptr) (ha : a < h.size) :
    (h.setKind (some a) k).kind p = if p = some a then k else h.kind p := by
  cases p with
  | none => rfl
  | some x =>
    obtain ⟨r, hr⟩ := getElem?_of_lt ha
    simp only [setKind, kind, getElem?_modify, Option.some.injEq]
    by_cases hax : a = x
    · subst hax; simp [hr]
    · simp [hax, Ne.symm hax]

@[simp] theorem next_setText (h : Heap) (n : Ptr) (k) (p : Ptr) : (h.setText n k).next p = h.next p := by
  cases n with
  | none => rfl
  | some a =>
    cases p with
    | none => rfl
    | some x => rw [setText, next_modify]; split <;> rfl

@[simp] theorem prev_setText (h : Heap) (n : Ptr) (k) (p : Ptr) : (h.setText n k).prev p = h.prev p := by
  cases n with
  | none => rfl
  | some a =>
    cases p with
    | none => rfl
    | some x => rw [setText, prev_modify]; split <;> rfl

@[simp] theorem line_setText (h : Heap) (n : Ptr) (k) (p : Ptr) : (h.setText n k).line p = h.line p := by
  cases n with
  | none => rfl
  | some a => exact line_modify h a _ (by intro r; rfl) p

@[simp] theorem kind_setText (h : Heap) (n : Ptr) (k) (p : Ptr) : (h.setText n k).kind p = h.kind p := by
  cases n with
  | none => rfl
  | some a => exact kind_modify h a _ (by intro r; rfl) p

@[simp] theorem size_setText (h : Heap) (n : Ptr) (k) : (h.setText n k).size = h.size := by
  cases n with
  | none => rfl
  | some a => exact size_modify ..

theorem text_setText (h : Heap) (a : Addr) (t) (p : Ptr) (ha : a < h.size) :
    (h.setText (some a) t).text p = if p = some a then t else h.text p := by
  cases p with
  | none => rfl
  | some x =>
    obtain ⟨r, hr⟩ := getElem?_of_lt ha
    simp only [setText, text, getElem?_modify, Option.some.injEq]
    by_cases hax : a = x
    · subst hax; simp [hr]
    · simp [hax, Ne.symm hax]

theorem wf_of_links {h h' : Heap} (w : WF h) (hn : ∀ p, h'.next p = h.next p)
    (hp : ∀ p, h'.prev p = h.prev p) : WF h' where
  inverse a b := by rw [hn, hp]; exact w.inverse a b
  irrefl a := by rw [hn]; exact w.irrefl a

theorem wf_setKind {h : Heap} (w : WF h) (n k) : WF (h.setKind n k) :=
  wf_of_links w (by simp) (by simp)

theorem wf_setText {h : Heap} (w : WF h) (n k) : WF (h.setText n k) :=
  wf_of_links w (by simp) (by simp)

/-! ## Combine -/

/-- The incoming nodes that count: neither nil nor the receiver. -/
def realNodes (n : Ptr) (ms : List Ptr) : List Ptr := ms.filter fun m => decide (m ≠ none ∧ n ≠ m)

/-- Isolate nodes one after the other. -/
def isolateAll (h : Heap) (ms : List Ptr) : Heap := ms.foldl isolate h

theorem sameData_isolateAll (ms : List Ptr) : ∀ h : Heap, SameData h (h.isolateAll ms) := by
  induction ms with
  | nil => intro h; exact sameData_refl h
  | cons m ms ih => intro h; exact sameData_trans (sameData_isolate h m) (ih _)

theorem combineLoop_eq (n : Ptr) (ms : List Ptr) : ∀ (h : Heap) (buf : List Bytes),
    combineLoop n h ms buf =
      (h.isolateAll (realNodes n ms), buf ++ (realNodes n ms).map h.text) := by
  induction ms with
  | nil => intro h buf; simp [combineLoop, realNodes, isolateAll]
  | cons m ms ih =>
    intro h buf
    simp only [combineLoop]
    split
    · rename_i hc
      rw [ih]
      have : realNodes n (m :: ms) = realNodes n ms := by
        have : decide (m ≠ none ∧ n ≠ m) = false := by
          rw [decide_eq_false_iff_not]
          rintro ⟨h1, h2⟩
          rcases hc with hc | hc
          · exact h1 hc
          · exact h2 hc
        simp only [realNodes, List.filter_cons, this]
        simp
      rw [this]
    · rename_i hc
      rw [ih]
      have : realNodes n (m :: ms) = m :: realNodes n ms := by
        have : decide (m ≠ none ∧ n ≠ m) = true := by
          rw [decide_eq_true_iff]
          exact ⟨fun hh => hc (.inl hh), fun hh => hc (.inr hh)⟩
        simp only [realNodes, List.filter_cons, this, if_true]
      rw [this]
      have ht : ∀ p, (h.isolate m).text p = h.text p := fun p => ((sameData_isolate h m).2 p).2.2
      simp [isolateAll, ht]

theorem wf_isolateAll (ms : List Ptr) : ∀ {h : Heap}, WF h → (∀ m ∈ ms, Valid h m) →
    WF (h.isolateAll ms) := by
  induction ms with
  | nil => intro h w _; exact w
  | cons m ms ih =>
    intro h w hv
    refine ih (wf_isolate w (hv m (by simp))) ?_
    intro m' hm' a ha
    have := hv m' (by simp [hm']) a ha
    rwa [(sameData_isolate h m).1]

theorem isolateAll_links (ms : List Ptr) : ∀ {h : Heap}, WF h → (∀ m ∈ ms, Valid h m) →
    (∀ m ∈ ms, m ≠ none) → ∀ x : Addr,
    ((h.isolateAll ms).next (some x) =
      if some x ∈ ms ∨ h.next (some x) ∈ ms then none else h.next (some x)) ∧
    ((h.isolateAll ms).prev (some x) =
      if some x ∈ ms ∨ h.prev (some x) ∈ ms then none else h.prev (some x)) := by
  induction ms with
  | nil => intro h _ _ _ x; simp [isolateAll]
  | cons m ms ih =>
    intro h w hv hne x
    have hm := hne m (by simp)
    have e := isolate_links w (hv m (by simp)) x
    have w' := wf_isolate w (hv m (by simp))
    have := ih w' (by
      intro m' hm' a ha
      have := hv m' (by simp [hm']) a ha
      rwa [(sameData_isolate h m).1]) (fun m' hm' => hne m' (by simp [hm'])) x
    rw [show h.isolateAll (m :: ms) = (h.isolate m).isolateAll ms from rfl, this.1, this.2, e.1, e.2]
    have hnone : (none : Ptr) ∉ ms := fun hh => hne none (by simp [hh]) rfl
    have i := w.inverse
    rcases m with _ | a
    · exact absurd rfl hm
    · have e1 : some x = h.prev (some a) ↔ h.next (some x) = some a := by
        rw [i x a]; exact eq_comm
      have e2 : some x = h.next (some a) ↔ h.prev (some x) = some a := by
        rw [← i a x]; exact eq_comm
      simp only [e1, e2, List.mem_cons]
      constructor
      · by_cases c1 : some x = some a
        · simp [c1]
        · by_cases c2 : h.next (some x) = some a
          · simp [c1, c2]
          · simp [c1, c2]
      · by_cases c1 : some x = some a
        · simp [c1]
        · by_cases c2 : h.prev (some x) = some a
          · simp [c1, c2]
          · simp [c1, c2]

end Heap
end Goast
