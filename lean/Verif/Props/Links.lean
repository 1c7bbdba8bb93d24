import Verif.Proofs.History

/-!
# C24-C29: the link operations

Two statements per operation: one about every node (`next`/`prev` of every `x` after the call, nil
arguments included), and list-level ones saying what happens to whole chains.
-/

set_option linter.unusedSimpArgs false

namespace Goast
open Heap

/-! ## C24 InsertNext -/

/-- For every consistent heap and all nodes `n`, `m` (nil included): `m` sits between `n` and `n`'s old
successor, `m`'s old neighbours lose it, and nothing else changes. -/
theorem C24_insertNext {h : Heap} (w : WF h) {n m : Ptr} (hn : Valid h n) (hm : Valid h m)
    (h1 : m ≠ n) (h2 : m ≠ h.next n) :
    SameData h (h.insertNext n m).1 ∧ (h.insertNext n m).2 = (h.prev m, h.next m) ∧
    (∀ x : Addr, (h.insertNext n m).1.next (some x) =
      if some x = n then m else if some x = m then h.next n
      else if h.next (some x) = m then none else h.next (some x)) ∧
    (∀ x : Addr, (h.insertNext n m).1.prev (some x) =
      if some x = m then n else if some x = h.next n then m
      else if h.prev (some x) = m then none else h.prev (some x)) := by
  have e := insertNext_links w hn hm (Ne.symm h1) (Ne.symm h2)
  have i := w.inverse
  refine ⟨sameData_insertNext .., ?_, ?_, ?_⟩
  · simp only [insertNext, Ne.symm h1, Ne.symm h2, or_self, if_false]
  · intro x
    rw [(e x).1]
    rcases m with _ | m
    · by_cases hx : h.next (some x) = none <;> simp [hx]
    · simp only [eq_comm (a := some x) (b := h.prev (some m)), ← i]
  · intro x
    rw [(e x).2]
    rcases m with _ | m
    · by_cases hx : h.prev (some x) = none <;> simp [hx]
    · simp only [eq_comm (a := some x) (b := h.next (some m)), i]

/-- Inserting a node that is already there (or the receiver itself) does nothing. -/
theorem C24_insertNext_noop (h : Heap) (n m : Ptr) (h1 : m = n ∨ m = h.next n) :
    h.insertNext n m = (h, none, none) := by
  have : n = m ∨ h.next n = m := h1.imp Eq.symm Eq.symm
  simp only [insertNext, this, if_true]

/-- From another chain. -/
theorem C24_insertNext_chains {h : Heap} (w : WF h) {A B C D : List Addr} {n m : Addr}
    (c : Chain h (A ++ n :: B)) (d : Chain h (C ++ m :: D)) (dj : ∀ x ∈ A ++ n :: B, x ∉ C ++ m :: D) :
    Chain (h.insertNext (some n) (some m)).1 (A ++ n :: m :: B) ∧
    Chain (h.insertNext (some n) (some m)).1 C ∧ Chain (h.insertNext (some n) (some m)).1 D := by
  have nd := c.nodup
  have nd' := d.nodup
  have i := w.inverse
  rw [Chain.seg] at c d
  simp only [Seg.append, Seg] at c d
  obtain ⟨sA, ln, pn, nn, sB⟩ := c
  obtain ⟨sC, lm, pm, nm, sD⟩ := d
  simp only [List.head?_cons, List.head?_append, Option.or_none, Option.some_or] at *
  simp only [List.nodup_append, List.nodup_cons, List.mem_cons, List.mem_append] at nd nd' dj
  have h1 : n ≠ m := by grind
  have h2 : h.next (some n) ≠ some m := by rw [nn]; intro hh; have := List.mem_of_mem_head? hh; grind
  have e := insertNext_links w (valid_some ln) (valid_some lm) (by simpa using h1) h2
  have hs : (h.insertNext (some n) (some m)).1.size = h.size := (sameData_insertNext ..).1
  generalize (h.insertNext (some n) (some m)).1 = h' at *
  have e1 := fun x => (e x).1
  have e2 := fun x => (e x).2
  simp only [Chain.seg, Seg.append, Seg]
  simp only [List.head?_cons, List.head?_append, Option.or_none, Option.some_or]
  refine ⟨⟨?_, ?_, ?_, ?_, ?_, ?_, ?_, ?_⟩, ?_, ?_⟩
  · segmove sA hs e1 e2
  · grind
  · grind
  · grind
  · grind
  · grind
  · grind
  · segmove sB hs e1 e2
  · segmove sC hs e1 e2
  · segmove sD hs e1 e2

/-- From behind `n` in the same chain: `m` moves forward, what was behind `m` is cut off. -/
theorem C24_insertNext_from_behind {h : Heap} (w : WF h) {A B C : List Addr} {n b m : Addr}
    (c : Chain h (A ++ n :: b :: (B ++ m :: C))) :
    Chain (h.insertNext (some n) (some m)).1 (A ++ n :: m :: b :: B) ∧
    Chain (h.insertNext (some n) (some m)).1 C := by
  have nd := c.nodup
  have i := w.inverse
  rw [Chain.seg] at c
  simp only [Seg.append, Seg] at c
  obtain ⟨sA, ln, pn, nn, lb, pb, nb, sB, lm, pm, nm, sC⟩ := c
  simp only [List.head?_cons, List.head?_append, Option.or_none, Option.some_or] at *
  simp only [List.nodup_append, List.nodup_cons, List.mem_cons, List.mem_append] at nd
  have h1 : n ≠ m := by grind
  have h2 : h.next (some n) ≠ some m := by grind
  have e := insertNext_links w (valid_some ln) (valid_some lm) (by simpa using h1) h2
  have hs : (h.insertNext (some n) (some m)).1.size = h.size := (sameData_insertNext ..).1
  generalize (h.insertNext (some n) (some m)).1 = h' at *
  have e1 := fun x => (e x).1
  have e2 := fun x => (e x).2
  simp only [Chain.seg, Seg.append, Seg]
  simp only [List.head?_cons, List.head?_append, Option.or_none, Option.some_or]
  refine ⟨⟨?_, ?_, ?_, ?_, ?_, ?_, ?_, ?_, ?_, ?_, ?_⟩, ?_⟩
  · segmove sA hs e1 e2
  · grind
  · grind
  · grind
  · grind
  · grind
  · grind
  · grind
  · grind
  · cases B <;> grind
  · segmove sB hs e1 e2
  · segmove sC hs e1 e2

/-- From before `n` in the same chain: `m` moves back, what was before `m` is cut off. -/
theorem C24_insertNext_from_before {h : Heap} (w : WF h) {A B C : List Addr} {n m : Addr}
    (c : Chain h (A ++ m :: (B ++ n :: C))) :
    Chain (h.insertNext (some n) (some m)).1 (B ++ n :: m :: C) ∧
    Chain (h.insertNext (some n) (some m)).1 A := by
  have nd := c.nodup
  have i := w.inverse
  rw [Chain.seg] at c
  simp only [Seg.append, Seg] at c
  obtain ⟨sA, lm, pm, nm, sB, ln, pn, nn, sC⟩ := c
  simp only [List.head?_cons, List.head?_append, Option.or_none, Option.some_or] at *
  simp only [List.nodup_append, List.nodup_cons, List.mem_cons, List.mem_append] at nd
  have h1 : n ≠ m := by grind
  have h2 : h.next (some n) ≠ some m := by rw [nn]; intro hh; have := List.mem_of_mem_head? hh; grind
  have e := insertNext_links w (valid_some ln) (valid_some lm) (by simpa using h1) h2
  have hs : (h.insertNext (some n) (some m)).1.size = h.size := (sameData_insertNext ..).1
  generalize (h.insertNext (some n) (some m)).1 = h' at *
  have e1 := fun x => (e x).1
  have e2 := fun x => (e x).2
  simp only [Chain.seg, Seg.append, Seg]
  simp only [List.head?_cons, List.head?_append, Option.or_none, Option.some_or]
  refine ⟨⟨?_, ?_, ?_, ?_, ?_, ?_, ?_, ?_⟩, ?_⟩
  · segmove sB hs e1 e2
  · grind
  · cases B <;> grind
  · grind
  · grind
  · grind
  · grind
  · segmove sC hs e1 e2
  · segmove sA hs e1 e2


/-- Every other chain stays. -/
theorem C24_insertNext_frame {h : Heap} (w : WF h) {n m : Ptr} (hn : Valid h n) (hm : Valid h m)
    {l : List Addr} (c : Chain h l) (h1 : ∀ x ∈ l, some x ≠ n ∧ some x ≠ m) :
    Chain (h.insertNext n m).1 l := by
  by_cases hc : m = n ∨ m = h.next n
  · rw [C24_insertNext_noop h n m hc]; exact c
  · obtain ⟨sd, _, e1, e2⟩ := C24_insertNext w hn hm (fun hh => hc (.inl hh)) (fun hh => hc (.inr hh))
    have i := w.inverse
    have nd := c.nodup
    rw [Chain.seg] at c ⊢
    have hs := sd.1
    generalize (h.insertNext n m).1 = h' at *
    refine c.change hs none none (by simp) (by simp) nd ?_ ?_
    · intro x hx; rw [e1 x]; have := c.next_mem hx; grind
    · intro x hx; rw [e2 x]
      have := c.prev_mem hx
      rcases n with _ | n
      · simp only [next_none] at *; grind
      · grind

/-! ## C25 InsertPrev -/

/-- Mirror image of `C24_insertNext`. -/
theorem C25_insertPrev {h : Heap} (w : WF h) {n m : Ptr} (hn : Valid h n) (hm : Valid h m)
    (h1 : m ≠ n) (h2 : m ≠ h.prev n) :
    SameData h (h.insertPrev n m).1 ∧ (h.insertPrev n m).2 = (h.prev m, h.next m) ∧
    (∀ x : Addr, (h.insertPrev n m).1.prev (some x) =
      if some x = n then m else if some x = m then h.prev n
      else if h.prev (some x) = m then none else h.prev (some x)) ∧
    (∀ x : Addr, (h.insertPrev n m).1.next (some x) =
      if some x = m then n else if some x = h.prev n then m
      else if h.next (some x) = m then none else h.next (some x)) := by
  have e := insertPrev_links w hn hm (Ne.symm h1) (Ne.symm h2)
  have i := w.inverse
  refine ⟨sameData_insertPrev .., ?_, ?_, ?_⟩
  · simp only [insertPrev, Ne.symm h1, Ne.symm h2, or_self, if_false]
  · intro x
    rw [(e x).1]
    rcases m with _ | m
    · by_cases hx : h.prev (some x) = none <;> simp [hx]
    · simp only [eq_comm (a := some x) (b := h.next (some m)), i]
  · intro x
    rw [(e x).2]
    rcases m with _ | m
    · by_cases hx : h.next (some x) = none <;> simp [hx]
    · simp only [eq_comm (a := some x) (b := h.prev (some m)), ← i]

/-- Inserting a node that is already there (or the receiver itself) does nothing. -/
theorem C25_insertPrev_noop (h : Heap) (n m : Ptr) (h1 : m = n ∨ m = h.prev n) :
    h.insertPrev n m = (h, none, none) := by
  have : n = m ∨ h.prev n = m := h1.imp Eq.symm Eq.symm
  simp only [insertPrev, this, if_true]

/-- From another chain. -/
theorem C25_insertPrev_chains {h : Heap} (w : WF h) {A B C D : List Addr} {n m : Addr}
    (c : Chain h (A ++ n :: B)) (d : Chain h (C ++ m :: D)) (dj : ∀ x ∈ A ++ n :: B, x ∉ C ++ m :: D) :
    Chain ((h.insertPrev (some n) (some m)).1) (A ++ m :: n :: B) ∧
    Chain ((h.insertPrev (some n) (some m)).1) (C) ∧
    Chain ((h.insertPrev (some n) (some m)).1) (D) := by
  have ndc := c.nodup
  have ndd := d.nodup
  have i := w.inverse
  rw [Chain.seg] at c d
  simp only [Seg.append, Seg] at c d
  obtain ⟨sA, ln, pn, nn, sB⟩ := c
  obtain ⟨sC, lm, pm, nm, sD⟩ := d
  simp only [List.head?_cons, List.head?_append, Option.or_none, Option.some_or] at *
  simp only [List.nodup_append, List.nodup_cons, List.mem_cons, List.mem_append] at ndc ndd dj
  have h1 : n ≠ m := by grind
  have h2 : h.prev (some n) ≠ some m := by rw [pn]; intro hh; have := List.mem_of_getLast? hh; grind
  have e := insertPrev_links w (valid_some ln) (valid_some lm) (by simpa using h1) h2
  have hs : ((h.insertPrev (some n) (some m)).1).size = h.size := (sameData_insertPrev ..).1
  generalize (h.insertPrev (some n) (some m)).1 = h' at *
  have e1 := fun x => (e x).2
  have e2 := fun x => (e x).1
  simp only [Chain.seg, Seg.append, Seg]
  simp only [List.head?_cons, List.head?_append, Option.or_none, Option.some_or]
  refine ⟨⟨?_, ?_, ?_, ?_, ?_, ?_, ?_, ?_⟩, ?_, ?_⟩
  · segmove sA hs e1 e2
  · grind
  · grind
  · grind
  · grind
  · grind
  · grind
  · segmove sB hs e1 e2
  · segmove sC hs e1 e2
  · segmove sD hs e1 e2

/-- From behind `n` in the same chain: what was behind `m` is cut off. -/
theorem C25_insertPrev_from_behind {h : Heap} (w : WF h) {A B C : List Addr} {n m : Addr}
    (c : Chain h (A ++ n :: (B ++ m :: C))) :
    Chain ((h.insertPrev (some n) (some m)).1) (A ++ m :: n :: B) ∧
    Chain ((h.insertPrev (some n) (some m)).1) (C) := by
  have ndc := c.nodup
  have i := w.inverse
  rw [Chain.seg] at c
  simp only [Seg.append, Seg] at c
  obtain ⟨sA, ln, pn, nn, sB, lm, pm, nm, sC⟩ := c
  simp only [List.head?_cons, List.head?_append, Option.or_none, Option.some_or] at *
  simp only [List.nodup_append, List.nodup_cons, List.mem_cons, List.mem_append] at ndc
  have h1 : n ≠ m := by grind
  have h2 : h.prev (some n) ≠ some m := by rw [pn]; intro hh; have := List.mem_of_getLast? hh; grind
  have e := insertPrev_links w (valid_some ln) (valid_some lm) (by simpa using h1) h2
  have hs : ((h.insertPrev (some n) (some m)).1).size = h.size := (sameData_insertPrev ..).1
  generalize (h.insertPrev (some n) (some m)).1 = h' at *
  have e1 := fun x => (e x).2
  have e2 := fun x => (e x).1
  simp only [Chain.seg, Seg.append, Seg]
  simp only [List.head?_cons, List.head?_append, Option.or_none, Option.some_or]
  refine ⟨⟨?_, ?_, ?_, ?_, ?_, ?_, ?_, ?_⟩, ?_⟩
  · segmove sA hs e1 e2
  · grind
  · grind
  · grind
  · grind
  · grind
  · cases B <;> grind
  · segmove sB hs e1 e2
  · segmove sC hs e1 e2

/-- From before `n` in the same chain (not its neighbour): what was before `m` is cut off. -/
theorem C25_insertPrev_from_before {h : Heap} (w : WF h) {A B C : List Addr} {n b m : Addr}
    (c : Chain h (A ++ m :: (B ++ b :: n :: C))) :
    Chain ((h.insertPrev (some n) (some m)).1) (B ++ b :: m :: n :: C) ∧
    Chain ((h.insertPrev (some n) (some m)).1) (A) := by
  have ndc := c.nodup
  have i := w.inverse
  rw [Chain.seg] at c
  simp only [Seg.append, Seg] at c
  obtain ⟨sA, lm, pm, nm, sB, lb, pb, nb, ln, pn, nn, sC⟩ := c
  simp only [List.head?_cons, List.head?_append, Option.or_none, Option.some_or] at *
  simp only [List.nodup_append, List.nodup_cons, List.mem_cons, List.mem_append] at ndc
  have h1 : n ≠ m := by grind
  have h2 : h.prev (some n) ≠ some m := by grind
  have e := insertPrev_links w (valid_some ln) (valid_some lm) (by simpa using h1) h2
  have hs : ((h.insertPrev (some n) (some m)).1).size = h.size := (sameData_insertPrev ..).1
  generalize (h.insertPrev (some n) (some m)).1 = h' at *
  have e1 := fun x => (e x).2
  have e2 := fun x => (e x).1
  simp only [Chain.seg, Seg.append, Seg]
  simp only [List.head?_cons, List.head?_append, Option.or_none, Option.some_or]
  refine ⟨⟨?_, ?_, ?_, ?_, ?_, ?_, ?_, ?_, ?_, ?_, ?_⟩, ?_⟩
  · segmove sB hs e1 e2
  · grind
  · cases B <;> grind
  · grind
  · grind
  · grind
  · grind
  · grind
  · grind
  · grind
  · segmove sC hs e1 e2
  · segmove sA hs e1 e2

/-- Every other chain stays. -/
theorem C25_insertPrev_frame {h : Heap} (w : WF h) {n m : Ptr} (hn : Valid h n) (hm : Valid h m)
    {l : List Addr} (c : Chain h l) (h1 : ∀ x ∈ l, some x ≠ n ∧ some x ≠ m) :
    Chain (h.insertPrev n m).1 l := by
  by_cases hc : m = n ∨ m = h.prev n
  · rw [C25_insertPrev_noop h n m hc]; exact c
  · obtain ⟨sd, _, e2, e1⟩ := C25_insertPrev w hn hm (fun hh => hc (.inl hh)) (fun hh => hc (.inr hh))
    have i := w.inverse
    have nd := c.nodup
    rw [Chain.seg] at c ⊢
    have hs := sd.1
    generalize (h.insertPrev n m).1 = h' at *
    refine c.change hs none none (by simp) (by simp) nd ?_ ?_
    · intro x hx; rw [e1 x]
      have := c.next_mem hx
      rcases n with _ | n
      · simp only [prev_none] at *; grind
      · grind
    · intro x hx; rw [e2 x]; have := c.prev_mem hx; grind

/-! ## C26 ReplaceNext and ReplacePrev -/

/-- For every consistent heap and all nodes: `m` follows `n`; `n`'s old successor and `m`'s old predecessor
(returned) lose their link; nothing else changes. -/
theorem C26_replaceNext {h : Heap} (w : WF h) {n m : Ptr} (hn : Valid h n) (hm : Valid h m)
    (h1 : m ≠ n) (h2 : m ≠ h.next n) :
    SameData h (h.replaceNext n m).1 ∧ (h.replaceNext n m).2 = (h.prev m, h.next n) ∧
    (∀ x : Addr, (h.replaceNext n m).1.next (some x) =
      if some x = n then m else if h.next (some x) = m then none else h.next (some x)) ∧
    (∀ x : Addr, (h.replaceNext n m).1.prev (some x) =
      if some x = m then n else if some x = h.next n then none else h.prev (some x)) := by
  have e := replaceNext_links w hn hm (Ne.symm h1) (Ne.symm h2)
  have i := w.inverse
  refine ⟨sameData_replaceNext .., ?_, ?_, fun x => (e x).2⟩
  · simp only [replaceNext, Ne.symm h1, Ne.symm h2, or_self, if_false]
  · intro x
    rw [(e x).1]
    rcases m with _ | m
    · by_cases hx : h.next (some x) = none <;> simp [hx]
    · simp only [eq_comm (a := some x) (b := h.prev (some m)), ← i]

/-- Replacing by what is already there (or by the receiver itself) does nothing. -/
theorem C26_replaceNext_noop (h : Heap) (n m : Ptr) (h1 : m = n ∨ m = h.next n) :
    h.replaceNext n m = (h, none, none) := by
  have : n = m ∨ h.next n = m := h1.imp Eq.symm Eq.symm
  simp only [replaceNext, this, if_true]

/-- Between two chains: tails are exchanged. -/
theorem C26_replaceNext_chains {h : Heap} (w : WF h) {A B C D : List Addr} {n m : Addr}
    (c : Chain h (A ++ n :: B)) (d : Chain h (C ++ m :: D)) (dj : ∀ x ∈ A ++ n :: B, x ∉ C ++ m :: D) :
    Chain ((h.replaceNext (some n) (some m)).1) (A ++ n :: m :: D) ∧
    Chain ((h.replaceNext (some n) (some m)).1) (B) ∧
    Chain ((h.replaceNext (some n) (some m)).1) (C) := by
  have ndc := c.nodup
  have ndd := d.nodup
  have i := w.inverse
  rw [Chain.seg] at c d
  simp only [Seg.append, Seg] at c d
  obtain ⟨sA, ln, pn, nn, sB⟩ := c
  obtain ⟨sC, lm, pm, nm, sD⟩ := d
  simp only [List.head?_cons, List.head?_append, Option.or_none, Option.some_or] at *
  simp only [List.nodup_append, List.nodup_cons, List.mem_cons, List.mem_append] at ndc ndd dj
  have h1 : n ≠ m := by grind
  have h2 : h.next (some n) ≠ some m := by rw [nn]; intro hh; have := List.mem_of_mem_head? hh; grind
  have e := replaceNext_links w (valid_some ln) (valid_some lm) (by simpa using h1) h2
  have hs : ((h.replaceNext (some n) (some m)).1).size = h.size := (sameData_replaceNext ..).1
  generalize (h.replaceNext (some n) (some m)).1 = h' at *
  have e1 := fun x => (e x).1
  have e2 := fun x => (e x).2
  simp only [Chain.seg, Seg.append, Seg]
  simp only [List.head?_cons, List.head?_append, Option.or_none, Option.some_or]
  refine ⟨⟨?_, ?_, ?_, ?_, ?_, ?_, ?_, ?_⟩, ?_, ?_⟩
  · segmove sA hs e1 e2
  · grind
  · grind
  · grind
  · grind
  · grind
  · grind
  · segmove sD hs e1 e2
  · segmove sB hs e1 e2
  · segmove sC hs e1 e2

/-- Forward in the same chain: the nodes in between are cut out, as a chain of their own. -/
theorem C26_replaceNext_skip {h : Heap} (w : WF h) {A B C : List Addr} {n b m : Addr}
    (c : Chain h (A ++ n :: b :: (B ++ m :: C))) :
    Chain ((h.replaceNext (some n) (some m)).1) (A ++ n :: m :: C) ∧
    Chain ((h.replaceNext (some n) (some m)).1) (b :: B) := by
  have ndc := c.nodup
  have i := w.inverse
  rw [Chain.seg] at c
  simp only [Seg.append, Seg] at c
  obtain ⟨sA, ln, pn, nn, lb, pb, nb, sB, lm, pm, nm, sC⟩ := c
  simp only [List.head?_cons, List.head?_append, Option.or_none, Option.some_or] at *
  simp only [List.nodup_append, List.nodup_cons, List.mem_cons, List.mem_append] at ndc
  have h1 : n ≠ m := by grind
  have h2 : h.next (some n) ≠ some m := by grind
  have e := replaceNext_links w (valid_some ln) (valid_some lm) (by simpa using h1) h2
  have hs : ((h.replaceNext (some n) (some m)).1).size = h.size := (sameData_replaceNext ..).1
  generalize (h.replaceNext (some n) (some m)).1 = h' at *
  have e1 := fun x => (e x).1
  have e2 := fun x => (e x).2
  simp only [Chain.seg, Seg.append, Seg]
  simp only [List.head?_cons, List.head?_append, Option.or_none, Option.some_or]
  refine ⟨⟨?_, ?_, ?_, ?_, ?_, ?_, ?_, ?_⟩, ⟨?_, ?_, ?_, ?_⟩⟩
  · segmove sA hs e1 e2
  · grind
  · grind
  · grind
  · grind
  · grind
  · grind
  · segmove sC hs e1 e2
  · grind
  · grind
  · cases B <;> grind
  · segmove sB hs e1 e2

/-- Mirror image of `C26_replaceNext`. -/
theorem C26_replacePrev {h : Heap} (w : WF h) {n m : Ptr} (hn : Valid h n) (hm : Valid h m)
    (h1 : m ≠ n) (h2 : m ≠ h.prev n) :
    SameData h (h.replacePrev n m).1 ∧ (h.replacePrev n m).2 = (h.prev n, h.next m) ∧
    (∀ x : Addr, (h.replacePrev n m).1.prev (some x) =
      if some x = n then m else if h.prev (some x) = m then none else h.prev (some x)) ∧
    (∀ x : Addr, (h.replacePrev n m).1.next (some x) =
      if some x = m then n else if some x = h.prev n then none else h.next (some x)) := by
  have e := replacePrev_links w hn hm (Ne.symm h1) (Ne.symm h2)
  have i := w.inverse
  refine ⟨sameData_replacePrev .., ?_, ?_, fun x => (e x).2⟩
  · simp only [replacePrev, Ne.symm h1, Ne.symm h2, or_self, if_false]
  · intro x
    rw [(e x).1]
    rcases m with _ | m
    · by_cases hx : h.prev (some x) = none <;> simp [hx]
    · simp only [eq_comm (a := some x) (b := h.next (some m)), i]

/-- Replacing by what is already there (or by the receiver itself) does nothing. -/
theorem C26_replacePrev_noop (h : Heap) (n m : Ptr) (h1 : m = n ∨ m = h.prev n) :
    h.replacePrev n m = (h, none, none) := by
  have : n = m ∨ h.prev n = m := h1.imp Eq.symm Eq.symm
  simp only [replacePrev, this, if_true]

/-- Between two chains: fronts are exchanged. -/
theorem C26_replacePrev_chains {h : Heap} (w : WF h) {A B C D : List Addr} {n m : Addr}
    (c : Chain h (A ++ n :: B)) (d : Chain h (C ++ m :: D)) (dj : ∀ x ∈ A ++ n :: B, x ∉ C ++ m :: D) :
    Chain ((h.replacePrev (some n) (some m)).1) (C ++ m :: n :: B) ∧
    Chain ((h.replacePrev (some n) (some m)).1) (A) ∧
    Chain ((h.replacePrev (some n) (some m)).1) (D) := by
  have ndc := c.nodup
  have ndd := d.nodup
  have i := w.inverse
  rw [Chain.seg] at c d
  simp only [Seg.append, Seg] at c d
  obtain ⟨sA, ln, pn, nn, sB⟩ := c
  obtain ⟨sC, lm, pm, nm, sD⟩ := d
  simp only [List.head?_cons, List.head?_append, Option.or_none, Option.some_or] at *
  simp only [List.nodup_append, List.nodup_cons, List.mem_cons, List.mem_append] at ndc ndd dj
  have h1 : n ≠ m := by grind
  have h2 : h.prev (some n) ≠ some m := by rw [pn]; intro hh; have := List.mem_of_getLast? hh; grind
  have e := replacePrev_links w (valid_some ln) (valid_some lm) (by simpa using h1) h2
  have hs : ((h.replacePrev (some n) (some m)).1).size = h.size := (sameData_replacePrev ..).1
  generalize (h.replacePrev (some n) (some m)).1 = h' at *
  have e1 := fun x => (e x).2
  have e2 := fun x => (e x).1
  simp only [Chain.seg, Seg.append, Seg]
  simp only [List.head?_cons, List.head?_append, Option.or_none, Option.some_or]
  refine ⟨⟨?_, ?_, ?_, ?_, ?_, ?_, ?_, ?_⟩, ?_, ?_⟩
  · segmove sC hs e1 e2
  · grind
  · grind
  · grind
  · grind
  · grind
  · grind
  · segmove sB hs e1 e2
  · segmove sA hs e1 e2
  · segmove sD hs e1 e2

/-- Backward in the same chain: the nodes in between are cut out, as a chain of their own. -/
theorem C26_replacePrev_skip {h : Heap} (w : WF h) {A B C : List Addr} {n b m : Addr}
    (c : Chain h (A ++ m :: (B ++ b :: n :: C))) :
    Chain ((h.replacePrev (some n) (some m)).1) (A ++ m :: n :: C) ∧
    Chain ((h.replacePrev (some n) (some m)).1) (B ++ [b]) := by
  have ndc := c.nodup
  have i := w.inverse
  rw [Chain.seg] at c
  simp only [Seg.append, Seg] at c
  obtain ⟨sA, lm, pm, nm, sB, lb, pb, nb, ln, pn, nn, sC⟩ := c
  simp only [List.head?_cons, List.head?_append, Option.or_none, Option.some_or] at *
  simp only [List.nodup_append, List.nodup_cons, List.mem_cons, List.mem_append] at ndc
  have h1 : n ≠ m := by grind
  have h2 : h.prev (some n) ≠ some m := by grind
  have e := replacePrev_links w (valid_some ln) (valid_some lm) (by simpa using h1) h2
  have hs : ((h.replacePrev (some n) (some m)).1).size = h.size := (sameData_replacePrev ..).1
  generalize (h.replacePrev (some n) (some m)).1 = h' at *
  have e1 := fun x => (e x).2
  have e2 := fun x => (e x).1
  simp only [Chain.seg, Seg.append, Seg]
  simp only [List.head?_cons, List.head?_append, Option.or_none, Option.some_or]
  refine ⟨⟨?_, ?_, ?_, ?_, ?_, ?_, ?_, ?_⟩, ⟨?_, ?_, ?_, ?_, ?_⟩⟩
  · segmove sA hs e1 e2
  · grind
  · grind
  · grind
  · grind
  · grind
  · grind
  · segmove sC hs e1 e2
  · segmove sB hs e1 e2
  · grind
  · cases B <;> grind
  · grind
  · grind

/-! ## C27 TakeNext and TakePrev -/

/-- In a chain, `TakeNext` returns the successor, isolated, and closes the gap. -/
theorem C27_takeNext_chain {h : Heap} (w : WF h) {A B : List Addr} {n m : Addr}
    (c : Chain h (A ++ n :: m :: B)) :
    (h.takeNext (some n)).2 = some m ∧ Chain (h.takeNext (some n)).1 (A ++ n :: B) ∧
    Chain (h.takeNext (some n)).1 [m] ∧ SameData h (h.takeNext (some n)).1 := by
  have ret : (h.takeNext (some n)).2 = some m := (c.2.2.2 A n m B rfl).1
  refine ⟨ret, ?_⟩
  rw [← and_assoc]
  refine ⟨?_, sameData_takeNext ..⟩
  have ndc := c.nodup
  have i := w.inverse
  rw [Chain.seg] at c
  simp only [Seg.append, Seg] at c
  obtain ⟨sA, ln, pn, nn, lm, pm, nm, sB⟩ := c
  simp only [List.head?_cons, List.head?_append, Option.or_none, Option.some_or] at *
  simp only [List.nodup_append, List.nodup_cons, List.mem_cons, List.mem_append] at ndc
  have e := takeNext_links w (valid_some ln)
  have hs : ((h.takeNext (some n)).1).size = h.size := (sameData_takeNext ..).1
  generalize (h.takeNext (some n)).1 = h' at *
  have e1 := fun x => (e x).1
  have e2 := fun x => (e x).2
  simp only [Chain.seg, Seg.append, Seg]
  simp only [List.head?_cons, List.head?_append, Option.or_none, Option.some_or]
  refine ⟨⟨?_, ?_, ?_, ?_, ?_⟩, ⟨?_, ?_, ?_, ?_⟩⟩
  · segmove sA hs e1 e2
  · grind
  · grind
  · cases B <;> grind
  · segmove sB hs e1 e2
  · grind
  · grind
  · grind
  · grind

/-- `TakeNext` of the last node (or of nil) returns nil and changes nothing. -/
theorem C27_takeNext_none (h : Heap) (n : Ptr) (hn : h.next n = none) :
    (h.takeNext n).2 = none ∧ SameData h (h.takeNext n).1 ∧ (WF h → Valid h n → ∀ x : Addr,
      (h.takeNext n).1.next (some x) = h.next (some x) ∧ (h.takeNext n).1.prev (some x) = h.prev (some x)) := by
  refine ⟨hn, sameData_takeNext .., fun w v x => ?_⟩
  have e := takeNext_links w v x
  rw [e.1, e.2, hn]
  simp only [next_none]
  have : none ≠ some x := by simp
  constructor
  · by_cases hx : some x = n
    · subst hx; simp [hn]
    · simp [hx]
  · simp

/-- In a chain, `TakePrev` returns the predecessor, isolated, and closes the gap. -/
theorem C27_takePrev_chain {h : Heap} (w : WF h) {A B : List Addr} {n m : Addr}
    (c : Chain h (A ++ m :: n :: B)) :
    (h.takePrev (some n)).2 = some m ∧ Chain (h.takePrev (some n)).1 (A ++ n :: B) ∧
    Chain (h.takePrev (some n)).1 [m] ∧ SameData h (h.takePrev (some n)).1 := by
  have ret : (h.takePrev (some n)).2 = some m := (c.2.2.2 A m n B rfl).2
  refine ⟨ret, ?_⟩
  rw [← and_assoc]
  refine ⟨?_, sameData_takePrev ..⟩
  have ndc := c.nodup
  have i := w.inverse
  rw [Chain.seg] at c
  simp only [Seg.append, Seg] at c
  obtain ⟨sA, lm, pm, nm, ln, pn, nn, sB⟩ := c
  simp only [List.head?_cons, List.head?_append, Option.or_none, Option.some_or] at *
  simp only [List.nodup_append, List.nodup_cons, List.mem_cons, List.mem_append] at ndc
  have e := takePrev_links w (valid_some ln)
  have hs : ((h.takePrev (some n)).1).size = h.size := (sameData_takePrev ..).1
  generalize (h.takePrev (some n)).1 = h' at *
  have e1 := fun x => (e x).2
  have e2 := fun x => (e x).1
  simp only [Chain.seg, Seg.append, Seg]
  simp only [List.head?_cons, List.head?_append, Option.or_none, Option.some_or]
  refine ⟨⟨?_, ?_, ?_, ?_, ?_⟩, ⟨?_, ?_, ?_, ?_⟩⟩
  · segmove sA hs e1 e2
  · grind
  · cases A <;> grind
  · grind
  · segmove sB hs e1 e2
  · grind
  · grind
  · grind
  · grind

/-- `TakePrev` of the first node (or of nil) returns nil and changes nothing. -/
theorem C27_takePrev_none (h : Heap) (n : Ptr) (hn : h.prev n = none) :
    (h.takePrev n).2 = none ∧ SameData h (h.takePrev n).1 ∧ (WF h → Valid h n → ∀ x : Addr,
      (h.takePrev n).1.next (some x) = h.next (some x) ∧ (h.takePrev n).1.prev (some x) = h.prev (some x)) := by
  refine ⟨hn, sameData_takePrev .., fun w v x => ?_⟩
  have e := takePrev_links w v x
  rw [e.1, e.2, hn]
  simp only [prev_none]
  constructor
  · simp
  · by_cases hx : some x = n
    · subst hx; simp [hn]
    · simp [hx]

/-! ## C28 RemoveNext and RemovePrev -/

/-- In a chain, `RemoveNext` cuts behind `n` and returns the head of the tail; both parts are chains. -/
theorem C28_removeNext_chain {h : Heap} (w : WF h) {A B : List Addr} {n : Addr}
    (c : Chain h (A ++ n :: B)) :
    (h.removeNext (some n)).2 = B.head? ∧ Chain (h.removeNext (some n)).1 (A ++ [n]) ∧
    Chain (h.removeNext (some n)).1 B ∧ SameData h (h.removeNext (some n)).1 := by
  have ret : (h.removeNext (some n)).2 = B.head? := by
    have := ((Seg.append A).1 (Chain.seg.1 c)).2.2.2.1
    show h.next (some n) = _
    simpa using this
  refine ⟨ret, ?_⟩
  rw [← and_assoc]
  refine ⟨?_, sameData_removeNext ..⟩
  have ndc := c.nodup
  have i := w.inverse
  rw [Chain.seg] at c
  simp only [Seg.append, Seg] at c
  obtain ⟨sA, ln, pn, nn, sB⟩ := c
  simp only [List.head?_cons, List.head?_append, Option.or_none, Option.some_or] at *
  simp only [List.nodup_append, List.nodup_cons, List.mem_cons, List.mem_append] at ndc
  have e := removeNext_links w (valid_some ln)
  have hs : ((h.removeNext (some n)).1).size = h.size := (sameData_removeNext ..).1
  generalize (h.removeNext (some n)).1 = h' at *
  have e1 := fun x => (e x).1
  have e2 := fun x => (e x).2
  simp only [Chain.seg, Seg.append, Seg]
  simp only [List.head?_cons, List.head?_append, Option.or_none, Option.some_or]
  refine ⟨⟨?_, ?_, ?_, ?_, ?_⟩, ?_⟩
  · segmove sA hs e1 e2
  · grind
  · grind
  · grind
  · grind
  · segmove sB hs e1 e2

/-- In a chain, `RemovePrev` cuts before `n` and returns the last node of the front; both parts are chains. -/
theorem C28_removePrev_chain {h : Heap} (w : WF h) {A B : List Addr} {n : Addr}
    (c : Chain h (A ++ n :: B)) :
    (h.removePrev (some n)).2 = A.getLast? ∧ Chain (h.removePrev (some n)).1 A ∧
    Chain (h.removePrev (some n)).1 (n :: B) ∧ SameData h (h.removePrev (some n)).1 := by
  have ret : (h.removePrev (some n)).2 = A.getLast? := by
    have := ((Seg.append A).1 (Chain.seg.1 c)).2.2.1
    show h.prev (some n) = _
    simpa using this
  refine ⟨ret, ?_⟩
  rw [← and_assoc]
  refine ⟨?_, sameData_removePrev ..⟩
  have ndc := c.nodup
  have i := w.inverse
  rw [Chain.seg] at c
  simp only [Seg.append, Seg] at c
  obtain ⟨sA, ln, pn, nn, sB⟩ := c
  simp only [List.head?_cons, List.head?_append, Option.or_none, Option.some_or] at *
  simp only [List.nodup_append, List.nodup_cons, List.mem_cons, List.mem_append] at ndc
  have e := removePrev_links w (valid_some ln)
  have hs : ((h.removePrev (some n)).1).size = h.size := (sameData_removePrev ..).1
  generalize (h.removePrev (some n)).1 = h' at *
  have e1 := fun x => (e x).2
  have e2 := fun x => (e x).1
  simp only [Chain.seg, Seg.append, Seg]
  simp only [List.head?_cons, List.head?_append, Option.or_none, Option.some_or]
  refine ⟨?_, ⟨?_, ?_, ?_, ?_⟩⟩
  · segmove sA hs e1 e2
  · grind
  · grind
  · grind
  · segmove sB hs e1 e2

/-- Edge-level statement, for every node (nil included). -/
theorem C28_remove_edges {h : Heap} (w : WF h) {n : Ptr} (hn : Valid h n) (x : Addr) :
    (h.removeNext n).1.next (some x) = (if some x = n then none else h.next (some x)) ∧
    (h.removeNext n).1.prev (some x) = (if some x = h.next n then none else h.prev (some x)) ∧
    (h.removePrev n).1.prev (some x) = (if some x = n then none else h.prev (some x)) ∧
    (h.removePrev n).1.next (some x) = (if some x = h.prev n then none else h.next (some x)) ∧
    (h.removeNext n).2 = h.next n ∧ (h.removePrev n).2 = h.prev n :=
  ⟨(removeNext_links w hn x).1, (removeNext_links w hn x).2, (removePrev_links w hn x).1,
    (removePrev_links w hn x).2, rfl, rfl⟩

/-! ## C29 Isolate -/

/-- For every node: only the links to and from `n` disappear. -/
theorem C29_isolate {h : Heap} (w : WF h) {n : Ptr} (hn : Valid h n) :
    SameData h (h.isolate n) ∧
    (∀ x : Addr, (h.isolate n).next (some x) =
      if some x = n ∨ h.next (some x) = n then none else h.next (some x)) ∧
    (∀ x : Addr, (h.isolate n).prev (some x) =
      if some x = n ∨ h.prev (some x) = n then none else h.prev (some x)) := by
  have i := w.inverse
  refine ⟨sameData_isolate .., ?_, ?_⟩
  · intro x
    rw [(isolate_links w hn x).1]
    rcases n with _ | n
    · by_cases hx : h.next (some x) = none <;> simp [hx]
    · simp only [eq_comm (a := some x) (b := h.prev (some n)), ← i]
  · intro x
    rw [(isolate_links w hn x).2]
    rcases n with _ | n
    · by_cases hx : h.prev (some x) = none <;> simp [hx]
    · simp only [eq_comm (a := some x) (b := h.next (some n)), i]

/-- A chain falls into its front, the node, and its tail. -/
theorem C29_isolate_chain {h : Heap} (w : WF h) {A B : List Addr} {n : Addr}
    (c : Chain h (A ++ n :: B)) :
    Chain (h.isolate (some n)) (A) ∧
    Chain (h.isolate (some n)) ([n]) ∧
    Chain (h.isolate (some n)) (B) := by
  have ndc := c.nodup
  have i := w.inverse
  rw [Chain.seg] at c
  simp only [Seg.append, Seg] at c
  obtain ⟨sA, ln, pn, nn, sB⟩ := c
  simp only [List.head?_cons, List.head?_append, Option.or_none, Option.some_or] at *
  simp only [List.nodup_append, List.nodup_cons, List.mem_cons, List.mem_append] at ndc
  have e := isolate_links w (valid_some ln)
  have hs : (h.isolate (some n)).size = h.size := (sameData_isolate ..).1
  generalize h.isolate (some n) = h' at *
  have e1 := fun x => (e x).1
  have e2 := fun x => (e x).2
  simp only [Chain.seg, Seg.append, Seg]
  simp only [List.head?_cons, List.head?_append, Option.or_none, Option.some_or]
  refine ⟨?_, ⟨?_, ?_, ?_, ?_⟩, ?_⟩
  · segmove sA hs e1 e2
  · grind
  · grind
  · grind
  · grind
  · segmove sB hs e1 e2

end Goast
