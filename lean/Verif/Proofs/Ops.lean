import Verif.Proofs.Links

/-!
# Edge-level specification of the link operations
-/

set_option linter.unusedSimpArgs false

namespace Goast
namespace Heap

@[simp] theorem setNext_none (h : Heap) (nn : Ptr) : h.setNext none nn = h := rfl
@[simp] theorem setPrev_none (h : Heap) (nn : Ptr) : h.setPrev none nn = h := rfl

theorem next_setNext_some (h : Heap) (a : Addr) (nn : Ptr) (ha : a < h.size) (x : Addr) :
    (h.setNext (some a) nn).next (some x) =
      if a = x ∧ some a ≠ nn then nn else h.next (some x) := by
  rw [next_setNext _ _ _ (by intro b hb; cases hb; exact ha)]
  simp

theorem prev_setNext_some (h : Heap) (a : Addr) (nn : Ptr) (x : Addr) :
    (h.setNext (some a) nn).prev (some x) =
      if some a ≠ nn ∧ h.next (some a) = some x then none else h.prev (some x) := by
  rw [prev_setNext]
  simp

theorem prev_setPrev_some (h : Heap) (a : Addr) (nn : Ptr) (ha : a < h.size) (x : Addr) :
    (h.setPrev (some a) nn).prev (some x) =
      if a = x ∧ some a ≠ nn then nn else h.prev (some x) := by
  rw [prev_setPrev _ _ _ (by intro b hb; cases hb; exact ha)]
  simp

theorem next_setPrev_some (h : Heap) (a : Addr) (nn : Ptr) (x : Addr) :
    (h.setPrev (some a) nn).next (some x) =
      if some a ≠ nn ∧ h.prev (some a) = some x then none else h.next (some x) := by
  rw [next_setPrev]
  simp

/-- Compute the links after a sequence of `setNext`/`setPrev` and finish by case analysis. -/
macro "links" : tactic => `(tactic| (
    simp only [next_none, prev_none, setNext_none, setPrev_none, next_setNext_some, prev_setNext_some,
      next_setPrev_some, prev_setPrev_some, size_setNext, size_setPrev, *]
    grind (splits := 25)))

theorem insertNext_links {h : Heap} (w : WF h) {n m : Ptr} (hn : Valid h n) (hm : Valid h m)
    (h1 : n ≠ m) (h2 : h.next n ≠ m) (x : Addr) :
    ((h.insertNext n m).1.next (some x) =
      if some x = n then m else if some x = m then h.next n
      else if some x = h.prev m then none else h.next (some x)) ∧
    ((h.insertNext n m).1.prev (some x) =
      if some x = m then n else if some x = h.next n then m
      else if some x = h.next m then none else h.prev (some x)) := by
  have v1 := w.valid_next n
  have v2 := w.valid_next m
  have v3 := w.valid_prev m
  have i := w.inverse
  have irr := w.irrefl
  simp only [insertNext, h1, h2, or_self, if_false]
  rcases n with _ | a <;> rcases m with _ | b
  · exact absurd rfl h1
  · have hb := hm b rfl
    simp only [next_none, setNext_none, setPrev_none]
    rcases hp : h.prev (some b) with _ | p <;> rcases hq : h.next (some b) with _ | q
    all_goals (try have hp' := v3 _ hp); (try have hq' := v2 _ hq)
    all_goals links
  · have ha := hn a rfl
    simp only [next_none, prev_none, setNext_none, setPrev_none]
    rcases hc : h.next (some a) with _ | c
    all_goals (try have hc' := v1 _ hc)
    all_goals links
  · have ha := hn a rfl
    have hb := hm b rfl
    rcases hp : h.prev (some b) with _ | p <;> rcases hq : h.next (some b) with _ | q <;>
      rcases hc : h.next (some a) with _ | c
    all_goals (try have hp' := v3 _ hp); (try have hq' := v2 _ hq); (try have hc' := v1 _ hc)
    all_goals links

theorem replaceNext_links {h : Heap} (w : WF h) {n m : Ptr} (hn : Valid h n) (hm : Valid h m)
    (h1 : n ≠ m) (h2 : h.next n ≠ m) (x : Addr) :
    ((h.replaceNext n m).1.next (some x) =
      if some x = n then m else if some x = h.prev m then none else h.next (some x)) ∧
    ((h.replaceNext n m).1.prev (some x) =
      if some x = m then n else if some x = h.next n then none else h.prev (some x)) := by
  have v1 := w.valid_next n
  have v3 := w.valid_prev m
  have i := w.inverse
  have irr := w.irrefl
  simp only [replaceNext, h1, h2, or_self, if_false]
  rcases n with _ | a <;> rcases m with _ | b
  · exact absurd rfl h1
  · have hb := hm b rfl
    simp only [next_none, setNext_none, setPrev_none]
    rcases hp : h.prev (some b) with _ | p
    all_goals (try have hp' := v3 _ hp)
    all_goals links
  · have ha := hn a rfl
    simp only [next_none, prev_none, setNext_none, setPrev_none]
    rcases hc : h.next (some a) with _ | c
    all_goals (try have hc' := v1 _ hc)
    all_goals links
  · have ha := hn a rfl
    have hb := hm b rfl
    rcases hp : h.prev (some b) with _ | p <;> rcases hc : h.next (some a) with _ | c
    all_goals (try have hp' := v3 _ hp); (try have hc' := v1 _ hc)
    all_goals links

theorem takeNext_links {h : Heap} (w : WF h) {n : Ptr} (hn : Valid h n) (x : Addr) :
    ((h.takeNext n).1.next (some x) =
      if some x = n then (if h.next (h.next n) = n then none else h.next (h.next n))
      else if some x = h.next n then none else h.next (some x)) ∧
    ((h.takeNext n).1.prev (some x) =
      if some x = h.next n then none
      else if some x = h.next (h.next n) then (if some x = n then none else n)
      else h.prev (some x)) := by
  have v1 := w.valid_next n
  have v2 := w.valid_next (h.next n)
  have i := w.inverse
  have irr := w.irrefl
  simp only [takeNext]
  rcases n with _ | a
  · simp
  · have ha := hn a rfl
    rcases hc : h.next (some a) with _ | c
    · links
    · have hc' := v1 _ hc
      rw [hc] at v2
      rcases hd : h.next (some c) with _ | d
      all_goals (try have hd' := v2 _ hd)
      all_goals links

theorem removeNext_links {h : Heap} (w : WF h) {n : Ptr} (hn : Valid h n) (x : Addr) :
    ((h.removeNext n).1.next (some x) = if some x = n then none else h.next (some x)) ∧
    ((h.removeNext n).1.prev (some x) = if some x = h.next n then none else h.prev (some x)) := by
  have v1 := w.valid_next n
  have i := w.inverse
  have irr := w.irrefl
  simp only [removeNext]
  rcases n with _ | a
  · simp
  · have ha := hn a rfl
    rcases hc : h.next (some a) with _ | c
    · links
    · have hc' := v1 _ hc
      links

theorem isolate_links {h : Heap} (w : WF h) {n : Ptr} (hn : Valid h n) (x : Addr) :
    ((h.isolate n).next (some x) =
      if some x = n ∨ some x = h.prev n then none else h.next (some x)) ∧
    ((h.isolate n).prev (some x) =
      if some x = n ∨ some x = h.next n then none else h.prev (some x)) := by
  have v1 := w.valid_next n
  have v2 := w.valid_prev n
  have i := w.inverse
  have irr := w.irrefl
  simp only [isolate]
  rcases n with _ | a
  · simp
  · have ha := hn a rfl
    rcases hc : h.next (some a) with _ | c <;> rcases hp : h.prev (some a) with _ | p
    all_goals (try have hc' := v1 _ hc); (try have hp' := v2 _ hp)
    · links
    · have hpa : p ≠ a := by rintro rfl; exact irr _ ((i _ _).2 hp)
      simp only [setNext_none, setPrev_none, next_setNext_some _ _ _ hp', hc, hpa, false_and,
        if_false]
      links
    · simp only [setNext_none, setPrev_none, next_setNext_some, hc]
      links
    · have hpa : p ≠ a := by rintro rfl; exact irr _ ((i _ _).2 hp)
      simp only [next_setNext_some _ _ _ hp', hc, hpa, false_and, if_false]
      links

/-! ## Everything but the links is untouched -/

theorem sameData_insertNext (h : Heap) (n m : Ptr) : SameData h (h.insertNext n m).1 := by
  unfold insertNext
  split
  · exact sameData_refl _
  · repeat' (first | exact sameData_setNext _ _ _ | exact sameData_setPrev _ _ _ |
      refine sameData_trans ?_ (sameData_setNext _ _ _) |
      refine sameData_trans ?_ (sameData_setPrev _ _ _))

theorem sameData_replaceNext (h : Heap) (n m : Ptr) : SameData h (h.replaceNext n m).1 := by
  unfold replaceNext
  split
  · exact sameData_refl _
  · repeat' (first | exact sameData_setNext _ _ _ | exact sameData_setPrev _ _ _ |
      refine sameData_trans ?_ (sameData_setNext _ _ _) |
      refine sameData_trans ?_ (sameData_setPrev _ _ _))

theorem sameData_takeNext (h : Heap) (n : Ptr) : SameData h (h.takeNext n).1 := by
  unfold takeNext
  repeat' (first | exact sameData_setNext _ _ _ | exact sameData_setPrev _ _ _ |
      refine sameData_trans ?_ (sameData_setNext _ _ _) |
      refine sameData_trans ?_ (sameData_setPrev _ _ _))

theorem sameData_removeNext (h : Heap) (n : Ptr) : SameData h (h.removeNext n).1 := by
  unfold removeNext
  repeat' (first | exact sameData_setNext _ _ _ | exact sameData_setPrev _ _ _ |
      refine sameData_trans ?_ (sameData_setNext _ _ _) |
      refine sameData_trans ?_ (sameData_setPrev _ _ _))

theorem sameData_isolate (h : Heap) (n : Ptr) : SameData h (h.isolate n) := by
  unfold isolate
  repeat' (first | exact sameData_setNext _ _ _ | exact sameData_setPrev _ _ _ |
      refine sameData_trans ?_ (sameData_setNext _ _ _) |
      refine sameData_trans ?_ (sameData_setPrev _ _ _))

/-! ## The mirrored operations -/

theorem insertPrev_links {h : Heap} (w : WF h) {n m : Ptr} (hn : Valid h n) (hm : Valid h m)
    (h1 : n ≠ m) (h2 : h.prev n ≠ m) (x : Addr) :
    ((h.insertPrev n m).1.prev (some x) =
      if some x = n then m else if some x = m then h.prev n
      else if some x = h.next m then none else h.prev (some x)) ∧
    ((h.insertPrev n m).1.next (some x) =
      if some x = m then n else if some x = h.prev n then m
      else if some x = h.prev m then none else h.next (some x)) := by
  have v1 := w.valid_prev n
  have v2 := w.valid_prev m
  have v3 := w.valid_next m
  have i := w.inverse
  have irr := w.irrefl
  simp only [insertPrev, h1, h2, or_self, if_false]
  rcases n with _ | a <;> rcases m with _ | b
  · exact absurd rfl h1
  · have hb := hm b rfl
    simp only [next_none, setNext_none, setPrev_none]
    rcases hp : h.next (some b) with _ | p <;> rcases hq : h.prev (some b) with _ | q
    all_goals (try have hp' := v3 _ hp); (try have hq' := v2 _ hq)
    all_goals links
  · have ha := hn a rfl
    simp only [next_none, prev_none, setNext_none, setPrev_none]
    rcases hc : h.prev (some a) with _ | c
    all_goals (try have hc' := v1 _ hc)
    all_goals links
  · have ha := hn a rfl
    have hb := hm b rfl
    rcases hp : h.next (some b) with _ | p <;> rcases hq : h.prev (some b) with _ | q <;>
      rcases hc : h.prev (some a) with _ | c
    all_goals (try have hp' := v3 _ hp); (try have hq' := v2 _ hq); (try have hc' := v1 _ hc)
    all_goals links

theorem replacePrev_links {h : Heap} (w : WF h) {n m : Ptr} (hn : Valid h n) (hm : Valid h m)
    (h1 : n ≠ m) (h2 : h.prev n ≠ m) (x : Addr) :
    ((h.replacePrev n m).1.prev (some x) =
      if some x = n then m else if some x = h.next m then none else h.prev (some x)) ∧
    ((h.replacePrev n m).1.next (some x) =
      if some x = m then n else if some x = h.prev n then none else h.next (some x)) := by
  have v1 := w.valid_prev n
  have v3 := w.valid_next m
  have i := w.inverse
  have irr := w.irrefl
  simp only [replacePrev, h1, h2, or_self, if_false]
  rcases n with _ | a <;> rcases m with _ | b
  · exact absurd rfl h1
  · have hb := hm b rfl
    simp only [next_none, setNext_none, setPrev_none]
    rcases hp : h.next (some b) with _ | p
    all_goals (try have hp' := v3 _ hp)
    all_goals links
  · have ha := hn a rfl
    simp only [next_none, prev_none, setNext_none, setPrev_none]
    rcases hc : h.prev (some a) with _ | c
    all_goals (try have hc' := v1 _ hc)
    all_goals links
  · have ha := hn a rfl
    have hb := hm b rfl
    rcases hp : h.next (some b) with _ | p <;> rcases hc : h.prev (some a) with _ | c
    all_goals (try have hp' := v3 _ hp); (try have hc' := v1 _ hc)
    all_goals links

theorem takePrev_links {h : Heap} (w : WF h) {n : Ptr} (hn : Valid h n) (x : Addr) :
    ((h.takePrev n).1.prev (some x) =
      if some x = n then (if h.prev (h.prev n) = n then none else h.prev (h.prev n))
      else if some x = h.prev n then none else h.prev (some x)) ∧
    ((h.takePrev n).1.next (some x) =
      if some x = h.prev n then none
      else if some x = h.prev (h.prev n) then (if some x = n then none else n)
      else h.next (some x)) := by
  have v1 := w.valid_prev n
  have v2 := w.valid_prev (h.prev n)
  have i := w.inverse
  have irr := w.irrefl
  simp only [takePrev]
  rcases n with _ | a
  · simp
  · have ha := hn a rfl
    rcases hc : h.prev (some a) with _ | c
    · links
    · have hc' := v1 _ hc
      rw [hc] at v2
      rcases hd : h.prev (some c) with _ | d
      all_goals (try have hd' := v2 _ hd)
      all_goals links

theorem removePrev_links {h : Heap} (w : WF h) {n : Ptr} (hn : Valid h n) (x : Addr) :
    ((h.removePrev n).1.prev (some x) = if some x = n then none else h.prev (some x)) ∧
    ((h.removePrev n).1.next (some x) = if some x = h.prev n then none else h.next (some x)) := by
  have v1 := w.valid_prev n
  have i := w.inverse
  have irr := w.irrefl
  simp only [removePrev]
  rcases n with _ | a
  · simp
  · have ha := hn a rfl
    rcases hc : h.prev (some a) with _ | c
    · links
    · have hc' := v1 _ hc
      links

theorem sameData_insertPrev (h : Heap) (n m : Ptr) : SameData h (h.insertPrev n m).1 := by
  unfold insertPrev
  split
  · exact sameData_refl _
  · repeat' (first | exact sameData_setNext _ _ _ | exact sameData_setPrev _ _ _ |
      refine sameData_trans ?_ (sameData_setNext _ _ _) |
      refine sameData_trans ?_ (sameData_setPrev _ _ _))

theorem sameData_replacePrev (h : Heap) (n m : Ptr) : SameData h (h.replacePrev n m).1 := by
  unfold replacePrev
  split
  · exact sameData_refl _
  · repeat' (first | exact sameData_setNext _ _ _ | exact sameData_setPrev _ _ _ |
      refine sameData_trans ?_ (sameData_setNext _ _ _) |
      refine sameData_trans ?_ (sameData_setPrev _ _ _))

theorem sameData_takePrev (h : Heap) (n : Ptr) : SameData h (h.takePrev n).1 := by
  unfold takePrev
  repeat' (first | exact sameData_setNext _ _ _ | exact sameData_setPrev _ _ _ |
      refine sameData_trans ?_ (sameData_setNext _ _ _) |
      refine sameData_trans ?_ (sameData_setPrev _ _ _))

theorem sameData_removePrev (h : Heap) (n : Ptr) : SameData h (h.removePrev n).1 := by
  unfold removePrev
  repeat' (first | exact sameData_setNext _ _ _ | exact sameData_setPrev _ _ _ |
      refine sameData_trans ?_ (sameData_setNext _ _ _) |
      refine sameData_trans ?_ (sameData_setPrev _ _ _))

/-! ## Well-formedness is kept -/

theorem wf_insertNext {h : Heap} (w : WF h) {n m : Ptr} (hn : Valid h n) (hm : Valid h m) :
    WF (h.insertNext n m).1 := by
  by_cases h1 : n = m
  · simpa [insertNext, h1] using w
  by_cases h2 : h.next n = m
  · simpa [insertNext, h2] using w
  have i := w.inverse
  have irr := w.irrefl
  constructor
  · intro a b
    rw [(insertNext_links w hn hm h1 h2 a).1, (insertNext_links w hn hm h1 h2 b).2]
    rcases n with _ | n <;> rcases m with _ | m <;> grind (splits := 25) [next_none, prev_none]
  · intro a
    rw [(insertNext_links w hn hm h1 h2 a).1]
    rcases n with _ | n <;> rcases m with _ | m <;> grind (splits := 25) [next_none, prev_none]

theorem wf_replaceNext {h : Heap} (w : WF h) {n m : Ptr} (hn : Valid h n) (hm : Valid h m) :
    WF (h.replaceNext n m).1 := by
  by_cases h1 : n = m
  · simpa [replaceNext, h1] using w
  by_cases h2 : h.next n = m
  · simpa [replaceNext, h2] using w
  have i := w.inverse
  have irr := w.irrefl
  constructor
  · intro a b
    rw [(replaceNext_links w hn hm h1 h2 a).1, (replaceNext_links w hn hm h1 h2 b).2]
    rcases n with _ | n <;> rcases m with _ | m <;> grind (splits := 25) [next_none, prev_none]
  · intro a
    rw [(replaceNext_links w hn hm h1 h2 a).1]
    rcases n with _ | n <;> rcases m with _ | m <;> grind (splits := 25) [next_none, prev_none]

theorem wf_takeNext {h : Heap} (w : WF h) {n : Ptr} (hn : Valid h n) :
    WF (h.takeNext n).1 := by
  have i := w.inverse
  have irr := w.irrefl
  constructor
  · intro a b
    rw [(takeNext_links w hn a).1, (takeNext_links w hn b).2]
    rcases n with _ | n
    · grind (splits := 25) [next_none, prev_none]
    · rcases hc : h.next (some n) with _ | c
      · grind (splits := 25) [next_none, prev_none]
      · rcases hd : h.next (some c) with _ | d <;> grind (splits := 25) [next_none, prev_none]
  · intro a
    rw [(takeNext_links w hn a).1]
    rcases n with _ | n
    · grind (splits := 25) [next_none, prev_none]
    · rcases hc : h.next (some n) with _ | c
      · grind (splits := 25) [next_none, prev_none]
      · rcases hd : h.next (some c) with _ | d <;> grind (splits := 25) [next_none, prev_none]

theorem wf_removeNext {h : Heap} (w : WF h) {n : Ptr} (hn : Valid h n) :
    WF (h.removeNext n).1 := by
  have i := w.inverse
  have irr := w.irrefl
  constructor
  · intro a b
    rw [(removeNext_links w hn a).1, (removeNext_links w hn b).2]
    rcases n with _ | n <;> grind (splits := 25) [next_none, prev_none]
  · intro a
    rw [(removeNext_links w hn a).1]
    rcases n with _ | n <;> grind (splits := 25) [next_none, prev_none]

theorem wf_insertPrev {h : Heap} (w : WF h) {n m : Ptr} (hn : Valid h n) (hm : Valid h m) :
    WF (h.insertPrev n m).1 := by
  by_cases h1 : n = m
  · simpa [insertPrev, h1] using w
  by_cases h2 : h.prev n = m
  · simpa [insertPrev, h2] using w
  have i := w.inverse
  have irr := w.irrefl
  constructor
  · intro a b
    rw [(insertPrev_links w hn hm h1 h2 a).2, (insertPrev_links w hn hm h1 h2 b).1]
    rcases n with _ | n <;> rcases m with _ | m <;> grind (splits := 25) [next_none, prev_none]
  · intro a
    rw [(insertPrev_links w hn hm h1 h2 a).2]
    rcases n with _ | n <;> rcases m with _ | m <;> grind (splits := 25) [next_none, prev_none]

theorem wf_replacePrev {h : Heap} (w : WF h) {n m : Ptr} (hn : Valid h n) (hm : Valid h m) :
    WF (h.replacePrev n m).1 := by
  by_cases h1 : n = m
  · simpa [replacePrev, h1] using w
  by_cases h2 : h.prev n = m
  · simpa [replacePrev, h2] using w
  have i := w.inverse
  have irr := w.irrefl
  constructor
  · intro a b
    rw [(replacePrev_links w hn hm h1 h2 a).2, (replacePrev_links w hn hm h1 h2 b).1]
    rcases n with _ | n <;> rcases m with _ | m <;> grind (splits := 25) [next_none, prev_none]
  · intro a
    rw [(replacePrev_links w hn hm h1 h2 a).2]
    rcases n with _ | n <;> rcases m with _ | m <;> grind (splits := 25) [next_none, prev_none]

theorem wf_takePrev {h : Heap} (w : WF h) {n : Ptr} (hn : Valid h n) :
    WF (h.takePrev n).1 := by
  have i := w.inverse
  have irr := w.irrefl
  constructor
  · intro a b
    rw [(takePrev_links w hn a).2, (takePrev_links w hn b).1]
    rcases n with _ | n
    · grind (splits := 25) [next_none, prev_none]
    · rcases hc : h.prev (some n) with _ | c
      · grind (splits := 25) [next_none, prev_none]
      · rcases hd : h.prev (some c) with _ | d <;> grind (splits := 25) [next_none, prev_none]
  · intro a
    rw [(takePrev_links w hn a).2]
    rcases n with _ | n
    · grind (splits := 25) [next_none, prev_none]
    · rcases hc : h.prev (some n) with _ | c
      · grind (splits := 25) [next_none, prev_none]
      · rcases hd : h.prev (some c) with _ | d <;> grind (splits := 25) [next_none, prev_none]

theorem wf_removePrev {h : Heap} (w : WF h) {n : Ptr} (hn : Valid h n) :
    WF (h.removePrev n).1 := by
  have i := w.inverse
  have irr := w.irrefl
  constructor
  · intro a b
    rw [(removePrev_links w hn a).2, (removePrev_links w hn b).1]
    rcases n with _ | n <;> grind (splits := 25) [next_none, prev_none]
  · intro a
    rw [(removePrev_links w hn a).2]
    rcases n with _ | n <;> grind (splits := 25) [next_none, prev_none]

theorem wf_isolate {h : Heap} (w : WF h) {n : Ptr} (hn : Valid h n) : WF (h.isolate n) := by
  have i := w.inverse
  have irr := w.irrefl
  constructor
  · intro a b
    rw [(isolate_links w hn a).1, (isolate_links w hn b).2]
    rcases n with _ | n <;> grind (splits := 25) [next_none, prev_none]
  · intro a
    rw [(isolate_links w hn a).1]
    rcases n with _ | n <;> grind (splits := 25) [next_none, prev_none]

end Heap
end Goast
