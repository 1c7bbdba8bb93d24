import Verif.Props.WaitFree

/-!
# C84: iteration with a user's callback
-/

namespace Goast
open Heap

variable {h : Heap} {α σ : Type}

/-- Code that only reads and returns after `n` steps. -/
theorem gives_of_returns : ∀ (p : Code α) {n : Nat}, ReadOnly p → p.ReturnsAfter h.mem n → ∃ x, Gives h p n x
  | .ret x, n, _, r => by
    rcases r [] h.mem _ rfl with ⟨e, _⟩ | ⟨_, e⟩
    · exact ⟨x, by simpa using e.symm, rfl, rfl⟩
    · obtain ⟨r, e⟩ := e h.size (by simp [Heap.mem, Heap.size])
      simp [Code.step] at e
  | .panic, n, _, r => by
    rcases r [] h.mem _ rfl with ⟨_, _, e⟩ | ⟨_, e⟩
    · cases e
    · obtain ⟨r, e⟩ := e h.size (by simp [Heap.mem, Heap.size])
      simp [Code.step] at e
  | .read a f k, n, ro, r => by
    rcases r [] h.mem _ rfl with ⟨_, _, e⟩ | ⟨hn, e⟩
    · cases e
    · obtain ⟨r', e⟩ := e h.size (by simp [Heap.mem, Heap.size])
      cases ha : h.mem a with
      | none => simp [Code.step, ha] at e
      | some v =>
        obtain ⟨x, g⟩ := gives_of_returns (k (v.get f)) (n := n - 1) (ro _) (by
          intro cs m' q e'
          have := r (0 :: cs) m' q (by simp only [Code.alone, Code.step, ha]; exact e')
          simp only [List.length_cons, List.length_nil] at this hn
          rcases this with ⟨e1, e2⟩ | ⟨e1, e2⟩
          · exact .inl ⟨by omega, e2⟩
          · exact .inr ⟨by omega, e2⟩)
        simp only [List.length_nil] at hn
        exact ⟨x, v, n - 1, ha, by omega, g⟩

/-- **C84** `IterNext` and `IterPrev` with a callback that only reads and returns after at most `c` steps, whatever node of the list it is given: the iteration returns after at
most `c + 1` steps for each node from the receiver to the end of the list; one for each node if the callback makes none.  (By `C84_readers` other goroutines that
read the list do not change this.) -/
theorem C84_iterate {F c : Nat} {fn : σ → Ptr → Code (σ × Bool)} {n : Ptr} {l : List Addr} (s : σ) (hl : l.length ≤ F)
    (ro : ∀ s a, a ∈ l → ReadOnly (fn s (some a))) (hc : ∀ s a, a ∈ l → ∃ k, k ≤ c ∧ (fn s (some a)).ReturnsAfter h.mem k) :
    (Fwd h n l → ∃ k, k ≤ (c + 1) * l.length ∧ (Code.iterNext F fn s n).ReturnsAfter h.mem k) ∧
    (Bwd h n l → ∃ k, k ≤ (c + 1) * l.length ∧ (Code.iterPrev F fn s n).ReturnsAfter h.mem k) := by
  have hf : ∀ s a, a ∈ l → ∃ k r, k ≤ c ∧ Gives h (fn s (some a)) k r := by
    intro s a ha
    obtain ⟨k, hk, r⟩ := hc s a ha
    obtain ⟨x, g⟩ := gives_of_returns _ (ro s a ha) r
    exact ⟨k, x, hk, g⟩
  constructor
  · intro f
    obtain ⟨k, x, h1, h2⟩ := gives_iterNext f (s := s) hl hf
    exact ⟨k, h1, ends_returns h2⟩
  · intro f
    obtain ⟨k, x, h1, h2⟩ := gives_iterPrev f (s := s) hl hf
    exact ⟨k, h1, ends_returns h2⟩

/-- Collecting the texts of a list of three nodes: at most six steps. -/
example : ∃ k, k ≤ 6 ∧ (Code.iterNext 3 (fun (buf : Bytes) a => do let t ← Code.text a; pure (buf ++ t, true)) [] (some 0)).ReturnsAfter
    (Heap.empty.newNodes 0 [b!"a", b!"b", b!"c"]).1.mem k := by
  refine (C84_iterate (c := 1) (l := [0, 1, 2]) [] (by decide) (fun s a ha => ?_) (fun s a ha => ⟨1, Nat.le_refl _, ?_⟩)).1
    (.cons (by decide +kernel) (.cons (by decide +kernel) (.cons (by decide +kernel) .nil)))
  · intro v
    trivial
  · have : (Heap.empty.newNodes 0 [b!"a", b!"b", b!"c"]).1.mem a ≠ none := by
      simp only [List.mem_cons, List.not_mem_nil, or_false] at ha
      have : ∀ b < 3, (Heap.empty.newNodes 0 [b!"a", b!"b", b!"c"]).1.mem b ≠ none := by decide +kernel
      exact this a (by omega)
    obtain ⟨r, hr⟩ := Option.ne_none_iff_exists'.1 this
    exact ends_returns (P := fun _ _ => True) ⟨r, 0, hr, rfl, rfl, trivial⟩

end Goast
