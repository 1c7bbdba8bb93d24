import Verif.Props.Node

/-!
# C31, C32, C35: finite chains and rings, and nothing else
-/

namespace Goast
open Heap

theorem Reach.trans {h : Heap} {a b c : Addr} (r : Reach h a b) (s : Reach h b c) : Reach h a c := by
  induction r with
  | refl => exact s
  | step e _ ih => exact .step e (ih s)

theorem Reach.fwd_back {h : Heap} (w : WF h) {a b : Addr} (r : Reach h a b) {l : List Addr} (f : Fwd h (some b) l) : ∃ m, Fwd h (some a) m := by
  induction r with
  | refl => exact ⟨_, f⟩
  | @step a c b e _ ih =>
    obtain ⟨m, hm⟩ := ih f
    have : a < h.size := Decidable.byContradiction fun hn => by rw [next_of_ge (Nat.le_of_not_lt hn)] at e; cases e
    exact ⟨a :: m, .cons this (by rw [e]; exact hm)⟩

theorem Reach.fwd_on {h : Heap} {a b : Addr} (r : Reach h a b) : ∀ {l : List Addr}, Fwd h (some a) l → ∃ m, Fwd h (some b) m ∧ m.length ≤ l.length := by
  induction r with
  | refl => exact fun f => ⟨_, f, Nat.le_refl _⟩
  | step e _ ih =>
    intro l f
    cases f with
    | cons ha f =>
      rw [e] at f
      obtain ⟨m, hm, hl⟩ := ih f
      exact ⟨m, hm, by simp; omega⟩

/-- From a node, `Next` leads to an end or back to the node. -/
theorem fwd_or_back {h : Heap} (w : WF h) {a : Addr} (ha : a < h.size) : (∃ l, Fwd h (some a) l) ∨ ∃ b, h.next (some a) = some b ∧ Reach h b a := by
  have key : ∀ (n : Nat) (l : List Addr) (z : Addr), l.Nodup → (∀ x ∈ l, x < h.size) → h.size ≤ l.length + n → z ∈ l → Reach h a z →
      (∀ x ∈ l, x = a ∨ ∃ y ∈ l, h.next (some y) = some x ∧ y ≠ z) → (∃ m, Fwd h (some a) m) ∨ ∃ z, Reach h a z ∧ h.next (some z) = some a := by
    intro n
    induction n with
    | zero =>
      intro l z nd lt sz hz rz pr
      cases e : h.next (some z) with
      | none => exact .inl (rz.fwd_back w (l := [z]) (.cons (lt z hz) (by rw [e]; exact .nil)))
      | some b =>
        have hb : b < h.size := w.valid_next (some z) b e
        by_cases hm : b ∈ l
        · rcases pr b hm with rfl | ⟨y, hy, hn, hyz⟩
          · exact .inr ⟨z, rz, e⟩
          · have := (w.inverse y b).1 hn
            rw [(w.inverse z b).1 e] at this
            exact absurd (Option.some.inj this).symm hyz
        · have := nodup_length_le h.size (b :: l) (List.nodup_cons.2 ⟨hm, nd⟩) (by
            intro x hx
            rcases List.mem_cons.1 hx with rfl | hx
            · exact hb
            · exact lt x hx)
          simp only [List.length_cons] at this
          omega
    | succ n ih =>
      intro l z nd lt sz hz rz pr
      cases e : h.next (some z) with
      | none => exact .inl (rz.fwd_back w (l := [z]) (.cons (lt z hz) (by rw [e]; exact .nil)))
      | some b =>
        have hb : b < h.size := w.valid_next (some z) b e
        by_cases hm : b ∈ l
        · rcases pr b hm with rfl | ⟨y, hy, hn, hyz⟩
          · exact .inr ⟨z, rz, e⟩
          · have := (w.inverse y b).1 hn
            rw [(w.inverse z b).1 e] at this
            exact absurd (Option.some.inj this).symm hyz
        · have hzb : z ≠ b := fun q => hm (q ▸ hz)
          refine ih (b :: l) b (List.nodup_cons.2 ⟨hm, nd⟩) (by
            intro x hx
            rcases List.mem_cons.1 hx with rfl | hx
            · exact hb
            · exact lt x hx) (by simp only [List.length_cons]; omega) (by simp) (rz.trans (.step e (.refl _))) (by
            intro x hx
            rcases List.mem_cons.1 hx with rfl | hx
            · exact .inr ⟨z, by simp [hz], e, hzb⟩
            · rcases pr x hx with rfl | ⟨y, hy, hn, _⟩
              · exact .inl rfl
              · exact .inr ⟨y, by simp [hy], hn, fun q => hm (q ▸ hy)⟩)
  rcases key h.size [a] a (by simp) (by simpa using ha) (by simp) (by simp) (.refl a) (by simp) with hf | ⟨z, r, e⟩
  · exact .inl hf
  · refine .inr ?_
    cases r with
    | refl => exact absurd e (w.irrefl a)
    | step e1 r => exact ⟨_, e1, r.trans (.step e (.refl _))⟩

theorem reach_mirror {h : Heap} (w : WF h) {a b : Addr} (r : Reach h.mirror a b) : Reach h b a := by
  induction r with
  | refl => exact .refl _
  | step e _ ih =>
    rw [next_mirror] at e
    exact ih.trans (.step ((w.inverse _ _).2 e) (.refl _))

/-- **C35** Whatever was done with `Replace*`: a node lies on a finite chain, or on a ring, where `Next` leads from the node back to it. -/
theorem C35_chain_or_ring {h : Heap} (w : WF h) {a : Addr} (ha : a < h.size) :
    (∃ l, Chain h l ∧ a ∈ l) ∨ ∃ b, h.next (some a) = some b ∧ Reach h b a := by
  rcases fwd_or_back w ha with ⟨l, f⟩ | hr
  · rcases fwd_or_back w.mirror (a := a) (by simpa using ha) with ⟨m, b⟩ | ⟨b, e, r⟩
    · have b := bwd_iff_fwd_mirror.2 b
      obtain ⟨l, rfl⟩ : ∃ t, l = a :: t := by cases f; exact ⟨_, rfl⟩
      obtain ⟨m, rfl⟩ : ∃ t, m = a :: t := by cases b; exact ⟨_, rfl⟩
      exact .inl ⟨_, chain_of_lists w b f, by simp⟩
    · exfalso
      rw [next_mirror] at e
      have e' := (w.inverse b a).2 e
      obtain ⟨m, fm, hl⟩ := (reach_mirror w r).fwd_on f
      cases fm with
      | cons _ fm =>
        rw [e'] at fm
        cases fm.det f
        simp only [List.length_cons] at hl
        omega
  · exact .inr hr

/-- **C35** And never both. -/
theorem C35_not_both {h : Heap} (w : WF h) {a b : Addr} (e : h.next (some a) = some b) (r : Reach h b a) :
    (¬ ∃ l, Chain h l ∧ a ∈ l) ∧ ¬ ∃ l, Fwd h (some a) l := by
  have no : ¬ ∃ l, Fwd h (some a) l := by
    rintro ⟨l, f⟩
    cases f with
    | cons ha f =>
      rw [e] at f
      obtain ⟨m, fm, hl⟩ := r.fwd_on f
      cases fm with
      | cons _ fm =>
        rw [e] at fm
        cases fm.det f
        simp only [List.length_cons] at hl
        omega
  refine ⟨?_, no⟩
  rintro ⟨l, c, hm⟩
  obtain ⟨l₁, l₂, rfl⟩ := List.append_of_mem hm
  exact no ⟨_, Fwd.drop l₁ c.fwd⟩

/-! ## Walks on a ring -/

theorem loop_of_last {h : Heap} (w : WF h) : ∀ (F : Nat) (a : Addr) (r : Unit × Ptr), a < h.size →
    loop (fun (_ : Unit) a => h.next (some a)) (fun () a => some ((), decide (h.next (some a) ≠ none))) F () (some a) = some r → ∃ l, Fwd h (some a) l
  | 0, a, r, _, e => by cases e
  | F + 1, a, r, ha, e => by
    cases hn : h.next (some a) with
    | none => exact ⟨[a], .cons ha (by rw [hn]; exact .nil)⟩
    | some b =>
      simp only [loop, hn, ne_eq, reduceCtorEq, not_false_eq_true, decide_true] at e
      obtain ⟨l, f⟩ := loop_of_last w F b r (w.valid_next (some a) b hn) e
      exact ⟨a :: l, .cons ha (by rw [hn]; exact f)⟩

/-- **C32** On a ring no walk ends, however long one waits (`F` is the number of rounds): not `IterNext` with a callback that never stops, whatever it computes, and not `Last`. -/
theorem C32_ring {σ : Type} {h : Heap} (w : WF h) {a b : Addr} (e : h.next (some a) = some b) (r : Reach h b a) (F : Nat) :
    (∀ (fn : σ → Addr → σ × Bool), (∀ s x, (fn s x).2 = true) → ∀ s, loop (fun _ x => h.next (some x)) (fun s x => some (fn s x)) F s (some a) = none) ∧
    loop (fun (_ : Unit) x => h.next (some x)) (fun () x => some ((), decide (h.next (some x) ≠ none))) F () (some a) = none := by
  have no := (C35_not_both w e r).2
  have ha : a < h.size := Decidable.byContradiction fun hn => by rw [next_of_ge (Nat.le_of_not_lt hn)] at e; cases e
  constructor
  · intro fn hf s
    cases q : loop (fun _ x => h.next (some x)) (fun s x => some (fn s x)) F s (some a) with
    | none => rfl
    | some r => exact absurd (fwd_of_loop h w fn hf F s (some a) r (valid_some ha) q) no
  · cases q : loop (fun (_ : Unit) x => h.next (some x)) (fun () x => some ((), decide (h.next (some x) ≠ none))) F () (some a) with
    | none => rfl
    | some r => exact absurd (loop_of_last w F a r ha q) no

/-- **C32** When `IterNext` returns, for a callback that stops at the nodes with a certain property: exactly if the chain ends or a node with the property can be reached. -/
theorem C32_returns_iff {h : Heap} (w : WF h) {a : Addr} (ha : a < h.size) (stop : Addr → Bool) :
    (∃ F r, loop (fun (_ : Unit) x => h.next (some x)) (fun () x => some ((), !stop x)) F () (some a) = some r) ↔
      (∃ l, Fwd h (some a) l) ∨ ∃ z, Reach h a z ∧ stop z = true := by
  constructor
  · rintro ⟨F, r, e⟩
    induction F generalizing a with
    | zero => cases e
    | succ F ih =>
      by_cases hs : stop a = true
      · exact .inr ⟨a, .refl a, hs⟩
      · simp only [loop, hs, Bool.not_false] at e
        cases hn : h.next (some a) with
        | none => exact .inl ⟨[a], .cons ha (by rw [hn]; exact .nil)⟩
        | some b =>
          rw [hn] at e
          rcases ih (w.valid_next (some a) b hn) e with ⟨l, f⟩ | ⟨z, hz, q⟩
          · exact .inl ⟨a :: l, .cons ha (by rw [hn]; exact f)⟩
          · exact .inr ⟨z, .step hn hz, q⟩
  · rintro (⟨l, f⟩ | ⟨z, hz, q⟩)
    · exact ⟨h.size + 1, walk (fun (_ : Unit) x => ((), !stop x)) () l, C32_iterNext h (fun (_ : Unit) x => ((), !stop x)) f ()⟩
    · induction hz with
      | refl x => exact ⟨1, ((), some x), by simp [loop, q]⟩
      | @step x y z e _ ih =>
        obtain ⟨F, r, hr⟩ := ih (w.valid_next (some x) y e) q
        cases hs : stop x with
        | true => exact ⟨1, ((), some x), by simp [loop, hs]⟩
        | false => exact ⟨F + 1, r, by simp only [loop, hs, Bool.not_false, e]; exact hr⟩

/-- **C31** `Copy(true)` of a node on a ring never returns: the recursion has no bottom (the program dies of stack overflow). -/
theorem C31_ring {h : Heap} (w : WF h) {a b : Addr} (e : h.next (some a) = some b) (r : Reach h b a) (F : Nat) : deepCopy F h (some a) none none = none := by
  have ha : a < h.size := Decidable.byContradiction fun hn => by rw [next_of_ge (Nat.le_of_not_lt hn)] at e; cases e
  cases F with
  | zero => rfl
  | succ F =>
    cases q : deepCopy (F + 1) h (some a) none none with
    | none => rfl
    | some res =>
      exfalso
      simp only [deepCopy, alloc_eq] at q
      rw [prev_extend_lt ha] at q
      split at q
      · cases q
      · rename_i h1 p1 hd
        obtain ⟨lb, hb⟩ := bwd_of_deepCopy h w _ _ _ _ _ (w.valid_prev _) hd
        have b' : Bwd h (some a) (a :: lb) := .cons ha hb
        rcases C35_chain_or_ring w ha with hc | _
        · exact (C35_not_both w e r).1 hc
        · rcases fwd_or_back w ha with ⟨l, f⟩ | _
          · exact (C35_not_both w e r).2 ⟨l, f⟩
          · -- backwards the ring has no end either
            have hr : Reach h.mirror a b := by
              have : ∀ {x y : Addr}, Reach h x y → Reach h.mirror y x := by
                intro x y q
                induction q with
                | refl => exact .refl _
                | step e1 _ ih => exact ih.trans (.step (by rw [next_mirror]; exact (w.inverse _ _).1 e1) (.refl _))
              exact this r
            obtain ⟨m, fm, hl⟩ := hr.fwd_on (bwd_iff_fwd_mirror.1 b')
            cases fm with
            | cons _ fm =>
              rw [next_mirror, (w.inverse a b).1 e] at fm
              cases fm.det (bwd_iff_fwd_mirror.1 b')
              simp only [List.length_cons] at hl
              omega

/-- A ring: three nodes and `c.ReplaceNext(a)`. -/
example : ∃ h : Heap, WF h ∧ h.next (some 0) = some 1 ∧ Reach h 1 0 := by
  have wd : WF demo := newNodes_wf (newNodes_wf wf_empty 0 [b!"a", b!"b", b!"c"]) 5 [b!"d\n", b!"e"]
  refine ⟨(demo.replaceNext (some 2) (some 0)).1, wf_replaceNext wd ?_ ?_, by decide +kernel, .step (b := 2) (by decide +kernel) (.step (b := 0) (by decide +kernel) (.refl 0))⟩
  · exact valid_some (by decide +kernel)
  · exact valid_some (by decide +kernel)

end Goast
