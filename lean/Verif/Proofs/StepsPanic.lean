import Verif.Proofs.StepsMake

/-! # Proofs: where a call panics, its single steps panic; iteration with any callback -/

set_option linter.unusedSimpArgs false
set_option linter.unusedVariables false

namespace Goast

variable {α β : Type}

/-- The code panics. -/
def Panics (h : Heap) (p : Code α) : Prop := p.exec h = none

theorem Panics.bind {h : Heap} {p : Code α} (d : Panics h p) (g : α → Code β) : Panics h (p >>= g) := by
  unfold Panics at *; rw [exec_bind, d]; rfl

theorem Does.panics {s : Nat} {h h₁ : Heap} {p : Code α} {x : α} {g : α → Code β} (d : Does s h p h₁ x) (e : Panics h₁ (g x)) : Panics h (p >>= g) := by
  unfold Panics at *; rw [exec_bind, d.exec]; exact e

theorem Makes.panics {h h₁ : Heap} {p : Code α} {x : α} {g : α → Code β} (d : Makes h p h₁ x) (e : Panics h₁ (g x)) : Panics h (p >>= g) := by
  unfold Panics at *; rw [exec_bind, d.exec]; exact e

theorem panics_combineNext {s : Nat} {h : Heap} (g : SoundLinks s h) {n : Ptr} (hn : PIn s n) (k : Kind) {nns : List Ptr} (hm : ∀ m ∈ nns, PIn s m)
    (e : h.combineNext n k nns = none) : Panics h (Code.combineNext n k nns) := by
  have a0 := does_setKind g hn k
  unfold Heap.combineNext at e
  refine a0.panics ?_
  cases nns with
  | nil => simp at e
  | cons nn0 rest =>
    cases n with
    | some b => simp at e
    | none =>
      cases nn0 with
      | some b => simp at e
      | none =>
        have a1 := does_combineLoop rest a0.good [(h.setKind none k).text none] (n := none) fun m h => hm m (by simp [h])
        exact (does_text a0.good (fun _ h => by cases h)).panics (a1.panics rfl)

theorem panics_combinePrev {s : Nat} {h : Heap} (g : SoundLinks s h) {n : Ptr} (hn : PIn s n) (k : Kind) {nns : List Ptr} (hm : ∀ m ∈ nns, PIn s m)
    (e : h.combinePrev n k nns = none) : Panics h (Code.combinePrev n k nns) := by
  have a0 := does_setKind g hn k
  unfold Heap.combinePrev at e
  refine a0.panics ?_
  cases nns with
  | nil => simp at e
  | cons nn0 rest =>
    cases n with
    | some b => simp at e
    | none =>
      cases nn0 with
      | some b => simp at e
      | none =>
        have a1 := does_combineLoop rest a0.good [(h.setKind none k).text none] (n := none) fun m h => hm m (by simp [h])
        exact (does_text a0.good (fun _ h => by cases h)).panics (a1.panics rfl)

theorem panics_deepCopy : ∀ (fuel : Nat) (h : Heap) (g : SoundLinks h.size h) (n pre nxt : Ptr), PIn h.size n → PIn h.size pre → PIn h.size nxt →
    Heap.deepCopy fuel h n pre nxt = none → Panics h (Code.deepCopy fuel n pre nxt)
  | _, h, g, none, pre, nxt, _, _, _, e => by unfold Heap.deepCopy at e; cases e
  | 0, h, g, some a, pre, nxt, _, _, _, e => by unfold Code.deepCopy; rfl
  | fuel + 1, h, g, some a, pre, nxt, hn, hp, hx, e => by
    have ha := hn a rfl
    obtain ⟨c, hc⟩ := g.cell ha
    rw [deepCopy_unfold] at e
    unfold Code.deepCopy
    have el : h.line (some a) = c.get .line := by simp [Heap.line, hc, NodeRec.get]
    have ek : h.kind (some a) = c.get .kind := by simp [Heap.kind, hc, NodeRec.get]
    have et : h.text (some a) = c.get .text := by simp [Heap.text, hc, NodeRec.get]
    simp only [el, ek, et] at e
    have a1 := makes_alloc g (r := { line := c.get .line, kind := c.get .kind, text := c.get .text, prev := none, next := none }) rfl rfl
    have hnn : PIn (h.alloc { line := c.get .line, kind := c.get .kind, text := c.get .text, prev := none, next := none }).1.size
        (some (h.alloc { line := c.get .line, kind := c.get .kind, text := c.get .text, prev := none, next := none }).2) := by
      intro b hb; cases hb; simp [Heap.alloc, Heap.size]
    generalize h.alloc { line := c.get .line, kind := c.get .kind, text := c.get .text, prev := none, next := none } = H at *
    refine (exec_load g ha .line hc).panics ((exec_load g ha .kind hc).panics ((exec_load g ha .text hc).panics (a1.panics ?_)))
    have hn1 := hn.le a1.le
    cases e2 : (if pre = none then Heap.deepCopy fuel H.1 (H.1.prev (some a)) none (some H.2) else some (H.1, pre)) with
    | none =>
      refine Panics.bind ?_ _
      by_cases h0 : pre = none
      · rw [if_pos h0] at e2 ⊢
        exact (does_prev a1.sound hn1).panics (panics_deepCopy fuel H.1 a1.sound _ none (some H.2) (a1.sound.pPrev _) pnone hnn e2)
      · rw [if_neg h0] at e2; cases e2
    | some q =>
      obtain ⟨h2, pre2⟩ := q
      have a2 : MakesPtr H.1 (if pre = none then (do let p ← Code.prev (some a); Code.deepCopy fuel p none (some H.2)) else pure pre) h2 pre2 := by
        by_cases h0 : pre = none
        · rw [if_pos h0] at e2 ⊢
          have d := does_prev a1.sound hn1
          have k := makes_deepCopy fuel H.1 a1.sound (H.1.prev (some a)) none (some H.2) (a1.sound.pPrev _) pnone hnn _ e2
          exact ⟨d.makes.bind k.toMakes, k.res⟩
        · rw [if_neg h0] at e2 ⊢
          cases e2
          exact ⟨(does_pure a1.sound _).makes, hp.le a1.le⟩
      refine a2.toMakes.panics ?_
      have hn2 := hn1.le a2.le
      rw [e2] at e
      simp only [Option.bind_some] at e
      refine Panics.bind ?_ _
      by_cases h0 : nxt = none
      · rw [if_pos h0] at e ⊢
        rw [Option.bind_eq_none_iff] at e
        refine (does_next a2.sound hn2).panics (panics_deepCopy fuel h2 a2.sound _ (some H.2) none (a2.sound.pNext _) (hnn.le a2.le) pnone ?_)
        cases e3 : Heap.deepCopy fuel h2 (h2.next (some a)) (some H.2) none with
        | none => rfl
        | some q => exact absurd (e q e3) (by simp)
      · rw [if_neg h0] at e; simp at e

theorem panics_copy {h : Heap} (g : SoundLinks h.size h) {n : Ptr} (hn : PIn h.size n) (b : Bool) (e : h.copy n b = none) :
    Panics h (Code.copy (h.size + 1) n b) := by
  unfold Heap.copy at e
  unfold Code.copy
  cases n with
  | none => cases e
  | some a =>
    rw [if_neg (by simp)]
    simp only at e
    split at e
    · rename_i hb
      rw [if_pos hb]
      exact panics_deepCopy _ h g _ none none hn pnone pnone e
    · cases e

/-- Iteration, in single steps and at once. -/
theorem exec_loop {σ : Type} {fn : σ → Ptr → Code (σ × Bool)} {iter : Ptr → Code Ptr} {it : Heap → Ptr → Ptr}
    (ok : ∀ s a h h' r, WF h → a < h.size → (fn s (some a)).exec h = some (h', r) → WF h' ∧ h.size ≤ h'.size)
    (hi : ∀ h n, WF h → PIn h.size n → (iter n).exec h = some (h, it h n) ∧ PIn h.size (it h n)) :
    ∀ (fuel : Nat) (s : σ) (h : Heap) (n : Ptr), WF h → PIn h.size n →
    (Code.loop iter fn fuel s n).exec h =
      (loop (fun (w : Heap × σ) a => it w.1 (some a)) (fun w a => ((fn w.2 (some a)).exec w.1).map fun r => ((r.1, r.2.1), r.2.2)) fuel (h, s) n).map
        fun r => (r.1.1, (r.1.2, r.2))
  | _, s, h, none, w, hn => by unfold Code.loop loop; rfl
  | 0, s, h, some a, w, hn => by unfold Code.loop loop; rfl
  | fuel + 1, s, h, some a, w, hn => by
    unfold Code.loop loop
    rw [exec_bind]
    cases e : (fn s (some a)).exec h with
    | none => rfl
    | some r =>
      obtain ⟨h', s', go⟩ := r
      obtain ⟨w', le⟩ := ok s a h h' _ w (hn a rfl) e
      simp only [Option.bind_some, Option.map_some]
      cases go with
      | false => rfl
      | true =>
        obtain ⟨e1, p1⟩ := hi h' (some a) w' (hn.le le)
        simp only [if_true]
        rw [exec_bind, e1]
        exact exec_loop ok hi fuel s' h' _ w' p1

end Goast
