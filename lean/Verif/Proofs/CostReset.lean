import Verif.Proofs.Cost

/-! # Proofs: how many steps the resetters take -/

set_option linter.unusedSimpArgs false
set_option linter.unusedVariables false

namespace Goast

variable {α β : Type} {c : RCtx} {w : World}

/-- One more than the rank of a node; 0 for nil. -/
def RCtx.rk (c : RCtx) : Ptr → Nat
  | none => 0
  | some a => c.f a + 1

/-- Nil or a node of the chain. -/
def RCtx.On (c : RCtx) (p : Ptr) : Prop := ∀ a, p = some a → c.S a

/-- The conditions on `F` and `top` always hold. -/
structure RCtx.Free (c : RCtx) : Prop where
  ok : c.OK
  F : c.h0.size ≤ c.F

/-- The bound for the rounds of an `IterNext`. -/
def RCtx.N (c : RCtx) : Nat := c.h0.size + 1

theorem RCtx.On.none : c.On none := fun a h => by cases h

theorem RCtx.On.some {a : Addr} (h : c.S a) : c.On (some a) := fun b e => by cases e; exact h

theorem RCtx.Free.rk_lt (o : c.Free) {p : Ptr} (h : c.On p) : c.rk p < c.N := by
  cases p with
  | none => simp [RCtx.rk, RCtx.N]
  | some a => have := o.ok.bound a (h a rfl); simp only [RCtx.rk, RCtx.N]; omega

theorem RCtx.Free.rank_lt (o : c.Free) {p : Ptr} (h : c.On p) : ∀ a, p = some a → c.f a < c.N := by
  rintro a rfl
  have := o.rk_lt h
  simp only [RCtx.rk] at this; omega

theorem RCtx.Free.F_le (o : c.Free) {a : Addr} (h : c.S a) : c.f a ≤ c.F := by
  have := o.ok.bound a h
  have := o.F
  omega

theorem Good.next_on (o : c.Free) {h : Heap} (g : Good c h) {p : Ptr} (hp : c.On p) : c.On (h.next p) := by
  intro b e
  cases p with
  | none => cases e
  | some a => exact g.next_S o.ok (hp a rfl) e

theorem Good.rk_next {h : Heap} (g : Good c h) (a : Addr) : c.rk (h.next (some a)) < c.rk (some a) := by
  cases e : h.next (some a) with
  | none => simp [RCtx.rk]
  | some b => have := g.rank a b e; simp only [RCtx.rk]; omega

theorem Good.rk_next_le {h : Heap} (g : Good c h) (p : Ptr) : c.rk (h.next p) ≤ c.rk p := by
  cases p with
  | none => exact Nat.le_refl _
  | some a => exact Nat.le_of_lt (g.rk_next a)

theorem Good.hook (o : c.Free) {n : Ptr} (hn : c.On n) : ∀ (hooks : List Hook) {w : World}, Good c w.heap → Good c (handleHook w n hooks).heap
  | [], w, g => g
  | k :: ks, w, g => by
    refine Good.hook o hn ks (w := runHook w n k) ?_
    cases k with
    | appendBuf => exact g
    | rawToParamType =>
      simp only [runHook]
      split
      · rename_i hr
        rcases n with _ | a
        · simp [Heap.kind] at hr
        · exact g.setKind o.ok (hn a rfl) (o.F_le (hn a rfl)) (by rw [hr]; decide) (by decide)
      · exact g

/-- The call returns within `b` steps. -/
def Flat (c : RCtx) (b : Nat) (head : Ptr) (w' : World) (r : Ptr) (k : Nat) : Prop :=
  Good c w'.heap ∧ c.On r ∧ c.rk r ≤ c.rk head ∧ k ≤ b

/-- An `IterNext` whose callback takes at most `b` steps. -/
theorem takes_walk (o : c.Free) {σ : Type} {fn : σ → Ptr → RCode (σ × Bool)} {b : Nat}
    (hb : ∀ w s a, Good c w.heap → c.S a → Takes (fn s (some a)) w fun w' _ k => Good c w'.heap ∧ k ≤ b)
    (g : Good c w.heap) {s : σ} {head : Ptr} (on : c.On head) :
    Takes (RCode.iter c.N fn s head) w fun w' r k => Flat c ((b + 1) * c.N) head w' r.2 k := by
  have fin : ∀ x, x ≤ c.rk head → (b + 1) * x ≤ (b + 1) * c.N := fun x hx => Nat.mul_le_mul_left _ (by have := o.rk_lt on; omega)
  refine takes_iter c.f (fun w s p k => Good c w.heap ∧ c.On p ∧ c.rk p ≤ c.rk head ∧ k ≤ (b + 1) * (c.rk head - c.rk p)) ?_ ?_ ?_ (o.rank_lt on)
  · rintro w s k ⟨h1, h2, h3, h4⟩
    exact ⟨h1, h2, h3, Nat.le_trans h4 (fin _ (Nat.sub_le _ _))⟩
  · rintro w s a k ⟨h1, h2, h3, h4⟩
    refine (hb w s a h1 (h2 a rfl)).mono ?_
    rintro w' r k' ⟨g', hk⟩
    have lt := g'.rk_next a
    have e1 : ∀ x y : Nat, x < y → (b + 1) * x + (b + 1) ≤ (b + 1) * y := fun x y h => by
      rw [← Nat.mul_succ]; exact Nat.mul_le_mul_left _ h
    have pos : 0 < c.rk (some a) := by simp [RCtx.rk]
    refine ⟨fun _ => ⟨g', h2, h3, ?_⟩, fun _ => ⟨⟨g', g'.next_on o h2, by omega, ?_⟩, fun a' ha' => g'.rank a a' ha'⟩⟩
    · have := e1 (c.rk head - c.rk (some a)) (c.rk head) (by omega)
      have := fin _ (Nat.le_refl _)
      omega
    · have := e1 (c.rk head - c.rk (some a)) (c.rk head - c.rk (w'.heap.next (some a))) (by omega)
      omega
  · exact ⟨g, on, Nat.le_refl _, by simp⟩

variable {hooks : List Hook}

theorem takes_findNext (o : c.Free) (hl : hooks.length ≤ 1) (g : Good c w.heap) {n : Ptr} (on : c.On n) {target : List Kind} {opt : FindOpt} :
    Takes (RCode.findNext c.N n target opt hooks) w (Flat c (5 * c.N) n) := by
  unfold RCode.findNext
  refine Takes.bind ((takes_walk o (b := 4) (fun w s a g sa => ?_) g on).mono fun w' r k h => Takes.pure ?_)
  · refine Takes.bind (takes_hook hl fun k hk => Takes.bind (takes_kind (Takes.bind (takes_kind (Takes.pure ⟨g.hook o (.some sa) hooks, by omega⟩)))))
  · exact h

theorem takes_skipNestNext (o : c.Free) (hl : hooks.length ≤ 1) (g : Good c w.heap) {n : Ptr} (on : c.On n) {l r : Kind} :
    Takes (RCode.skipNestNext c.N n l r hooks) w (Flat c (13 * c.N) n) := by
  unfold RCode.skipNestNext
  refine Takes.bind (takes_kind ?_)
  have second : ∀ (w : World) (m : Ptr), Good c w.heap → c.On m → c.rk m ≤ c.rk n → Takes (do
      let r ← RCode.iter c.N (fun (count : Int) a => do
        RCode.handleHook a hooks
        let k ← RCode.kind a
        if k = l then pure (count + 1, true)
        else if k = r then pure (count - 1, decide (count - 1 ≠ 0))
        else pure (count, true)) 1 m
      pure r.2) w (Flat c (4 * c.N) n) := by
    intro w m g on hm
    refine Takes.bind ((takes_walk o (b := 3) (fun w s a g sa => ?_) g on).mono fun w' r k h => Takes.pure ?_)
    · refine Takes.bind (takes_hook hl fun k hk => Takes.bind (takes_kind ?_))
      have g' := g.hook o (.some sa) hooks
      split
      · exact Takes.pure ⟨g', by omega⟩
      · split <;> exact Takes.pure ⟨g', by omega⟩
    · exact ⟨h.1, h.2.1, Nat.le_trans h.2.2.1 hm, by have := h.2.2.2; omega⟩
  have hN : 1 ≤ c.N := by simp [RCtx.N]
  refine Takes.bind (p := ite _ _ _) ?_
  split
  · refine Takes.bind (takes_hook hl fun k hk => Takes.bind ((takes_findNext o hl (g.hook o on hooks) on).mono fun w1 f k1 h1 => takes_next ?_))
    refine (second w1 _ h1.1 (h1.1.next_on o h1.2.1) (Nat.le_trans (h1.1.rk_next_le f) h1.2.2.1)).mono fun w2 r k2 h2 => ?_
    exact ⟨h2.1, h2.2.1, h2.2.2.1, by have := h1.2.2.2; have := h2.2.2.2; omega⟩
  · refine Takes.pure ((second w n g on (Nat.le_refl _)).mono fun w2 r k2 h2 => ?_)
    exact ⟨h2.1, h2.2.1, h2.2.2.1, by have := h2.2.2.2; omega⟩

theorem takes_curlyRun (o : c.Free) (hl : hooks.length ≤ 1) (g : Good c w.heap) {n : Ptr} (on : c.On n) :
    Takes (RCode.curlyRun c.N n hooks) w (Flat c (25 * c.N) n) := by
  refine Takes.bind (takes_debugText ((takes_skipNestNext o hl g on).mono fun w' r k h => ?_))
  have hN : 1 ≤ c.N := by simp [RCtx.N]
  exact ⟨h.1, h.2.1, h.2.2.1, by have := h.2.2.2; omega⟩

theorem takes_squareRun (o : c.Free) (hl : hooks.length ≤ 1) (g : Good c w.heap) {n : Ptr} (on : c.On n) :
    Takes (RCode.squareRun c.N n hooks) w (Flat c (25 * c.N) n) := by
  refine Takes.bind (takes_debugText ((takes_skipNestNext o hl g on).mono fun w' r k h => ?_))
  have hN : 1 ≤ c.N := by simp [RCtx.N]
  exact ⟨h.1, h.2.1, h.2.2.1, by have := h.2.2.2; omega⟩

theorem takes_validParamCount (o : c.Free) (g : Good c w.heap) {n : Ptr} (on : c.On n) :
    Takes (RCode.validParamCount c.N n) w fun w' _ k => Good c w'.heap ∧ k ≤ 2 * c.N := by
  refine Takes.bind ((takes_walk o (b := 1) (fun w s a g sa => ?_) g on).mono fun w' r k h => Takes.pure ⟨h.1, h.2.2.2⟩)
  refine Takes.bind (takes_kind ?_)
  split <;> exact Takes.pure ⟨g, by omega⟩

theorem takes_isThisLineFunction (o : c.Free) (g : Good c w.heap) {n : Ptr} (on : c.On n) :
    Takes (RCode.isThisLineFunction c.N n) w fun w' _ k => Good c w'.heap ∧ k ≤ 2 * c.N := by
  refine Takes.bind ((takes_walk o (b := 1) (fun w s a g sa => ?_) g on).mono fun w' r k h => Takes.pure ⟨h.1, h.2.2.2⟩)
  refine Takes.bind (takes_kind ?_)
  split <;> exact Takes.pure ⟨g, by omega⟩

theorem takes_getRowNameCount (o : c.Free) (g : Good c w.heap) {n : Ptr} (on : c.On n) :
    Takes (RCode.getRowNameCount c.N n) w fun w' _ k => Good c w'.heap ∧ k ≤ 2 * c.N := by
  refine Takes.bind ((takes_walk o (b := 1) (fun w s a g sa => ?_) g on).mono fun w' r k h => Takes.pure ⟨h.1, h.2.2.2⟩)
  exact Takes.bind (takes_kind (Takes.pure ⟨g, by omega⟩))

theorem takes_isTemporaryFunc (o : c.Free) (g : Good c w.heap) {n : Ptr} (on : c.On n) :
    Takes (RCode.isTemporaryFunc c.N n) w fun w' _ k => Good c w'.heap ∧ k ≤ 8 * c.N := by
  have hN : 1 ≤ c.N := by simp [RCtx.N]
  refine Takes.bind ((takes_findNext o (by simp) g on).mono fun w1 f k1 h1 => Takes.bind (takes_kind ?_))
  have := h1.2.2.2
  split
  · exact Takes.pure ⟨h1.1, by omega⟩
  · exact Takes.bind (takes_next (Takes.bind (takes_kind (Takes.pure ⟨h1.1, by omega⟩))))

/-! ## Loops with jumps -/

/-- What the callback of a resetter at the node `a` may do: it stops or goes on, within `B` steps, or jumps forward, within
`B` steps and `D` for each node passed over. -/
def Fine (c : RCtx) (B D : Nat) (St : World → Addr → Prop) (a : Addr) (w' : World) (ctl : Ctl) (k : Nat) : Prop :=
  Good c w'.heap ∧ match ctl with
    | .stop => k ≤ B ∧ St w' a
    | .cont => k ≤ B
    | .jump p => c.On p ∧ c.rk p ≤ c.rk (some a) ∧ k ≤ B + D * max 1 (c.rk (some a) - c.rk p)

/-- What a loop with such a callback takes. -/
def Loops (c : RCtx) (B D : Nat) (St : World → Addr → Prop) (head : Ptr) (w' : World) (r : Ptr) (k : Nat) : Prop :=
  Good c w'.heap ∧ c.On r ∧ c.rk r ≤ c.rk head ∧ k ≤ B * (c.rk head - c.rk r + 1) + D * (c.rk head - c.rk r) ∧ ∀ a, r = some a → St w' a

theorem mul_add_le {B x y : Nat} (h : x < y) : B * x + B ≤ B * y := by
  rw [← Nat.mul_succ]; exact Nat.mul_le_mul_left _ h

theorem takes_jumpLoop (o : c.Free) (hl : hooks.length ≤ 1) {σ : Type} {consume : Bool} {body : σ → Ptr → RCode (σ × Ctl)} {B D : Nat}
    {St : World → Addr → Prop} (g : Good c w.heap) {s : σ} {head : Ptr} (on : c.On head)
    (hb : ∀ w1 s a, Good c w1.heap → c.S a → c.rk (some a) ≤ c.rk head →
      ((some a = head ∧ w1 = handleHook w head hooks) ∨ c.rk (some a) < c.rk head) →
      Takes (body s (some a)) w1 fun w2 r k => Fine c B D St a w2 r.2 k) :
    Takes (RCode.jumpLoop c.N consume hooks body s head) w (Loops c (B + 3) D St head) := by
  unfold RCode.jumpLoop
  refine Takes.bind (Takes.mono (Q := fun w' r k => Loops c (B + 3) D St head w' r.2 k) ?_ fun w' r k h => Takes.pure h)
  refine takes_iter c.f (fun w1 j p k => Good c w1.heap ∧ c.On p ∧ c.rk p ≤ c.rk head ∧ ((p = head ∧ w1 = w) ∨ c.rk p < c.rk head) ∧
    ∃ E, k ≤ (B + 3) * (c.rk head - c.rk p) + D * E ∧ E ≤ c.rk head ∧
      (j.skipAll = false → (j.jumpTo = none → E ≤ c.rk head - c.rk p) ∧
        ∀ q, j.jumpTo = some q → E ≤ c.rk head - c.rk (some q) ∨ c.rk p < c.rk (some q))) ?_ ?_ ?_ (o.rank_lt on)
  · rintro w1 j k ⟨h1, h2, h3, -, E, h4, h5, -⟩
    refine ⟨h1, h2, h3, Nat.le_trans h4 ?_, fun a ha => by cases ha⟩
    dsimp only
    have : D * E ≤ D * (c.rk head - c.rk none) := Nat.mul_le_mul_left _ h5
    have := Nat.mul_le_mul_left (B + 3) (Nat.le_succ (c.rk head - c.rk none))
    simp only [Nat.succ_eq_add_one] at this
    omega
  · rintro w1 j a k ⟨h1, h2, h3, h0, E, h4, h5, h6⟩
    have pos : 0 < c.rk (some a) := by simp [RCtx.rk]
    have sa := h2 a rfl
    unfold RCode.jumpStep
    refine Takes.bind (takes_hook hl fun kh hkh => ?_)
    have gh := h1.hook o h2 hooks
    have first : (some a = head ∧ handleHook w1 (some a) hooks = handleHook w head hooks) ∨ c.rk (some a) < c.rk head := by
      rcases h0 with ⟨e1, e2⟩ | h
      · exact .inl ⟨e1, by rw [e2, ← e1]⟩
      · exact .inr h
    -- going on to the next node
    have onw : ∀ {w' : World} {j' : JState σ} {k' E' : Nat}, Good c w'.heap → k' ≤ (B + 3) * (c.rk head - c.rk (some a)) + D * E' + B + 2 → E' ≤ c.rk head →
        (j'.skipAll = false → (j'.jumpTo = none → E' ≤ c.rk head - c.rk (w'.heap.next (some a))) ∧
          ∀ q, j'.jumpTo = some q → E' ≤ c.rk head - c.rk (some q) ∨ c.rk (w'.heap.next (some a)) < c.rk (some q)) →
        (Good c w'.heap ∧ c.On (w'.heap.next (some a)) ∧ c.rk (w'.heap.next (some a)) ≤ c.rk head ∧
          ((w'.heap.next (some a) = head ∧ w' = w) ∨ c.rk (w'.heap.next (some a)) < c.rk head) ∧
          ∃ E, k' + 1 ≤ (B + 3) * (c.rk head - c.rk (w'.heap.next (some a))) + D * E ∧ E ≤ c.rk head ∧
            (j'.skipAll = false → (j'.jumpTo = none → E ≤ c.rk head - c.rk (w'.heap.next (some a))) ∧
              ∀ q, j'.jumpTo = some q → E ≤ c.rk head - c.rk (some q) ∨ c.rk (w'.heap.next (some a)) < c.rk (some q))) ∧
        ∀ a', w'.heap.next (some a) = some a' → c.f a' < c.f a := by
      intro w' j' k' E' g' hk' hE' hj'
      have lt := g'.rk_next a
      have := mul_add_le (B := B + 3) (show c.rk head - c.rk (some a) < c.rk head - c.rk (w'.heap.next (some a)) by omega)
      exact ⟨⟨g', g'.next_on o h2, by omega, .inr (by omega), E', by omega, hE', hj'⟩, fun a' ha' => g'.rank a a' ha'⟩
    have lt := gh.rk_next a
    split
    · rename_i hs
      refine Takes.pure ?_
      refine ⟨fun h => (by cases h), fun _ => onw gh (E' := E) (by omega) h5 fun h => ?_⟩
      simp only [hs] at h
      cases h
    · rename_i hs
      have hs' : j.skipAll = false := by simpa using hs
      obtain ⟨h7, h8⟩ := h6 hs'
      split
      · rename_i hj
        refine Takes.pure ?_
        refine ⟨fun h => (by cases h), fun _ => onw gh (E' := E) (by omega) h5 fun h => ⟨fun e => absurd e hj.1, fun q hq => ?_⟩⟩
        rcases h8 q hq with h | h
        · exact .inl h
        · exact .inr (by omega)
      · rename_i hj
        have hE : E ≤ c.rk head - c.rk (some a) := by
          cases hq : j.jumpTo with
          | none => exact h7 hq
          | some q =>
            have : q = a := by
              apply Classical.byContradiction
              intro hne
              exact hj ⟨by simp [hq], by rw [hq]; simpa using hne⟩
            subst this
            rcases h8 q hq with h | h
            · exact h
            · omega
        split
        · refine Takes.pure ?_
          exact ⟨fun h => (by cases h), fun _ => onw gh (E' := E) (by omega) h5 fun _ => ⟨fun _ => by omega, fun q hq => by cases hq⟩⟩
        · refine Takes.bind ((hb _ j.s a gh sa h3 first).mono ?_)
          rintro w2 ⟨s2, ctl⟩ kb ⟨g2, hf⟩
          refine Takes.pure ?_
          cases ctl with
          | stop =>
            obtain ⟨hf, st⟩ := hf
            refine ⟨fun _ => ⟨g2, h2, h3, ?_, fun b hb => by cases hb; exact st⟩, fun h => by cases h⟩
            dsimp only
            have : D * E ≤ D * (c.rk head - c.rk (some a)) := Nat.mul_le_mul_left _ hE
            have := mul_add_le (B := B + 3) (Nat.lt_succ_self (c.rk head - c.rk (some a)))
            simp only [Nat.succ_eq_add_one] at this
            omega
          | cont =>
            have lt2 := g2.rk_next a
            exact ⟨fun h => (by cases h), fun _ => onw g2 (E' := E) (by simp only [] at hf; omega) h5 fun _ => ⟨fun _ => by omega, fun q hq => by cases hq⟩⟩
          | jump p =>
            obtain ⟨hp1, hp2, hp3⟩ := hf
            have lt2 := g2.rk_next a
            refine ⟨fun h => (by cases h), fun _ => onw g2 (E' := E + max 1 (c.rk (some a) - c.rk p)) ?_ (by omega) fun hsk => ?_⟩
            · rw [Nat.mul_add]; omega
            · cases p with
              | none => simp [RCode.ctl] at hsk
              | some q =>
                refine ⟨fun h => by simp [RCode.ctl] at h, fun q' hq => ?_⟩
                cases hq
                by_cases hlt : c.rk (some q) < c.rk (some a)
                · exact .inl (by omega)
                · exact .inr (by omega)
  · exact ⟨g, on, Nat.le_refl _, .inl ⟨rfl, rfl⟩, 0, by simp, Nat.zero_le _, fun _ => ⟨fun _ => Nat.zero_le _, fun q hq => by cases hq⟩⟩

/-- A resetter: it returns a node further on, or nil, within `D` steps for each node passed over. -/
def Post (c : RCtx) (D : Nat) (head : Ptr) (w' : World) (r : Ptr) (k : Nat) : Prop :=
  Good c w'.heap ∧ c.On r ∧ c.rk r ≤ c.rk head ∧ k ≤ D * max 1 (c.rk head - c.rk r)

theorem Flat.post {b D : Nat} {head : Ptr} {w' : World} {r : Ptr} {k : Nat} (h : Flat c b head w' r k) (hb : b ≤ D) : Post c D head w' r k := by
  refine ⟨h.1, h.2.1, h.2.2.1, ?_⟩
  have := Nat.mul_le_mul_left D (Nat.le_max_left 1 (c.rk head - c.rk r))
  have := h.2.2.2
  omega

theorem Loops.post {B D D' e : Nat} {St : World → Addr → Prop} {head head' : Ptr} {w' : World} {r : Ptr} {k : Nat} (h : Loops c B D St head w' r k)
    (hh : c.rk head ≤ c.rk head') (hD : e + 2 * B + D ≤ D') : Good c w'.heap ∧ c.On r ∧ c.rk r ≤ c.rk head' ∧ e + k ≤ D' * max 1 (c.rk head' - c.rk r) := by
  obtain ⟨h1, h2, h3, h4, -⟩ := h
  refine ⟨h1, h2, by omega, ?_⟩
  generalize hY : max 1 (c.rk head' - c.rk r) = Y
  have e1 : B * (c.rk head - c.rk r + 1) ≤ B * (2 * Y) := Nat.mul_le_mul_left _ (by omega)
  have e2 : D * (c.rk head - c.rk r) ≤ D * Y := Nat.mul_le_mul_left _ (by omega)
  have e3 : e * 1 ≤ e * Y := Nat.mul_le_mul_left _ (by omega)
  have e4 : (e + 2 * B + D) * Y ≤ D' * Y := Nat.mul_le_mul_right _ hD
  rw [Nat.add_mul, Nat.add_mul] at e4
  have e5 : B * (2 * Y) = 2 * B * Y := by rw [← Nat.mul_assoc, Nat.mul_comm B 2]
  omega

/-- A nested resetter as a callback. -/
theorem Takes.jump {σ : Type} {p : RCode Ptr} {s : σ} {B D e : Nat} {St : World → Addr → Prop} {a : Addr} {w' : World}
    (t : Takes p w' (Post c D (some a))) (he : e ≤ B) :
    Takes (RCode.toJump p s) w' fun w2 r k => Fine c B D St a w2 r.2 (e + k) := by
  refine Takes.bind (t.mono fun w2 r k h => Takes.pure ?_)
  exact ⟨h.1, h.2.1, h.2.2.1, by have := h.2.2.2; omega⟩

theorem Takes.jump_flat {σ : Type} {p : RCode Ptr} {s : σ} {B D e b : Nat} {St : World → Addr → Prop} {a : Addr} {w' : World}
    (t : Takes p w' (Flat c b (some a))) (he : e + b ≤ B) :
    Takes (RCode.toJump p s) w' fun w2 r k => Fine c B D St a w2 r.2 (e + k) := by
  refine Takes.bind (t.mono fun w2 r k h => Takes.pure ?_)
  exact ⟨h.1, h.2.1, h.2.2.1, by have := h.2.2.2; omega⟩

end Goast
