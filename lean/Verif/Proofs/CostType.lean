import Verif.Proofs.CostFns

/-! # Proofs: how many steps the outer resetters take -/

set_option linter.unusedSimpArgs false
set_option linter.unusedVariables false

namespace Goast

variable {α β : Type} {c : RCtx} {w : World}

/-! ## `funcResetter` -/

/-- The state of the loop of `funcResetter`: `E1` counts the call for the receiver and `E2` the one for the rest of the line. -/
def FuncInv (c : RCtx) (D : Nat) (head : Ptr) (w1 : World) (j : JState (Bool × Bool)) (p : Ptr) (k : Nat) : Prop :=
  Good c w1.heap ∧ c.On p ∧ c.rk p ≤ c.rk head ∧
    ∃ E1 E2, k ≤ 3 * (c.rk head - c.rk p) + D * E1 + D * E2 ∧ E1 ≤ c.rk head ∧ E2 ≤ c.rk head ∧
      (j.skipAll = false → j.s.2 = false ∧ (j.jumpTo = none → E2 = 0 ∧ E1 ≤ c.rk head - c.rk p ∧ (j.s.1 = false → E1 = 0)) ∧
        ∀ q, j.jumpTo = some q → j.s.1 = true ∧ ((E2 = 0 ∧ (E1 ≤ c.rk head - c.rk (some q) ∨ c.rk p < c.rk (some q))) ∨
          (w1.heap.kind (some q) = .newLine ∧ ((E1 ≤ c.rk head - c.rk (some q) ∧ E2 ≤ max 1 (c.rk head - c.rk (some q))) ∨ c.rk p < c.rk (some q)))))

/-- One round of that loop, at the node `a`. -/
def FuncStep (c : RCtx) (D : Nat) (head : Ptr) (a : Addr) (w' : World) (r : JState (Bool × Bool) × Bool) (k : Nat) : Prop :=
  (r.2 = false → Post c (2 * D + 6) head w' (some a) k) ∧ (r.2 = true → FuncInv c D head w' r.1 (w'.heap.next (some a)) (k + 1) ∧
    ∀ a', w'.heap.next (some a) = some a' → c.f a' < c.f a)

theorem takes_funcBody (o : c.Free) {D : Nat} {paren : Ptr → RCode Ptr} {general : RCode Ptr} {isNotMethod : Bool} {head : Ptr}
    (hp : ∀ w a, Good c w.heap → c.S a → c.rk (some a) ≤ c.rk head → Takes (paren (some a)) w (Post c D (some a)))
    (hg : ∀ w, Good c w.heap → Takes general w fun w' r k => Post c D head w' r k ∧ ∀ a, r = some a → w'.heap.kind (some a) = .newLine)
    (g : Good c w.heap) (on : c.On head) :
    Takes (RCode.funcBody c.N paren general isNotMethod head []) w (Post c (2 * D + 6) head) := by
  unfold RCode.funcBody RCode.jumpLoop
  refine Takes.bind (Takes.mono (Q := fun w' r k => Post c (2 * D + 6) head w' r.2 k) ?_ fun w' r k h => Takes.pure h)
  refine takes_iter c.f (FuncInv c D head) ?_ ?_ ?_ (o.rank_lt on)
  · rintro w1 j k ⟨h1, h2, h3, E1, E2, h4, h5, h6, -⟩
    refine ⟨h1, h2, h3, Nat.le_trans h4 ?_⟩
    dsimp only
    have e0 : c.rk none = 0 := rfl
    generalize hY : max 1 (c.rk head - c.rk none) = Y
    have := Nat.mul_le_mul_left D (show E1 ≤ Y by omega)
    have := Nat.mul_le_mul_left D (show E2 ≤ Y by omega)
    rw [Nat.add_mul, Nat.mul_assoc]
    omega
  · rintro w1 j a k ⟨h1, h2, h3, E1, E2, h4, h5, h6, h7⟩
    have pos : 0 < c.rk (some a) := by simp [RCtx.rk]
    have sa := h2 a rfl
    show Takes _ _ fun w' r k' => FuncStep c D head a w' r (k + k')
    unfold RCode.jumpStep
    refine Takes.bind (Takes.pure ?_)
    simp only [Nat.zero_add]
    have onw : ∀ {w' : World} {j' : JState (Bool × Bool)} {k' : Nat} (F1 F2 : Nat), Good c w'.heap →
        k' ≤ 3 * (c.rk head - c.rk (some a)) + D * F1 + D * F2 + 2 → F1 ≤ c.rk head → F2 ≤ c.rk head →
        (j'.skipAll = false → j'.s.2 = false ∧ (j'.jumpTo = none → F2 = 0 ∧ F1 ≤ c.rk head - c.rk (some a) ∧ (j'.s.1 = false → F1 = 0)) ∧
        ∀ q, j'.jumpTo = some q → j'.s.1 = true ∧ ((F2 = 0 ∧ (F1 ≤ c.rk head - c.rk (some q) ∨ c.rk (some a) ≤ c.rk (some q))) ∨
          (w'.heap.kind (some q) = .newLine ∧ ((F1 ≤ c.rk head - c.rk (some q) ∧ F2 ≤ max 1 (c.rk head - c.rk (some q))) ∨ c.rk (some a) ≤ c.rk (some q))))) →
        FuncStep c D head a w' (j', true) k' := by
      intro w' j' k' F1 F2 g' hk' hF1 hF2 hj'
      have lt := g'.rk_next a
      refine ⟨fun h => (by cases h), fun _ => ⟨⟨g', g'.next_on o h2, by omega, F1, F2, by omega, hF1, hF2, fun hs => ?_⟩, fun a' ha' => g'.rank a a' ha'⟩⟩
      obtain ⟨j1, j2, j3⟩ := hj' hs
      refine ⟨j1, fun hn => ?_, fun q hq => ?_⟩
      · obtain ⟨i1, i2, i3⟩ := j2 hn
        exact ⟨i1, by omega, i3⟩
      · obtain ⟨i1, i2⟩ := j3 q hq
        refine ⟨i1, ?_⟩
        rcases i2 with ⟨i2, i3⟩ | ⟨i2, i3⟩
        · exact .inl ⟨i2, by omega⟩
        · exact .inr ⟨i2, by omega⟩
    split
    · rename_i hs
      refine Takes.pure (onw E1 E2 h1 (by omega) h5 h6 fun h => ?_)
      simp only [hs] at h
      cases h
    · rename_i hs
      have hs' : j.skipAll = false := by simpa using hs
      obtain ⟨h8, h9, h10⟩ := h7 hs'
      split
      · rename_i hj
        refine Takes.pure (onw E1 E2 h1 (by omega) h5 h6 fun h => ⟨h8, fun e => absurd e hj.1, fun q hq => ?_⟩)
        obtain ⟨i1, i2⟩ := h10 q hq
        refine ⟨i1, ?_⟩
        rcases i2 with ⟨i2, i3⟩ | ⟨i2, i3⟩
        · exact .inl ⟨i2, by omega⟩
        · exact .inr ⟨i2, by omega⟩
      · rename_i hj
        rw [if_neg (by simp)]
        -- stopping at a newline
        have stop : ∀ kk j', kk ≤ 2 → E1 ≤ c.rk head - c.rk (some a) → E2 ≤ max 1 (c.rk head - c.rk (some a)) → FuncStep c D head a w1 (j', false) (k + kk) := by
          intro kk j' hkk hE1 hE2
          refine ⟨fun _ => ⟨h1, h2, h3, ?_⟩, fun h => by cases h⟩
          generalize hY : max 1 (c.rk head - c.rk (some a)) = Y at *
          have := Nat.mul_le_mul_left D (show E1 ≤ Y by omega)
          have := Nat.mul_le_mul_left D hE2
          rw [Nat.add_mul, Nat.mul_assoc]
          omega
        have st : (E2 = 0 ∧ E1 ≤ c.rk head - c.rk (some a) ∧ (j.s.1 = false → E1 = 0)) ∨
            (j.s.1 = true ∧ w1.heap.kind (some a) = .newLine ∧ E1 ≤ c.rk head - c.rk (some a) ∧ E2 ≤ max 1 (c.rk head - c.rk (some a))) := by
          cases hq : j.jumpTo with
          | none => exact .inl (h9 hq)
          | some q =>
            have : q = a := by
              apply Classical.byContradiction
              intro hne
              exact hj ⟨by simp [hq], by rw [hq]; simpa using hne⟩
            subst this
            obtain ⟨i1, i2⟩ := h10 q hq
            rcases i2 with ⟨i2, i3⟩ | ⟨i2, i3⟩
            · exact .inl ⟨i2, by omega, fun h => by rw [i1] at h; cases h⟩
            · exact .inr ⟨i1, i2, by omega, by omega⟩
        rcases hjs : j.s with ⟨s1, s2⟩
        rw [hjs] at st h8
        dsimp only at st h8 ⊢
        subst h8
        -- behind the name or the receiver
        have after : ∀ (kk : Nat), kk ≤ 1 → Takes (do
              let k ← RCode.kind (some a)
              if k = Kind.newLine then pure ((true, false), Ctl.stop) else RCode.toJump general (true, false)) w1
              fun w' r k' => FuncStep c D head a w' (RCode.ctl r.1 r.2) (k + (kk + k')) := by
          intro kk hkk
          refine Takes.bind (takes_kind ?_)
          split
          · rename_i hk
            refine Takes.pure (stop _ _ (by omega) ?_ ?_)
            · rcases st with ⟨i1, i2, -⟩ | ⟨-, -, i2, i3⟩ <;> omega
            · rcases st with ⟨i1, i2, -⟩ | ⟨-, -, i2, i3⟩ <;> omega
          · rename_i hk
            have st : E2 = 0 ∧ E1 ≤ c.rk head - c.rk (some a) := by
              rcases st with ⟨i1, i2, -⟩ | ⟨-, i1, -⟩
              · exact ⟨i1, i2⟩
              · exact absurd i1 hk
            refine Takes.bind ((hg w1 h1).mono ?_)
            rintro w2 r k2 ⟨⟨g2, on2, le2, c2⟩, nl⟩
            refine Takes.pure (onw E1 (max 1 (c.rk head - c.rk r)) g2 ?_ h5 (by omega) fun hsk => ?_)
            · obtain ⟨rfl, -⟩ := st
              omega
            · cases r with
              | none => simp [RCode.ctl] at hsk
              | some q =>
                refine ⟨rfl, fun h => by simp [RCode.ctl] at h, fun q' hq => ?_⟩
                cases hq
                refine ⟨rfl, .inr ⟨nl q rfl, ?_⟩⟩
                omega
        have wrap : ∀ (kk : Nat) {p : RCode ((Bool × Bool) × Ctl)}, Takes p w1 (fun w' r k' => FuncStep c D head a w' (RCode.ctl r.1 r.2) (k + (kk + k'))) →
            Takes p w1 (fun w' r k' => Takes (Pure.pure (RCode.ctl r.1 r.2)) w' fun w2 r k2 => FuncStep c D head a w2 r (k + (kk + k' + k2))) :=
          fun kk p h => h.mono fun w' r k' h => Takes.pure h
        refine Takes.bind (Takes.bind ?_)
        cases s1 with
        | true =>
          refine Takes.pure ?_
          exact wrap 0 (after 0 (by omega))
        | false =>
          have st : E2 = 0 ∧ E1 = 0 := by
            rcases st with ⟨i1, -, i2⟩ | ⟨i1, -⟩
            · exact ⟨i1, i2 rfl⟩
            · cases i1
          obtain ⟨rfl, rfl⟩ := st
          refine Takes.bind (takes_kind (Takes.pure ?_))
          by_cases hk1 : w1.heap.kind (some a) = .raw
          · simp only [hk1, if_true]
            exact wrap 1 (after 1 (by omega))
          · by_cases hk2 : w1.heap.kind (some a) = .parenL
            · simp only [hk2]
              refine wrap 1 (Takes.bind ((hp w1 a h1 sa h3).mono ?_))
              rintro w2 r k2 ⟨g2, on2, le2, c2⟩
              refine Takes.pure (onw (max 1 (c.rk (some a) - c.rk r)) 0 g2 (by omega) (by omega) h6 fun hsk => ?_)
              cases r with
              | none => simp [RCode.ctl] at hsk
              | some q =>
                refine ⟨rfl, fun h => by simp [RCode.ctl] at h, fun q' hq => ?_⟩
                cases hq
                exact ⟨rfl, .inl ⟨rfl, by omega⟩⟩
            · simp only [hk1, hk2, if_false]
              exact wrap 1 (Takes.pure (onw 0 0 h1 (by omega) (by omega) h6 fun _ => ⟨rfl, fun _ => ⟨rfl, by omega, fun _ => rfl⟩, fun q hq => by cases hq⟩))
  · refine ⟨g, on, Nat.le_refl _, 0, 0, by simp, Nat.zero_le _, Nat.zero_le _, fun _ => ⟨rfl, fun _ => ⟨rfl, Nat.zero_le _, fun _ => rfl⟩, fun q hq => by cases hq⟩⟩

/-- The steps of `funcResetter.Run`, for each node passed over. -/
def RCtx.D2 (c : RCtx) (d : Nat) : Nat := 2 * c.D d + 100 * c.N

theorem newLine_of_contain {k : Kind} (h : (returnSet [.newLine]).contain k = true) : k = .newLine := by
  simpa [returnSet, CharSet.new, CharSet.contain] using h

theorem D_mono (c : RCtx) {d d' : Nat} (h : d ≤ d') : c.D d ≤ c.D d' := Nat.mul_le_mul_left _ h

theorem takes_funcRun (o : c.Free) {d : Nat} {r : FuncCfg} (g : Good c w.heap) {head : Ptr} (on : c.On head) (hd : 8 * c.rk head + 5 ≤ d) :
    Takes (RCode.funcRun c.N d r head []) w (Post c (c.D2 d) head) := by
  have hN : 1 ≤ c.N := by simp [RCtx.N]
  obtain _ | d := d
  · omega
  have hD := c.D_succ d
  unfold RCode.funcRun RCtx.D2
  refine Takes.bind (takes_debugText ?_)
  have lift : ∀ {w' : World} {r : Ptr} {k : Nat} (e : Nat) {head' : Ptr}, c.rk head' ≤ c.rk head → e ≤ 30 * c.N → Post c (2 * c.D d + 6) head' w' r k →
      Post c (2 * c.D (d + 1) + 100 * c.N) head w' r (e + k) := fun e head' hh he h => h.later hh (by omega)
  have gen : ∀ {w : World} (e : Nat) {head' : Ptr}, Good c w.heap → c.On head' → c.rk head' ≤ c.rk head → e ≤ 30 * c.N →
      Takes (RCode.generalFunc c.N d head' [.newLine] []) w fun w' r k => Post c (2 * c.D (d + 1) + 100 * c.N) head w' r (e + k) := by
    intro w e head' g on hh he
    exact ((costs o d).general w head' _ _ (by simp) g on (by omega)).mono fun w' r k h => h.1.later hh (by omega)
  have body : ∀ {w : World} (e : Nat) (b : Bool) {head' : Ptr}, Good c w.heap → c.On head' → c.rk head' ≤ c.rk head → e ≤ 30 * c.N →
      Takes (RCode.funcBody c.N (fun a => RCode.parenRun c.N d false true a []) (RCode.generalFunc c.N d head' [.newLine] []) b head' []) w
        fun w' r k => Post c (2 * c.D (d + 1) + 100 * c.N) head w' r (e + k) := by
    intro w e b head' g on hh he
    refine (takes_funcBody o (D := c.D d) ?_ ?_ g on).mono fun w' r k h => lift e hh he h
    · intro w1 a g1 sa ra
      exact (costs o d).paren _ _ w1 _ _ (by simp) g1 (.some sa) (by omega)
    · intro w1 g1
      exact ((costs o d).general w1 head' _ _ (by simp) g1 on (by omega)).mono fun w' r k h => ⟨h.1, fun a ha => newLine_of_contain (h.2 a ha)⟩
  split
  · exact ((costs o d).parameter w head _ (by simp) g on (by omega)).mono fun w' r k h => h.later (Nat.le_refl _) (by omega)
  · split
    · exact gen 12 g on (Nat.le_refl _) (by omega)
    · refine Takes.bind ((takes_isTemporaryFunc o g on).mono ?_)
      rintro w1 t k1 ⟨g1, hk1⟩
      simp only [← Nat.add_assoc]
      split
      · exact gen _ g1 on (Nat.le_refl _) (by omega)
      · split
        · refine Takes.bind (takes_kind (Takes.bind (Takes.pure (Takes.bind (takes_next ?_)))))
          simp only [← Nat.add_assoc]
          have on1 := g1.next_on o on
          have le1 := g1.rk_next_le head
          split
          · refine Takes.pure (Post.later (e := 12 + k1 + 1 + 0 + 1) (D := 0) (head := w1.heap.next head) ⟨g1, on1, Nat.le_refl _, by omega⟩ le1 (by omega))
          · exact body _ _ g1 on1 le1 (by omega)
        · exact body _ _ g1 on (Nat.le_refl _) (by omega)

/-! ## `interfaceResetter`, `structResetter` -/

theorem takes_interfaceRun (o : c.Free) {d : Nat} (g : Good c w.heap) {head : Ptr} (on : c.On head) (hd : 8 * c.rk head + 5 ≤ d) :
    Takes (RCode.interfaceRun c.N d head) w (Post c (c.D2 d + 100 * c.N) head) := by
  have hN : 1 ≤ c.N := by simp [RCtx.N]
  unfold RCode.interfaceRun
  refine Takes.bind (takes_debugText (Takes.bind ((takes_findNext o (by simp) g on).mono ?_)))
  rintro w1 f k1 ⟨g1, on1, le1, hk1⟩
  refine (takes_jumpLoop o (by simp) (B := 20 * c.N) (D := c.D2 d) (St := fun _ _ => True) g1 on1 ?_).mono fun w' r k h => ?_
  · intro w2 s a g2 sa ra first
    have ona : c.On (some a) := .some sa
    have rest : Takes (do
        let b ← RCode.isThisLineFunction c.N (some a)
        if b then RCode.toJump (RCode.funcRun c.N d { isInterfaceDefinition := true } (some a) []) ()
        else
          let k ← RCode.kind (some a)
          if k = .raw then RCode.setKind (some a) .typeName
          RCode.toJump (RCode.findNext c.N (some a) [.newLine, .curlyR]
            { isOutsideParenthesis := true, isOutsideCurlyBracket := true, isOutsideSquareBracket := true } []) ()) w2
        fun w2 r k => Fine c (20 * c.N) (c.D2 d) (fun _ _ => True) a w2 r.2 (1 + k) := by
      refine Takes.bind ((takes_isThisLineFunction o g2 ona).mono ?_)
      rintro w3 b k3 ⟨g3, hk3⟩
      simp only [← Nat.add_assoc]
      split
      · exact (takes_funcRun o g3 ona (by omega)).jump (by omega)
      · refine Takes.bind (takes_kind ?_)
        simp only [← Nat.add_assoc]
        split
        · rename_i hk
          refine Takes.bind (takes_setKind ?_)
          simp only [← Nat.add_assoc]
          exact (takes_findNext o (by simp) (g3.setKind o.ok sa (o.F_le sa) (by rw [hk]; decide) (by decide)) ona).jump_flat (by omega)
        · exact (takes_findNext o (by simp) g3 ona).jump_flat (by omega)
    refine Takes.bind (takes_kind ?_)
    generalize w2.heap.kind (some a) = kd
    cases kd
    case curlyR => exact Takes.halt g2 (by omega)
    case tab | comment | newLine | space | curlyL => exact Takes.fine g2 (by omega)
    all_goals exact rest
  · simp only [← Nat.add_assoc]
    exact h.post le1 (by omega)

theorem takes_structRow (o : c.Free) {d : Nat} (g : Good c w.heap) {head : Ptr} (on : c.On head) (hd : 8 * c.rk head + 5 ≤ d) :
    Takes (RCode.structRow c.N d head) w (Post c (c.D d + 100 * c.N) head) := by
  have hN : 1 ≤ c.N := by simp [RCtx.N]
  unfold RCode.structRow
  refine Takes.bind (takes_debugText (Takes.bind ((takes_getRowNameCount o g on).mono ?_)))
  rintro w1 n k1 ⟨g1, hk1⟩
  refine (takes_jumpLoop o (by simp) (B := 10) (D := c.D d) (St := fun _ _ => True) g1 on ?_).mono fun w' r k h => ?_
  · intro w2 s a g2 sa ra first
    have ona : c.On (some a) := .some sa
    refine Takes.bind (takes_kind ?_)
    cases hk : w2.heap.kind (some a)
    case newLine => exact Takes.halt g2 (by omega)
    case raw =>
      dsimp only
      split
      · exact Takes.bind (takes_setKind (Takes.pure ⟨g2.setKind o.ok sa (o.F_le sa) (by rw [hk]; decide) (by decide), by omega⟩))
      · exact Takes.bind (takes_setKind (Takes.pure ⟨g2.setKind o.ok sa (o.F_le sa) (by rw [hk]; decide) (by decide), by omega⟩))
    case func_ => exact ((costs o d).func w2 (some a) _ (by simp) g2 ona (by omega)).jump (by omega)
    all_goals exact Takes.fine g2 (by omega)
  · simp only [← Nat.add_assoc]
    exact h.post (Nat.le_refl _) (by omega)

theorem takes_structRun (o : c.Free) {d : Nat} (g : Good c w.heap) {head : Ptr} (on : c.On head) (hd : 8 * c.rk head + 5 ≤ d) :
    Takes (RCode.structRun c.N d head) w (Post c (c.D2 d + 100 * c.N) head) := by
  have hN : 1 ≤ c.N := by simp [RCtx.N]
  unfold RCode.structRun RCtx.D2
  refine Takes.bind (takes_debugText (Takes.bind ((takes_findNext o (by simp) g on).mono ?_)))
  rintro w1 f k1 ⟨g1, on1, le1, hk1⟩
  refine Takes.bind (takes_next ?_)
  have on2 := g1.next_on o on1
  have le2 := g1.rk_next_le f
  refine (takes_jumpLoop o (by simp) (B := 10) (D := c.D d + 100 * c.N) (St := fun _ _ => True) g1 on2 ?_).mono fun w' r k h => ?_
  · intro w2 s a g2 sa ra first
    have ona : c.On (some a) := .some sa
    refine Takes.bind (takes_kind ?_)
    generalize w2.heap.kind (some a) = kd
    cases kd
    case curlyR => exact Takes.halt g2 (by omega)
    case comment | newLine | curlyL => exact Takes.fine g2 (by omega)
    all_goals exact (takes_structRow o g2 ona (by omega)).jump (by omega)
  · simp only [← Nat.add_assoc]
    exact h.post (Nat.le_trans le2 le1) (by omega)

/-! ## `paramResetter` -/

/-- The conditions on the context are void. -/
structure RCtx.Easy (c : RCtx) : Prop extends c.Free where
  top : c.h0.size ≤ c.top
  ne : c.ne = false
  X : ∀ h, c.X h

/-- The steps of `paramResetter.Run`, for each node passed over. -/
def RCtx.D3 (c : RCtx) (d : Nat) : Nat := 24 * (c.D2 d + 100 * c.N) + 12

theorem takes_paramRun (o : c.Easy) {d : Nat} (g : Good c w.heap) {head : Ptr} (on : c.On head) (hd : 8 * c.rk head + 5 ≤ d) :
    Takes (RCode.paramRun c.N d head) w (Post c (c.D3 d) head) := by
  have hN : 1 ≤ c.N := by simp [RCtx.N]
  -- the loop, from the empty buffer
  let loop : RCode Ptr := RCode.jumpLoop c.N false [] (fun (_ : Unit) a => do
    let k ← RCode.kind a
    if k = .newLine then pure ((), .stop)
    else
      let k ← RCode.kind a
      match k with
      | .parenL => RCode.toJump (RCode.parenRun c.N d false false a [.appendBuf]) ()
      | .curlyL => RCode.toJump (RCode.curlyRun c.N a [.appendBuf]) ()
      | .squareL => RCode.toJump (RCode.squareRun c.N a [.appendBuf]) ()
      | .func_ => RCode.toJump (RCode.funcRun c.N d { isNotMethod := true } a []) ()
      | .comment => pure ((), .cont)
      | _ =>
        RCode.runHook a .appendBuf
        pure ((), .cont)) () head
  have hl : Takes loop ⟨w.heap, []⟩ (Post c (c.D2 d + 100 * c.N) head) := by
    refine (takes_jumpLoop o.toFree (hooks := []) (by simp) (B := 30 * c.N) (D := c.D2 d) (St := fun _ _ => True) (w := ⟨w.heap, []⟩) g on ?_).mono fun w' r k h => ?_
    · intro w2 s a g2 sa ra first
      have ona : c.On (some a) := .some sa
      refine Takes.bind (takes_kind ?_)
      split
      · exact Takes.halt g2 (by omega)
      · refine Takes.bind (takes_kind ?_)
        simp only [← Nat.add_assoc]
        have hook : Takes (do
            RCode.runHook (some a) .appendBuf
            pure ((), Ctl.cont)) w2 fun w2 r k => Fine c (30 * c.N) (c.D2 d) (fun _ _ => True) a w2 r.2 (1 + 1 + k) :=
          Takes.bind (takes_runHook fun k hk => Takes.pure ⟨g2, by omega⟩)
        have le : c.D d ≤ c.D2 d := by simp only [RCtx.D2]; omega
        generalize w2.heap.kind (some a) = kd
        cases kd
        case parenL =>
          refine Takes.jump (((costs o.toFree d).paren _ _ w2 (some a) _ (by simp) g2 ona (by omega)).mono fun w' r k h => ?_) (by omega)
          exact ⟨h.1, h.2.1, h.2.2.1, Nat.le_trans h.2.2.2 (Nat.mul_le_mul_right _ le)⟩
        case curlyL => exact (takes_curlyRun o.toFree (by simp) g2 ona).jump_flat (by omega)
        case squareL => exact (takes_squareRun o.toFree (by simp) g2 ona).jump_flat (by omega)
        case func_ => exact (takes_funcRun o.toFree g2 ona (by omega)).jump (by omega)
        case comment => exact Takes.fine g2 (by omega)
        all_goals exact hook
    · have := h.post (e := 0) (D' := c.D2 d + 100 * c.N) (Nat.le_refl _) (by omega)
      rwa [Nat.zero_add] at this
  obtain ⟨w1, r, k, e1, c1, g1, on1, le1, b1⟩ := hl
  -- the whole
  have shape : ∀ buf, RCode.paramRun c.N d head buf = ((RCode.debugText head) buf >>= fun q => loop [] >>= fun r =>
      RCode.run (RCode.deferCombine r.2 .paramType) r.2 >>= fun _ => pure (r.1, q.2)) := fun _ => rfl
  have hP : c.P (c.rk head - 1) head := by
    rintro a rfl
    exact ⟨on a rfl, by simp [RCtx.rk]⟩
  have hM : c.rk head - 1 ≤ c.h0.size := by
    have := o.rk_lt on
    simp only [RCtx.N] at this; omega
  obtain ⟨w2, r2, e2, i2, -⟩ := paramRun_inv (w := ⟨w.heap, []⟩) (d := d) o.ok (fun _ _ _ h' _ _ _ _ _ _ => o.X h')
    ⟨g, fun p ps h => (by cases h), fun h => by rw [o.ne] at h; cases h⟩ (Nat.le_trans hM o.F) (Nat.le_trans hM o.top) hP (by omega)
  have e3 := (ref_paramRun (F := c.N) d head (by show w.heap.size + 1 = _; rw [g.size]; rfl) w2 r2 e2).1
  obtain ⟨bt, ht⟩ := execT_debugTextLoop 6 head [] w.heap
  have dbg : ∀ buf, ((RCode.debugText head) buf).execT w.heap = some (w.heap, ((), buf)) := by
    intro buf
    simp [RCode.debugText, RCode.run, execT_bind, ht, execT_pure]
  have cdbg : ∀ buf, ((RCode.debugText head) buf).count w.heap ≤ 12 := by
    intro buf
    simp only [RCode.debugText, RCode.run]
    exact count_bind_le (a := 12) (b := 0) (count_bind_le (a := 12) (b := 0) (count_debugTextLoop 6 head [] w.heap) fun _ _ => Nat.le_refl 0) fun _ _ => Nat.le_refl 0
  simp only [shape, execT_bind, dbg, Option.bind_some] at e3
  rw [show (loop []).execT w.heap = _ from e1] at e3
  simp only [Option.bind_some] at e3
  cases hd : (RCode.deferCombine w1.buf .paramType).execT w1.heap with
  | none => simp [RCode.run, execT_bind, hd] at e3
  | some q =>
    obtain ⟨h3, u⟩ := q
    simp only [RCode.run, execT_bind, hd, Option.bind_some, execT_pure, Option.some.injEq, Prod.mk.injEq] at e3
    obtain ⟨rfl, rfl, -⟩ := e3
    refine ⟨⟨w2.heap, w.buf⟩, r, 12 + (k + 23 * w1.buf.length), ?_, ?_, i2.good, on1, le1, ?_⟩
    · simp only [shape, execT_bind, dbg, Option.bind_some]
      rw [show (loop []).execT w.heap = _ from e1]
      simp only [RCode.run, execT_bind, Option.bind_some, hd, execT_pure]
    · have := cdbg w.buf
      have := count_deferCombine w1.heap w1.buf .paramType
      simp only [shape, count_bind, dbg, execT_bind]
      rw [show (loop []).execT w.heap = _ from e1]
      simp only [RCode.run, execT_bind, count_bind, hd, Option.bind_some, execT_pure, count_pure]
      show _ + (Code.count w.heap (loop []) + _) + _ ≤ _
      simp only [List.length_nil] at c1
      omega
    · simp only [List.length_nil] at c1
      generalize hY : max 1 (c.rk head - c.rk r) = Y at *
      unfold RCtx.D3
      rw [Nat.add_mul, Nat.mul_assoc]
      omega

/-! ## `typeResetter`, `resetKind` -/

theorem takes_typeRun (o : c.Easy) {d : Nat} (g : Good c w.heap) {head : Ptr} (on : c.On head) (hd : 8 * c.rk head + 5 ≤ d) :
    Takes (RCode.typeRun c.N d head) w (Post c (c.D3 d + 100 * c.N) head) := by
  have hN : 1 ≤ c.N := by simp [RCtx.N]
  have l2 : c.D2 d + 100 * c.N ≤ c.D3 d := by simp only [RCtx.D3]; omega
  unfold RCode.typeRun
  refine Takes.bind (takes_debugText (Takes.bind (takes_kind ?_)))
  split
  · refine takes_next ⟨g, g.next_on o.toFree on, g.rk_next_le _, ?_⟩
    have := Nat.mul_le_mul_left (c.D3 d + 100 * c.N) (Nat.le_max_left 1 (c.rk head - c.rk (w.heap.next head)))
    omega
  · refine (takes_jumpLoop o.toFree (hooks := []) (by simp) (B := 30 * c.N) (D := c.D3 d) (St := fun _ _ => True) g on ?_).mono fun w' r k h => ?_
    · intro w2 s a g2 sa ra first
      have ona : c.On (some a) := .some sa
      have up : ∀ {D : Nat} {w' : World} {r : Ptr} {k : Nat}, D ≤ c.D3 d → Post c D (some a) w' r k → Post c (c.D3 d) (some a) w' r k := fun hD h =>
        ⟨h.1, h.2.1, h.2.2.1, Nat.le_trans h.2.2.2 (Nat.mul_le_mul_right _ hD)⟩
      refine Takes.bind (takes_kind ?_)
      split
      · cases hk : w2.heap.kind (some a)
        case curlyR | newLine => exact Takes.halt g2 (by omega)
        case raw => exact Takes.bind (takes_setKind (Takes.pure ⟨g2.setKind o.ok sa (o.F_le sa) (by rw [hk]; decide) (by decide), by omega⟩))
        all_goals exact Takes.fine g2 (by omega)
      · split
        · generalize w2.heap.kind (some a) = kd
          cases kd
          case squareL => exact (takes_squareRun o.toFree (by simp) g2 ona).jump_flat (by omega)
          all_goals exact Takes.fine g2 (by omega)
        · generalize w2.heap.kind (some a) = kd
          cases kd
          case interface_ => exact ((takes_interfaceRun o.toFree g2 ona (by omega)).mono fun _ _ _ h => up l2 h).jump (by omega)
          case struct_ => exact ((takes_structRun o.toFree g2 ona (by omega)).mono fun _ _ _ h => up l2 h).jump (by omega)
          case func_ => exact ((takes_funcRun o.toFree g2 ona (by omega)).mono fun _ _ _ h => up (by omega) h).jump (by omega)
          case raw => exact (takes_paramRun o g2 ona (by omega)).jump (by omega)
          case squareL => exact (takes_squareRun o.toFree (by simp) g2 ona).jump_flat (by omega)
          all_goals exact Takes.fine g2 (by omega)
    · simp only [← Nat.add_assoc]
      exact h.post (Nat.le_refl _) (by omega)

/-- `resetKind`, on a chain of `h`. -/
theorem takes_resetKind {h : Heap} (wf : WF h) (ac : Acyclic h) {l : List Addr} (ch : Chain h l) {a : Addr} (ha : a ∈ l) {d : Nat} (hd : 8 * h.size + 5 ≤ d) :
    Takes (RCode.resetKind (h.size + 1) d (some a)) ⟨h, []⟩ fun w' _ k => Good (rctx h ac l fun _ => True) w'.heap ∧
      k ≤ 1 + ((rctx h ac l fun _ => True).D3 d + 100 * (h.size + 1)) * (behind h ac a + 1) := by
  have o : (rctx h ac l fun _ => True).Easy := ⟨⟨ok_true ac ch, Nat.le_refl _⟩, Nat.le_refl _, rfl, fun _ => trivial⟩
  have g := good_start wf ac ch (X := fun _ => True) trivial
  have on : (rctx h ac l fun _ => True).On (some a) := .some ha
  have hr : (rctx h ac l fun _ => True).rk (some a) = behind h ac a + 1 := rfl
  have hlt : behind h ac a < h.size := behind_lt ac (ch.1 a ha)
  have fin : ∀ {D : Nat} {w' : World} {r : Ptr} {k : Nat}, D ≤ (rctx h ac l fun _ => True).D3 d + 100 * (h.size + 1) →
      Post (rctx h ac l fun _ => True) D (some a) w' r k → Good (rctx h ac l fun _ => True) w'.heap ∧
      1 + (k + 0) ≤ 1 + ((rctx h ac l fun _ => True).D3 d + 100 * (h.size + 1)) * (behind h ac a + 1) := by
    intro D w' r k hD h
    refine ⟨h.1, ?_⟩
    have := Nat.mul_le_mul hD (show max 1 ((rctx _ ac l fun _ => True).rk (some a) - (rctx _ ac l fun _ => True).rk r) ≤ behind _ ac a + 1 by omega)
    have := h.2.2.2
    omega
  unfold RCode.resetKind
  refine Takes.bind (takes_kind ?_)
  dsimp only
  generalize h.kind (some a) = kd
  cases kd
  case func_ =>
    refine Takes.bind ((takes_funcRun (w := ⟨h, []⟩) o.toFree g on (by omega)).mono fun w' r k hp => Takes.pure (fin ?_ hp))
    simp only [RCtx.D3]; omega
  case type_ =>
    refine Takes.bind ((takes_typeRun (w := ⟨h, []⟩) o g on (by omega)).mono fun w' r k hp => Takes.pure (fin ?_ hp))
    exact Nat.le_refl _
  all_goals exact Takes.pure ⟨g, by omega⟩

end Goast
