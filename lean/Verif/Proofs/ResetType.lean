import Verif.Proofs.ResetMain

/-!
# The type resetters and `resetKind` keep the invariant and terminate
-/

set_option linter.unusedSimpArgs false
set_option linter.unusedVariables false

namespace Goast

variable {c : RCtx}

/-- Another bound for the hooks. -/
def RCtx.at (c : RCtx) (F : Nat) (ne : Bool) : RCtx := { c with F, ne }

theorem Good.at {h : Heap} (g : Good c h) (F : Nat) (ne : Bool) : Good (c.at F ne) h :=
  ⟨g.1, g.2, g.3, g.4, g.5, g.6, g.7, g.8, g.9⟩

theorem Good.of_at {h : Heap} {F : Nat} {ne : Bool} (g : Good (c.at F ne) h) : Good c h :=
  ⟨g.1, g.2, g.3, g.4, g.5, g.6, g.7, g.8, g.9⟩

theorem RCtx.OK.at (o : c.OK) {F : Nat} (hF : F ≤ c.F) (ne : Bool) : (c.at F ne).OK :=
  ⟨o.lt, o.bound, fun h a k g s fa => o.xKind h a k g.of_at s (Nat.le_trans fa hF),
    fun h n m h' g s fa => o.xMerge h n m h' g.of_at s (Nat.le_trans fa hF)⟩

theorem H_nil : c.H [] := by simp [RCtx.H]

/-- With an empty `buf`, the first thing a bracket resetter does is to put the bracket into it. -/
theorem parenRun_buf (d : Nat) (rec : Bool) (h : Heap) {a : Addr} (hk : h.kind (some a) = .parenL) :
    parenRun d false rec ⟨h, []⟩ (some a) [.appendBuf] = parenRun d false rec ⟨h, [some a]⟩ (some a) [.appendBuf] := by
  cases d with
  | zero => rfl
  | succ d =>
    simp only [parenRun, hk, jumpLoop, iterW, loop, jumpStep]
    simp [handleHook, runHook, appendUnrepeatable, hk]

theorem skipNestNext_buf (l r : Kind) (h : Heap) {a : Addr} (hk : h.kind (some a) = l) :
    skipNestNext ⟨h, []⟩ (some a) l r [.appendBuf] = skipNestNext ⟨h, [some a]⟩ (some a) l r [.appendBuf] := by
  simp only [skipNestNext, hk]
  simp [handleHook, runHook, appendUnrepeatable]

theorem interfaceRun_inv (o : c.OK) {M d : Nat} {w : World} (i : Inv c w) (hM : M ≤ c.F) {head : Ptr}
    (hp : c.P M head) (hd : 8 * M + 5 ≤ d) : Tot c M (interfaceRun d w head) := by
  obtain ⟨w1, f, e, i1, hf⟩ := findNext_inv o i hM hp [.curlyL] {} H_nil
  simp only [interfaceRun, e]
  refine jumpLoop_rule o false [] H_nil _ hM ?_ i1 _ hf
  intro w s a i sa fa
  show TotB c _
  have ha : c.P M (some a) := .some sa fa
  split
  · exact .same i _ _
  · exact .same i _ _
  · exact .same i _ _
  · exact .same i _ _
  · exact .same i _ _
  · exact .same i _ _
  · obtain ⟨b, eb⟩ := isThisLineFunction_inv o i ha
    simp only [eb]
    cases b with
    | true => exact ((fns o d).func M _ w (some a) [] hM H_nil i ha hd).jump _
    | false =>
      have i2 : Inv c (if w.heap.kind (some a) = .raw then { w with heap := w.heap.setKind (some a) .typeName } else w) := by
        split
        · rename_i hk
          exact i.setKind o sa (Nat.le_trans fa hM) (by rw [hk]; decide) (by decide)
        · exact i
      exact (show Tot c M _ from findNext_inv o i2 hM ha _ _ H_nil).jump _

theorem structRow_inv (o : c.OK) {M d : Nat} {w : World} (i : Inv c w) (hM : M ≤ c.F) {head : Ptr}
    (hp : c.P M head) (hd : 8 * M + 5 ≤ d) : Tot c M (structRow d w head) := by
  obtain ⟨n, e⟩ := getRowNameCount_inv o i hp
  simp only [structRow, e]
  refine jumpLoop_rule o false [] H_nil _ hM ?_ i _ hp
  intro w s a i sa fa
  show TotB c _
  have ha : c.P M (some a) := .some sa fa
  split
  · exact .same i _ _
  · exact .same i _ _
  · exact .same i _ _
  · exact .same i _ _
  · exact .same i _ _
  · rename_i hk
    split
    · exact .same (i.setKind o sa (Nat.le_trans fa hM) (by rw [hk]; decide) (by decide)) _ _
    · exact .same (i.setKind o sa (Nat.le_trans fa hM) (by rw [hk]; decide) (by decide)) _ _
  · exact ((fns o d).func M _ w (some a) _ hM (by simp [RCtx.H]) i ha hd).jump _
  · exact .same i _ _

theorem structRun_inv (o : c.OK) {M d : Nat} {w : World} (i : Inv c w) (hM : M ≤ c.F) {head : Ptr}
    (hp : c.P M head) (hd : 8 * M + 5 ≤ d) : Tot c M (structRun d w head) := by
  obtain ⟨w1, f, e, i1, hf⟩ := findNext_inv o i hM hp [.curlyL] {} H_nil
  simp only [structRun, e]
  refine jumpLoop_rule o false [] H_nil _ hM ?_ i1 _ (i1.good.next_P o hf)
  intro w s a i sa fa
  show TotB c _
  have ha : c.P M (some a) := .some sa fa
  split
  · exact .same i _ _
  · exact .same i _ _
  · exact .same i _ _
  · exact .same i _ _
  · exact (structRow_inv o i hM ha hd).jump _

/-- The state of `paramResetter.Run` before visiting `p`. -/
structure PState (c : RCtx) (w : World) (p : Ptr) : Prop where
  good : Good c w.heap
  buf : ∀ q qs, w.buf = q :: qs → ∃ a, q = some a ∧ (c.S a ∧ c.f a ≤ c.top) ∧ w.heap.kind (some a) ≠ .comment ∧
    (∀ b, p = some b → c.f b ≤ c.f a) ∧ ∀ q ∈ qs, c.P (c.f a) q

theorem PState.inv {w : World} {a : Addr} (s : PState c w (some a)) (hne : w.buf ≠ []) : Inv (c.at (c.f a) true) w where
  good := s.good.at _ _
  buf p ps e := by
    obtain ⟨b, h1, h2, h3, h4, h5⟩ := s.buf p ps e
    exact ⟨b, h1, h2, h3, h4 a rfl, h5⟩
  ne _ := hne

theorem PState.inv' {w : World} {a : Addr} (s : PState c w (some a)) : Inv (c.at (c.f a) false) w where
  good := s.good.at _ _
  buf p ps e := by
    obtain ⟨b, h1, h2, h3, h4, h5⟩ := s.buf p ps e
    exact ⟨b, h1, h2, h3, h4 a rfl, h5⟩
  ne h := by cases h

theorem PState.of_inv {w : World} {a : Addr} {ne : Bool} (i : Inv (c.at (c.f a) ne) w) : PState c w (some a) where
  good := i.good.of_at
  buf p ps e := by
    obtain ⟨b, h1, h2, h3, h4, h5⟩ := i.buf p ps e
    exact ⟨b, h1, h2, h3, fun x hx => by cases hx; exact h4, h5⟩

theorem PState.start {h : Heap} (g : Good c h) {a : Addr} (sa : c.S a) (ta : c.f a ≤ c.top) (hk : h.kind (some a) ≠ .comment) :
    Inv (c.at (c.f a) true) ⟨h, [some a]⟩ where
  good := g.at _ _
  buf p ps e := by
    cases e
    exact ⟨a, rfl, ⟨sa, ta⟩, hk, Nat.le_refl _, by simp⟩
  ne _ := by simp

theorem PState.next (o : c.OK) {w : World} {a : Addr} (sa : c.S a) (s : PState c w (some a)) :
    PState c w (w.heap.next (some a)) where
  good := s.good
  buf p ps e := by
    obtain ⟨b, h1, h2, h3, h4, h5⟩ := s.buf p ps e
    refine ⟨b, h1, h2, h3, ?_, h5⟩
    intro x hx
    have := (s.good.next_lt o sa x hx).2
    have := h4 a rfl
    omega

/-- A bracket resetter with the appending hook, from any `buf`. -/
theorem PState.run (o : c.OK) {run : World → Option (World × Ptr)} {w : World} {a : Addr} (sa : c.S a)
    (ta : c.f a ≤ c.top) (s : PState c w (some a)) (hk : w.heap.kind (some a) ≠ .comment)
    (hbuf : ∀ h : Heap, h.kind (some a) = w.heap.kind (some a) → run ⟨h, []⟩ = run ⟨h, [some a]⟩)
    (hrun : ∀ w' : World, w'.heap = w.heap → Inv (c.at (c.f a) true) w' → Tot (c.at (c.f a) true) (c.f a) (run w')) :
    ∃ w' p, run w = some (w', p) ∧ PState c w' (some a) := by
  by_cases hb : w.buf = []
  · have e : w = ⟨w.heap, []⟩ := by cases w; simp_all
    have := hrun ⟨w.heap, [some a]⟩ rfl (PState.start s.good sa ta hk)
    rw [← hbuf _ rfl, ← e] at this
    obtain ⟨w', p, e, i, _⟩ := this
    exact ⟨w', p, e, .of_inv i⟩
  · obtain ⟨w', p, e, i, _⟩ := hrun w rfl (s.inv hb)
    exact ⟨w', p, e, .of_inv i⟩

/-- The callback of `paramResetter.Run`. -/
def paramBody (d : Nat) (w : World) (_ : Unit) (a : Addr) : Option (World × Unit × Ctl) :=
  match w.heap.kind (some a) with
  | .newLine => some (w, (), .stop)
  | .parenL => toJump (parenRun d false false w (some a) [.appendBuf]) ()
  | .curlyL => toJump (curlyRun w (some a) [.appendBuf]) ()
  | .squareL => toJump (squareRun w (some a) [.appendBuf]) ()
  | .func_ => toJump (funcRun d { isNotMethod := true } w (some a) []) ()
  | .comment => some (w, (), .cont)
  | _ => some ({ w with buf := appendUnrepeatable w.buf [some a] }, (), .cont)

theorem paramBody_inv (o : c.OK) {d : Nat} {w : World} {a : Addr} (sa : c.S a) (s : PState c w (some a))
    (hF : c.f a ≤ c.F) (ta : c.f a ≤ c.top) (hd : 8 * c.f a + 5 ≤ d) : ∃ w' ctl, paramBody d w () a = some (w', (), ctl) ∧ PState c w' (some a) := by
  have pa : c.P (c.f a) (some a) := .some sa (Nat.le_refl _)
  have hH : (c.at (c.f a) true).H [.appendBuf] := fun _ => rfl
  have fin : ∀ {r : Option (World × Ptr)}, (∃ w' p, r = some (w', p) ∧ PState c w' (some a)) →
      ∃ w' ctl, toJump r () = some (w', (), ctl) ∧ PState c w' (some a) := by
    rintro _ ⟨w', p, rfl, h⟩
    exact ⟨w', _, rfl, h⟩
  unfold paramBody
  split
  · exact ⟨w, _, rfl, s⟩
  · rename_i hk
    exact fin (s.run o (run := fun w => parenRun d false false w (some a) [.appendBuf]) sa ta (by rw [hk]; decide)
      (fun h hh => parenRun_buf d false h (hh.trans hk))
      (fun w' _ i => (fns (o.at hF _) d).paren (c.f a) _ _ w' (some a) _ (Nat.le_refl _) hH i pa
        (by show 8 * c.f a + 1 ≤ d; omega)))
  · rename_i hk
    exact fin (s.run o (run := fun w => curlyRun w (some a) [.appendBuf]) sa ta (by rw [hk]; decide)
      (fun h hh => skipNestNext_buf _ _ h (hh.trans hk))
      (fun w' _ i => skipNestNext_inv (o.at hF _) i (Nat.le_refl _) pa _ _ hH))
  · rename_i hk
    exact fin (s.run o (run := fun w => squareRun w (some a) [.appendBuf]) sa ta (by rw [hk]; decide)
      (fun h hh => skipNestNext_buf _ _ h (hh.trans hk))
      (fun w' _ i => skipNestNext_inv (o.at hF _) i (Nat.le_refl _) pa _ _ hH))
  · obtain ⟨w', p, e, i, _⟩ := (fns (o.at hF false) d).func (c.f a) { isNotMethod := true } w (some a) []
      (Nat.le_refl _) H_nil s.inv' pa hd
    exact fin ⟨w', p, e, .of_inv i⟩
  · exact ⟨w, _, rfl, s⟩
  · rename_i hk
    refine ⟨_, _, rfl, ?_⟩
    by_cases hb : w.buf = []
    · have : appendUnrepeatable w.buf [some a] = [some a] := by rw [hb]; rfl
      rw [this]
      exact .of_inv (PState.start s.good sa ta hk)
    · exact .of_inv ((s.inv hb).append (o.at hF _) hb pa)

theorem paramLoop_inv (o : c.OK) {M d : Nat} {w : World} (i : Inv c w) (hM : M ≤ c.F) (hT : M ≤ c.top) {head : Ptr} (hp : c.P M head)
    (hd : 8 * M + 5 ≤ d) : ∃ w' r, jumpLoop false [] (paramBody d) { w with buf := [] } () head = some (w', r) ∧
      PState c w' none ∧ c.P M r := by
  have := loop_rule (fun (ws : World × JState Unit) p => PState c ws.1 p ∧ c.P M p)
    (fun ws p => PState c ws.1 none ∧ c.P M p)
    (fun ws a => ws.1.heap.next (some a)) (jumpStep false [] (paramBody d)) c.f (fun _ h => h) ?_ (w.heap.size + 1)
    ({ w with buf := [] }, ⟨false, none, ()⟩) head ⟨⟨i.good, by simp⟩, hp⟩ ?_
  · obtain ⟨⟨w', j⟩, r, e, h1, h2⟩ := this
    exact ⟨w', r, by simp only [jumpLoop, iterW, e, Option.map_some], h1, h2⟩
  · rintro ⟨w, j⟩ a ⟨s, hp⟩
    have sa := (hp a rfl).1
    have fin : ∀ (w' : World) (j' : JState Unit) (b : Bool), PState c w' (some a) →
        jumpStep false [] (paramBody d) (w, j) a = some ((w', j'), b) →
        ∃ (ws' : World × JState Unit) (b : Bool), jumpStep false [] (paramBody d) (w, j) a = some (ws', b) ∧
          (b = false → PState c ws'.1 none ∧ c.P M (some a)) ∧
          (b = true → (PState c ws'.1 (ws'.1.heap.next (some a)) ∧ c.P M (ws'.1.heap.next (some a))) ∧
            ∀ a', ws'.1.heap.next (some a) = some a' → c.f a' < c.f a) := by
      intro w' j' b i' e
      refine ⟨(w', j'), b, e, fun _ => ⟨⟨i'.good, ?_⟩, hp⟩, fun _ => ⟨⟨i'.next o sa, i'.good.next_P o hp⟩,
        fun a' ha' => (i'.good.next_lt o (hp a rfl).1 a' ha').2⟩⟩
      intro q qs e
      obtain ⟨b, h1, h2, h3, h4, h5⟩ := i'.buf q qs e
      exact ⟨b, h1, h2, h3, by simp, h5⟩
    by_cases c1 : j.skipAll
    · exact fin w j true s (by simp [jumpStep, c1, handleHook])
    · by_cases c2 : j.jumpTo ≠ none ∧ j.jumpTo ≠ some a
      · exact fin w j true s (by simp only [jumpStep]; rw [if_neg c1, if_pos c2]; rfl)
      · obtain ⟨w', ctl, e, i'⟩ := paramBody_inv o (d := d) sa s (Nat.le_trans (hp a rfl).2 hM) (Nat.le_trans (hp a rfl).2 hT) (by have := (hp a rfl).2; omega)
        have key : jumpStep false [] (paramBody d) (w, j) a = some (applyCtl w' () ctl) := by
          simp only [jumpStep]
          rw [if_neg c1, if_neg c2, if_neg (by simp)]
          have e : paramBody d (handleHook w (some a) []) j.s a = some (w', (), ctl) := e
          simp only [e]
        cases ctl with
        | stop => exact fin w' _ _ i' key
        | cont => exact fin w' _ _ i' key
        | jump p => exact fin w' _ _ i' key
  · intro a ha
    have := o.bound a (hp a ha).1
    rw [i.good.size]; omega

theorem paramRun_eq (d : Nat) (w : World) (head : Ptr) : paramRun d w head =
    match jumpLoop false [] (paramBody d) { w with buf := [] } () head with
    | none => none
    | some (w', ret) =>
      match deferCombine w'.heap w'.buf .paramType with
      | none => none
      | some h => some ({ heap := h, buf := w.buf }, ret) := rfl

theorem paramRun_inv (o : c.OK) (hx : ∀ h n rest h', Good c h → c.S n → c.f n ≤ c.top → h.kind (some n) ≠ .comment →
    (∀ q ∈ rest, c.P (c.f n) q) →
    deferCombine h (some n :: rest) .paramType = some h' → c.X h') {M d : Nat} {w : World} (i : Inv c w) (hM : M ≤ c.F) (hT : M ≤ c.top) {head : Ptr}
    (hp : c.P M head) (hd : 8 * M + 5 ≤ d) : Tot c M (paramRun d w head) := by
  rw [paramRun_eq]
  obtain ⟨w', r, e, s, hr⟩ := paramLoop_inv o i hM hT hp hd
  simp only [e]
  have : ∃ h, deferCombine w'.heap w'.buf .paramType = some h ∧ Good c h := by
    cases hb : w'.buf with
    | nil => exact ⟨_, rfl, s.good⟩
    | cons q qs =>
      obtain ⟨a, rfl, ⟨h2, h2'⟩, h3, _, h5⟩ := s.buf q qs hb
      obtain ⟨h, e, g⟩ := s.good.merge o h2 h3 h5
      exact ⟨h, e, g (hx _ _ _ h s.good h2 h2' h3 h5 e)⟩
  obtain ⟨h, e', g⟩ := this
  simp only [e']
  exact ⟨_, _, rfl, i.heap g, hr⟩

theorem typeRun_inv (o : c.OK) {M d : Nat}
    (hparam : ∀ w a, Inv c w → c.S a → c.f a ≤ M → w.heap.kind (some a) = .raw → Tot c M (paramRun d w (some a)))
    {w : World} (i : Inv c w) (hM : M ≤ c.F) {head : Ptr}
    (hp : c.P M head) (hd : 8 * M + 5 ≤ d) : Tot c M (typeRun d w head) := by
  unfold typeRun
  split
  · exact ⟨w, _, rfl, i, i.good.next_P o hp⟩
  · refine jumpLoop_rule o true [] H_nil _ hM ?_ i _ hp
    intro w s a i sa fa
    show TotB c _
    have ha : c.P M (some a) := .some sa fa
    dsimp only
    split
    · split
      · exact .same i _ _
      · exact .same i _ _
      · rename_i hk; exact .same (i.setKind o sa (Nat.le_trans fa hM) (by rw [hk]; decide) (by decide)) _ _
      · exact .same i _ _
    · split
      · split
        · exact .same i _ _
        · exact (show Tot c M _ from skipNestNext_inv o i hM ha _ _ H_nil).jump _
        · exact .same i _ _
      · split
        · exact .same i _ _
        · exact (interfaceRun_inv o i hM ha hd).jump _
        · exact (structRun_inv o i hM ha hd).jump _
        · exact ((fns o d).func M _ w (some a) [] hM H_nil i ha hd).jump _
        · rename_i hk; exact (hparam w a i sa fa hk).jump _
        · exact (show Tot c M _ from skipNestNext_inv o i hM ha _ _ H_nil).jump _
        · exact .same i _ _

end Goast
