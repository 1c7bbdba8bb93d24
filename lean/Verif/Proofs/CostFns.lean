import Verif.Proofs.CostReset

/-! # Proofs: how many steps the mutually recursive resetters take -/

set_option linter.unusedSimpArgs false
set_option linter.unusedVariables false

namespace Goast

variable {α β : Type} {c : RCtx} {w : World} {hooks : List Hook}

/-- The state of the collecting loop of `handleSingleReturnType`, as `Collect`. -/
structure Gather (c : RCtx) (head : Ptr) (w : World) (bf : List Ptr) (p : Ptr) (l : List Addr) : Prop where
  good : Good c w.heap
  path : Path w.heap l
  last : ∀ x, l.getLast? = some x → w.heap.next (some x) = p
  buf : bf = (nonComments w.heap l).map some
  mem : ∀ a ∈ l, c.S a
  on : c.On p
  below : ∀ b, p = some b → ∀ a ∈ l, c.f b < c.f a
  len : bf.length + c.rk p ≤ c.rk head

theorem Gather.hooked (o : c.Free) {head : Ptr} {buf : List Ptr} {a : Addr} {l : List Addr} (co : Gather c head w buf (some a) l) :
    Gather c head (handleHook w (some a) hooks) buf (some a) l := by
  have g1 := co.good.hook o co.on hooks
  have nx := next_handleHook (some a) hooks w
  exact ⟨g1, path_congr nx l co.path, fun x hx => by rw [nx]; exact co.last x hx, by rw [nonComments_congr co.good g1]; exact co.buf, co.mem, co.on, co.below, co.len⟩

theorem Gather.go (o : c.Free) {head : Ptr} {buf buf' : List Ptr} {a : Addr} {l : List Addr} (co : Gather c head w buf (some a) l)
    (hb : buf' = (nonComments w.heap (l ++ [a])).map some) (hlen : buf'.length ≤ buf.length + 1) :
    Gather c head w buf' (w.heap.next (some a)) (l ++ [a]) := by
  have sa := co.on a rfl
  have lt := co.good.next_lt o.ok sa
  refine ⟨co.good, path_snoc l a co.path co.last, by simp, hb, ?_, co.good.next_on o co.on, ?_, ?_⟩
  · intro x hx
    rcases List.mem_append.1 hx with hx | hx
    · exact co.mem x hx
    · simp at hx; subst hx; exact sa
  · intro b hb x hx
    have hb := (lt b hb).2
    rcases List.mem_append.1 hx with hx | hx
    · have := co.below a rfl x hx; omega
    · simp at hx; subst hx; exact hb
  · have := co.good.rk_next a
    have := co.len
    omega

theorem Gather.append {head : Ptr} {buf : List Ptr} {a : Addr} {l : List Addr} (co : Gather c head w buf (some a) l) (hk : w.heap.kind (some a) ≠ .comment) :
    appendUnrepeatable buf [some a] = (nonComments w.heap (l ++ [a])).map some := by
  have hmap : (nonComments w.heap (l ++ [a])).map some = buf ++ [some a] := by
    rw [co.buf]
    simp [nonComments, List.filter_append, hk]
  rw [hmap]
  unfold appendUnrepeatable
  cases hl : buf.getLast? with
  | none => simp_all
  | some x =>
    simp only
    rw [if_neg]
    rintro rfl
    have hm := List.mem_of_getLast? hl
    rw [co.buf] at hm
    simp only [List.mem_map, Option.some.injEq, exists_eq_right] at hm
    have := co.below a rfl a (List.mem_filter.1 hm).1
    omega

/-- The deferred merge after the collecting loop. -/
theorem Gather.merge (o : c.Free) {head : Ptr} {buf : List Ptr} {p : Ptr} {l : List Addr} (co : Gather c head w buf p l) :
    ∃ h', deferCombine w.heap buf .paramType = some h' ∧ Good c h' := by
  cases hb : nonComments w.heap l with
  | nil =>
    refine ⟨w.heap, ?_, co.good⟩
    rw [co.buf, hb]; rfl
  | cons n rest =>
    obtain ⟨l₁, l₂, rfl, h1, h2, _⟩ := filter_eq_cons hb
    have sn := co.mem n (by simp)
    have pa := path_drop l₁ (n :: l₂) co.path
    have nc : w.heap.kind (some n) ≠ .comment := by simpa using h1
    have e : buf = some n :: (nonComments w.heap l₂).map some := by
      rw [co.buf, hb, ← h2]; rfl
    obtain ⟨h', e', hg⟩ := co.good.merge o.ok (a := n) (rest := (nonComments w.heap l₂).map some) sn nc (by
      intro q hq
      obtain ⟨b, hb, rfl⟩ := List.mem_map.1 hq
      have hb := (List.mem_filter.1 hb).1
      exact .some (co.mem b (by simp [hb])) (Nat.le_of_lt (path_lt co.good l₂ n pa b hb)))
    refine ⟨h', by rw [e]; exact e', hg (o.ok.xMerge _ n l₂ h' co.good sn (o.F_le sn) nc pa e')⟩

theorem takes_deferCombine {buf : List Ptr} {h' : Heap} (e : deferCombine w.heap buf .paramType = some h') {Q : World → Unit → Nat → Prop}
    (h : Q { w with heap := h' } () (23 * buf.length)) : Takes (RCode.run (RCode.deferCombine buf .paramType)) w Q := by
  have r := (ref_deferCombine (F := w.heap.size + 1) (w := w) buf .paramType rfl { w with heap := h' } () (by rw [e]; rfl)).1
  refine ⟨{ w with heap := h' }, (), 23 * buf.length, r, ?_, h⟩
  have := count_deferCombine w.heap buf .paramType
  simp only [RCode.run, count_bind, count_pure]
  split <;> omega

/-- The last part of `handleSingleReturnType`. -/
theorem takes_collect (o : c.Free) (hl : hooks.length ≤ 1) (g : Good c w.heap) {head : Ptr} (on : c.On head) :
    Takes (do
        let r ← RCode.iter c.N (fun (buf : List Ptr) a => do
          RCode.handleHook a hooks
          let k ← RCode.kind a
          match k with
          | .newLine | .space | .curlyL => pure (buf, false)
          | .comment => pure (buf, true)
          | _ => pure (appendUnrepeatable buf [a], true)) [] head
        RCode.run (RCode.deferCombine r.1 .paramType)
        pure r.2) w (Flat c (28 * c.N) head) := by
  refine Takes.bind (Takes.mono (Q := fun w' r k => (∃ l, Gather c head w' r.1 r.2 l) ∧ c.rk r.2 ≤ c.rk head ∧ k ≤ 4 * c.N) ?_ ?_)
  · have hN := o.rk_lt on
    refine takes_iter c.f (fun w' buf p k => (∃ l, Gather c head w' buf p l) ∧ c.rk p ≤ c.rk head ∧ k ≤ 4 * (c.rk head - c.rk p)) ?_ ?_ ?_ (o.rank_lt on)
    · rintro w s k ⟨h1, h2, h3⟩
      exact ⟨h1, h2, by omega⟩
    · rintro w buf a k ⟨⟨l, co⟩, h2, h3⟩
      refine Takes.bind (takes_hook hl fun kh hkh => Takes.bind (takes_kind ?_))
      have co := co.hooked o (hooks := hooks)
      have pos : 0 < c.rk (some a) := by simp [RCtx.rk]
      have lt := co.good.rk_next a
      generalize handleHook w (some a) hooks = w at *
      have st : ∀ kk, kk ≤ 3 → (false = false → (∃ l, Gather c head w buf (some a) l) ∧ c.rk (some a) ≤ c.rk head ∧ k + kk ≤ 4 * c.N) := by
        intro kk hkk _
        exact ⟨⟨l, co⟩, h2, by omega⟩
      have go : ∀ kk buf', kk ≤ 3 → buf' = (nonComments w.heap (l ++ [a])).map some → buf'.length ≤ buf.length + 1 →
          ((∃ l, Gather c head w buf' (w.heap.next (some a)) l) ∧ c.rk (w.heap.next (some a)) ≤ c.rk head ∧
            k + kk + 1 ≤ 4 * (c.rk head - c.rk (w.heap.next (some a)))) ∧ ∀ a', w.heap.next (some a) = some a' → c.f a' < c.f a := by
        intro kk buf' hkk hb hlen
        exact ⟨⟨⟨_, co.go o hb hlen⟩, by omega, by omega⟩, fun a' ha' => co.good.rank a a' ha'⟩
      have hcom : w.heap.kind (some a) = .comment → buf = (nonComments w.heap (l ++ [a])).map some := by
        intro hk
        rw [co.buf]
        simp [nonComments, List.filter_append, hk]
      have happ := co.append
      have hal : (appendUnrepeatable buf [some a]).length ≤ buf.length + 1 := by
        rcases appendUnrepeatable_one buf (some a) with e | e <;> rw [e] <;> simp
      generalize w.heap.kind (some a) = kd at hcom happ ⊢
      cases kd
      case newLine | space | curlyL => exact Takes.pure ⟨st _ (by omega), fun h => by cases h⟩
      case comment => exact Takes.pure ⟨fun h => (by cases h), fun _ => go _ buf (by omega) (hcom rfl) (by omega)⟩
      all_goals exact Takes.pure ⟨fun h => (by cases h), fun _ => go _ _ (by omega) (happ (by simp)) hal⟩
    · refine ⟨⟨[], g, trivial, by simp, rfl, by simp, on, by simp, by simp⟩, Nat.le_refl _, by simp⟩
  · rintro w' ⟨buf, r⟩ k ⟨⟨l, co⟩, h2, h3⟩
    obtain ⟨h', e, g'⟩ := co.merge o
    have := co.len
    have := o.rk_lt on
    refine Takes.bind (takes_deferCombine e (Takes.pure ⟨g', co.on, h2, ?_⟩))
    dsimp only at *
    omega

/-- What a resetter takes after `e` steps, from a later node. -/
theorem Post.later {D D' e : Nat} {head head' : Ptr} {w' : World} {r : Ptr} {k : Nat} (h : Post c D head w' r k) (hh : c.rk head ≤ c.rk head') (hD : e + D ≤ D') :
    Post c D' head' w' r (e + k) := by
  obtain ⟨h1, h2, h3, h4⟩ := h
  refine ⟨h1, h2, by omega, ?_⟩
  generalize hY : max 1 (c.rk head' - c.rk r) = Y
  have e2 : D * max 1 (c.rk head - c.rk r) ≤ D * Y := Nat.mul_le_mul_left _ (by omega)
  have e3 : e * 1 ≤ e * Y := Nat.mul_le_mul_left _ (by omega)
  have e4 : (e + D) * Y ≤ D' * Y := Nat.mul_le_mul_right _ hD
  rw [Nat.add_mul] at e4
  omega

theorem Flat.later {b D' e : Nat} {head head' : Ptr} {w' : World} {r : Ptr} {k : Nat} (h : Flat c b head w' r k) (hh : c.rk head ≤ c.rk head') (hD : e + b ≤ D') :
    Post c D' head' w' r (e + k) :=
  (h.post (Nat.le_refl b)).later hh hD

/-- The steps of a resetter at depth `d`, for each node passed over. -/
def RCtx.D (c : RCtx) (d : Nat) : Nat := 100 * c.N * d

theorem RCtx.D_succ (c : RCtx) (d : Nat) : c.D (d + 1) = c.D d + 100 * c.N := by simp only [RCtx.D]; rw [Nat.mul_succ]

/-- The kinds at which `handleGeneralFunc` stops. -/
def returnSet (ks : List Kind) : CharSet Kind := if ks.length ≠ 0 then CharSet.new ks else CharSet.new [.newLine]

/-- The resetters that call each other, at depth `d`. -/
structure Costs (c : RCtx) (d : Nat) : Prop where
  paren : ∀ skip rcv w head hooks, hooks.length ≤ 1 → Good c w.heap → c.On head → 8 * c.rk head + 1 ≤ d →
    Takes (RCode.parenRun c.N d skip rcv head hooks) w (Post c (c.D d) head)
  single : ∀ w head hooks, hooks.length ≤ 1 → Good c w.heap → c.On head → 8 * c.rk head + 2 ≤ d →
    Takes (RCode.singleReturn c.N d head hooks) w (Post c (c.D d) head)
  general : ∀ w head ks hooks, hooks.length ≤ 1 → Good c w.heap → c.On head → 8 * c.rk head + 3 ≤ d →
    Takes (RCode.generalFunc c.N d head ks hooks) w fun w' r k => Post c (c.D d) head w' r k ∧ ∀ a, r = some a → (returnSet ks).contain (w'.heap.kind (some a)) = true
  parameter : ∀ w head hooks, hooks.length ≤ 1 → Good c w.heap → c.On head → 8 * c.rk head + 4 ≤ d →
    Takes (RCode.parameterFunc c.N d head hooks) w (Post c (c.D d) head)
  func : ∀ w head hooks, hooks.length ≤ 1 → Good c w.heap → c.On head → 8 * c.rk head + 5 ≤ d →
    Takes (RCode.funcRun c.N d { isParameter := true } head hooks) w (Post c (c.D d) head)
  pparam : ∀ rcv w head hooks, hooks.length ≤ 1 → Good c w.heap → c.On head → 8 * c.rk head + 6 ≤ d →
    Takes (RCode.parenParam c.N d rcv head hooks) w (Post c (c.D d) head)

/-- Passing over a node that is not what was expected. -/
theorem takes_pass (o : c.Free) (hl : hooks.length ≤ 1) (g : Good c w.heap) {n : Ptr} (on : c.On n) :
    Takes (do RCode.handleHook n hooks; RCode.next n) w (Flat c 3 n) := by
  refine Takes.bind (takes_hook hl fun k hk => takes_next ⟨g.hook o on hooks, (g.hook o on hooks).next_on o on, (g.hook o on hooks).rk_next_le n, by omega⟩)

theorem Takes.fine {σ : Type} {B D e : Nat} {St : World → Addr → Prop} {a : Addr} {s : σ} (g : Good c w.heap) (he : e ≤ B) :
    Takes (Pure.pure (s, Ctl.cont) : RCode (σ × Ctl)) w fun w2 r k => Fine c B D St a w2 r.2 (e + k) :=
  Takes.pure ⟨g, he⟩

theorem Takes.halt {σ : Type} {B D e : Nat} {a : Addr} {s : σ} (g : Good c w.heap) (he : e ≤ B) :
    Takes (Pure.pure (s, Ctl.stop) : RCode (σ × Ctl)) w fun w2 r k => Fine c B D (fun _ _ => True) a w2 r.2 (e + k) :=
  Takes.pure ⟨g, he, trivial⟩

theorem costs (o : c.Free) : ∀ d, Costs c d := by
  intro d
  have hN : 1 ≤ c.N := by simp [RCtx.N]
  induction d with
  | zero => exact ⟨by omega, by omega, by omega, by omega, by omega, by omega⟩
  | succ d ih =>
    have hD := c.D_succ d
    refine ⟨?_, ?_, ?_, ?_, ?_, ?_⟩
    · -- parenRun
      intro skip rcv w head hooks hl g on hd
      unfold RCode.parenRun
      refine Takes.bind (takes_debugText ?_)
      split
      · exact (takes_skipNestNext o hl g on).mono fun w' r k h => h.later (Nat.le_refl _) (by omega)
      · refine Takes.bind (takes_kind ?_)
        split
        · refine (takes_pass o hl g on).mono fun w' r k h => ?_
          rw [← Nat.add_assoc]
          exact h.later (Nat.le_refl _) (by omega)
        · rename_i hk
          have hk : w.heap.kind head = .parenL := Classical.not_not.1 hk
          refine (takes_jumpLoop o hl (B := 1) (D := c.D d) (St := fun _ _ => True) g on ?_).mono fun w' r k h => ?_
          · intro w1 s a g1 sa ra first
            refine Takes.bind (takes_kind ?_)
            rcases first with ⟨rfl, rfl⟩ | lt
            · rw [kind_handleHook _ _ _ _ (by rw [hk]; decide), hk]
              exact Takes.fine g1 (by omega)
            · generalize w1.heap.kind (some a) = kd
              cases kd
              case parenR => exact Takes.halt g1 (by omega)
              case comment | comma | parenL | tab | newLine | space => exact Takes.fine g1 (by omega)
              all_goals exact (ih.pparam rcv w1 (some a) hooks hl g1 (.some sa) (by omega)).jump (by omega)
          · rw [← Nat.add_assoc]
            exact h.post (Nat.le_refl _) (by omega)
    · -- singleReturn
      intro w head hooks hl g on hd
      unfold RCode.singleReturn
      refine Takes.bind (takes_debugText (Takes.bind (takes_kind ?_)))
      split
      · refine (takes_pass o hl g on).mono fun w' r k h => ?_
        rw [← Nat.add_assoc]
        exact h.later (Nat.le_refl _) (by omega)
      · rename_i hk
        have hk : w.heap.kind head = .space := Classical.not_not.1 hk
        rcases head with _ | a
        · simp [Heap.kind] at hk
        · have on1 := g.next_on o on
          have lt := g.rk_next a
          refine Takes.bind (takes_next (Takes.bind ((takes_findNext o hl g on1).mono fun w1 f k1 h1 => Takes.bind (takes_kind ?_))))
          have hk1 := h1.2.2.2
          have g1 := h1.1
          generalize w1.heap.kind f = kd
          cases kd
          case parenL =>
            refine (ih.paren false false w1 _ hooks hl g1 on1 (by omega)).mono fun w' r k h => ?_
            simp only [← Nat.add_assoc]
            exact h.later (Nat.le_of_lt lt) (by omega)
          case func_ =>
            refine (ih.parameter w1 _ hooks hl g1 on1 (by omega)).mono fun w' r k h => ?_
            simp only [← Nat.add_assoc]
            exact h.later (Nat.le_of_lt lt) (by omega)
          all_goals
            refine (takes_collect o hl g1 on1).mono fun w' r k h => ?_
            simp only [← Nat.add_assoc]
            exact h.later (Nat.le_of_lt lt) (by omega)
    · -- generalFunc
      intro w head ks hooks hl g on hd
      unfold RCode.generalFunc
      refine Takes.bind (takes_debugText ?_)
      show Takes _ w _
      have loop : ∀ (w : World) (head' : Ptr) (e : Nat), Good c w.heap → c.On head' → c.rk head' ≤ c.rk head → e ≤ 16 →
          Takes (RCode.jumpLoop c.N false hooks (fun (s : Bool × Bool) a => do
            let k ← RCode.kind a
            if (returnSet ks).contain k then pure (s, if s.2 then .stop else .cont)
            else
              let k ← RCode.kind a
              match k with
              | .comment => pure (s, .cont)
              | .raw =>
                if s.1 = false then do
                  RCode.setKind a .funcName
                  pure ((true, s.2), .cont)
                else pure (s, .cont)
              | .space =>
                if s.1 = true ∧ s.2 = true then RCode.toJump (RCode.singleReturn c.N d a hooks) s
                else pure (s, .cont)
              | .parenL => RCode.toJump (RCode.parenRun c.N d false false a hooks) (s.1, true)
              | .curlyL => RCode.toJump (RCode.curlyRun c.N a hooks) s
              | .squareL => RCode.toJump (RCode.squareRun c.N a hooks) (s.1, true)
              | _ => pure (s, .cont)) (false, false) head') w
            fun w' r k => Post c (c.D (d + 1)) head w' r (e + k) ∧ ∀ a, r = some a → (returnSet ks).contain (w'.heap.kind (some a)) = true := by
        intro w head' e g on hh he
        refine (takes_jumpLoop o hl (B := 30 * c.N) (D := c.D d) (St := fun w a => (returnSet ks).contain (w.heap.kind (some a)) = true) g on ?_).mono
          fun w' r k h => ⟨h.post hh (by omega), h.2.2.2.2⟩
        intro w1 s a g1 sa ra first
        refine Takes.bind (takes_kind ?_)
        have ona : c.On (some a) := .some sa
        split
        · rename_i hc
          split
          · exact Takes.pure ⟨g1, by omega, hc⟩
          · exact Takes.pure ⟨g1, by omega⟩
        · refine Takes.bind (takes_kind ?_)
          simp only [← Nat.add_assoc]
          have fine := fun (e : Nat) (s' : Bool × Bool) (he : e ≤ 30 * c.N) =>
            Takes.fine (D := c.D d) (St := fun w a => (returnSet ks).contain (w.heap.kind (some a)) = true) (a := a) (s := s') g1 he
          cases hkd : w1.heap.kind (some a)
          case raw =>
            dsimp only
            split
            · refine Takes.bind (takes_setKind (Takes.pure ⟨g1.setKind o.ok sa (o.F_le sa) (by rw [hkd]; decide) (by decide), by omega⟩))
            · exact fine _ _ (by omega)
          case space =>
            dsimp only
            split
            · exact (ih.single w1 (some a) hooks hl g1 ona (by omega)).jump (by omega)
            · exact fine _ _ (by omega)
          case parenL => exact (ih.paren _ _ w1 (some a) hooks hl g1 ona (by omega)).jump (by omega)
          case curlyL => exact (takes_curlyRun o hl g1 ona).jump_flat (by omega)
          case squareL => exact (takes_squareRun o hl g1 ona).jump_flat (by omega)
          all_goals exact fine _ _ (by omega)
      refine Takes.bind (takes_kind ?_)
      refine Takes.bind (p := ite _ _ _) ?_
      split
      · refine (takes_pass o hl g on).mono fun w1 n k1 h1 => ?_
        refine (loop w1 n (12 + (1 + k1)) h1.1 h1.2.1 h1.2.2.1 (by have := h1.2.2.2; omega)).mono fun w2 r k2 h2 => ?_
        simpa only [← Nat.add_assoc] using h2
      · exact Takes.pure ((loop w head 13 g on (Nat.le_refl _) (by omega)).mono fun w2 r k2 h2 => by
          simpa only [← Nat.add_assoc] using h2)
    · -- parameterFunc
      intro w head hooks hl g on hd
      unfold RCode.parameterFunc
      refine Takes.bind (takes_debugText (Takes.bind ((ih.general w head _ hooks hl g on (by omega)).mono ?_)))
      rintro w1 n k1 ⟨h1, -⟩
      refine Takes.bind (takes_kind ?_)
      split
      · refine (takes_pass o hl h1.1 h1.2.1).mono fun w2 r k2 h2 => ?_
        have le := h1.2.2.1
        have le2 := h2.2.2.1
        have h3 := h1.later (e := 16) (D' := c.D (d + 1)) (Nat.le_refl _) (by omega)
        refine ⟨h2.1, h2.2.1, by omega, ?_⟩
        have : c.D (d + 1) * max 1 (c.rk head - c.rk n) ≤ c.D (d + 1) * max 1 (c.rk head - c.rk r) := Nat.mul_le_mul_left _ (by omega)
        have := h3.2.2.2
        have := h2.2.2.2
        omega
      · refine Takes.pure ?_
        have h3 := h1.later (e := 16) (D' := c.D (d + 1)) (Nat.le_refl _) (by omega)
        exact ⟨h3.1, h3.2.1, h3.2.2.1, by have := h3.2.2.2; omega⟩
    · -- funcRun
      intro w head hooks hl g on hd
      unfold RCode.funcRun
      refine Takes.bind (takes_debugText ?_)
      exact (ih.parameter w head hooks hl g on (by omega)).mono fun w' r k h => h.later (Nat.le_refl _) (by omega)
    · -- parenParam
      intro rcv w head hooks hl g on hd
      unfold RCode.parenParam
      refine Takes.bind (takes_debugText (Takes.bind ((takes_validParamCount o g on).mono ?_)))
      rintro w1 count k1 ⟨g1, hk1⟩
      refine (takes_jumpLoop o hl (B := 30 * c.N) (D := c.D d) (St := fun _ _ => True) g1 on ?_).mono fun w' r k h => ?_
      · intro w2 s a g2 sa ra first
        have ona : c.On (some a) := .some sa
        refine Takes.bind (takes_kind ?_)
        have t1 : IsResetKind (if rcv = true then Kind.methodReceiverType else .paramType) := by split <;> decide
        have t2 : IsResetKind (if rcv = true then Kind.methodReceiverName else .paramName) := by split <;> decide
        have set : ∀ (kd : Kind) (s' : Bool), Settable (w2.heap.kind (some a)) → IsResetKind kd →
            Takes (do RCode.setKind (some a) kd; pure (s', Ctl.cont)) w2 fun w2 r k => Fine c (30 * c.N) (c.D d) (fun _ _ => True) a w2 r.2 (1 + k) := by
          intro kd s' h1 h2
          exact Takes.bind (takes_setKind (Takes.pure ⟨g2.setKind o.ok sa (o.F_le sa) h1 h2, by omega⟩))
        cases hkd : w2.heap.kind (some a)
        case squareL => exact (takes_squareRun o hl g2 ona).jump_flat (by omega)
        case func_ => exact (ih.func w2 (some a) hooks hl g2 ona (by omega)).jump (by omega)
        case comma | parenR => exact Takes.halt g2 (by omega)
        case raw | paramType | paramName =>
          dsimp only
          split
          · exact set _ _ (by rw [hkd]; decide) t1
          · split
            · exact set _ _ (by rw [hkd]; decide) t2
            · exact set _ _ (by rw [hkd]; decide) t1
        all_goals exact Takes.fine g2 (by omega)
      · simp only [← Nat.add_assoc]
        exact h.post (Nat.le_refl _) (by omega)

end Goast
