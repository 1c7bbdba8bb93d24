import Verif.Proofs.StructDecl

/-!
# The labels of the methods of an interface
-/

set_option linter.unusedSimpArgs false
set_option linter.unusedVariables false

namespace Goast
open Heap

/-- The callback of `interfaceResetter.Run`. -/
def interfaceBody (d : Nat) (w : World) (_ : Unit) (a : Addr) : Option (World × Unit × Ctl) :=
  match w.heap.kind (some a) with
  | .curlyR => some (w, (), .stop)
  | .tab | .comment | .newLine | .space | .curlyL => some (w, (), .cont)
  | k =>
    match isThisLineFunction w (some a) with
    | none => none
    | some true => toJump (funcRun d { isInterfaceDefinition := true } w (some a) []) ()
    | some false =>
      let w := if k = .raw then { w with heap := w.heap.setKind (some a) .typeName } else w
      toJump (findNext w (some a) [.newLine, .curlyR]
        { isOutsideParenthesis := true, isOutsideCurlyBracket := true,
          isOutsideSquareBracket := true } []) ()

theorem interfaceRun_eq (d : Nat) (w : World) (head : Ptr) : interfaceRun d w head =
    match findNext w head [.curlyL] {} [] with
    | none => none
    | some (w, head) => jumpLoop false [] (interfaceBody d) w () head := rfl

/-- The body at a token that is no blank and no curly bracket. -/
theorem interfaceBody_other (d : Nat) (w : World) (a : Addr) (h1 : w.heap.kind (some a) ≠ .curlyR) (h2 : w.heap.kind (some a) ≠ .tab)
    (h3 : w.heap.kind (some a) ≠ .comment) (h4 : w.heap.kind (some a) ≠ .newLine) (h5 : w.heap.kind (some a) ≠ .space)
    (h6 : w.heap.kind (some a) ≠ .curlyL) : interfaceBody d w () a =
    match isThisLineFunction w (some a) with
    | none => none
    | some true => toJump (funcRun d { isInterfaceDefinition := true } w (some a) []) ()
    | some false =>
      let w' : World := if w.heap.kind (some a) = .raw then { w with heap := w.heap.setKind (some a) .typeName } else w
      toJump (findNext w' (some a) [.newLine, .curlyR]
        { isOutsideParenthesis := true, isOutsideCurlyBracket := true,
          isOutsideSquareBracket := true } []) () := by
  unfold interfaceBody
  generalize w.heap.kind (some a) = k at *
  cases k <;> first | rfl | contradiction

/-! ## Is the line a function? -/

/-- The callback of `isThisLineFunction`. -/
def lineFn (ws : World × Bool) (a : Addr) : Option ((World × Bool) × Bool) :=
  match ws.1.heap.kind (some a) with
  | .parenL => some ((ws.1, true), false)
  | .newLine => some (ws, false)
  | _ => some (ws, true)

theorem isThisLineFunction_runs {w : World} {p : Ptr} {b : Bool} (e : isThisLineFunction w p = some b) :
    ∃ w' r, Runs (fun (ws : World × Bool) a => ws.1.heap.next (some a)) lineFn (w, false) p (w', b) r := by
  unfold isThisLineFunction iterW at e
  obtain ⟨⟨⟨w1, c⟩, r1⟩, e1, e2⟩ := Option.map_eq_some_iff.1 e
  simp only at e2
  subst e2
  exact ⟨w1, r1, _, e1⟩

theorem line_run {w : World} {z : Addr} : ∀ (us rest : List Addr) {p : Ptr} {w' : World} {b : Bool} {r : Ptr}, Fwd w.heap p (us ++ z :: rest) →
    (∀ x ∈ us, w.heap.kind (some x) ≠ .parenL ∧ w.heap.kind (some x) ≠ .newLine) →
    (w.heap.kind (some z) = .parenL ∨ w.heap.kind (some z) = .newLine) →
    Runs (fun (ws : World × Bool) a => ws.1.heap.next (some a)) lineFn (w, false) p (w', b) r → b = decide (w.heap.kind (some z) = .parenL)
  | [], rest, p, w', b, r, f, hu, hz, run => by
    have := f.head
    subst this
    rcases hz with hz | hz
    · obtain ⟨e1, e2⟩ := run.stop (a := z) (w1 := (w, true)) (by simp [lineFn, hz])
      simp only [Prod.mk.injEq] at e1
      simp [e1.2, hz]
    · obtain ⟨e1, e2⟩ := run.stop (a := z) (w1 := (w, false)) (by simp [lineFn, hz])
      simp only [Prod.mk.injEq] at e1
      simp [e1.2, hz]
  | x :: us, rest, p, w', b, r, f, hu, hz, run => by
    obtain ⟨rfl, _, f⟩ := Fwd.cons_iff.1 f
    have hx := hu x (by simp)
    have run := run.cont (w1 := (w, false)) (by
      unfold lineFn
      split <;> first | rfl | (exfalso; simp_all; done))
    exact line_run us rest f (fun y hy => hu y (by simp [hy])) hz run

/-! ## The end of an embedded type -/

/-- The callback that looks for the end of a line outside brackets. -/
def eolFn (ws : World × Counts) (a : Addr) : Option ((World × Counts) × Bool) :=
  some ((ws.1, ws.2.step (ws.1.heap.kind (some a))),
    findCont [.newLine, .curlyR] { isOutsideParenthesis := true, isOutsideCurlyBracket := true, isOutsideSquareBracket := true }
      (ws.2.step (ws.1.heap.kind (some a))) (ws.1.heap.kind (some a)))

theorem findNext_eol {w w' : World} {p r : Ptr} (e : findNext w p [.newLine, .curlyR]
      { isOutsideParenthesis := true, isOutsideCurlyBracket := true, isOutsideSquareBracket := true } [] = some (w', r)) :
    ∃ c, Runs (fun (ws : World × Counts) a => ws.1.heap.next (some a)) eolFn (w, {}) p (w', c) r := by
  unfold findNext iterW at e
  obtain ⟨⟨⟨w1, c⟩, r1⟩, e1, e2⟩ := Option.map_eq_some_iff.1 e
  simp only [Prod.mk.injEq] at e2
  obtain ⟨rfl, rfl⟩ := e2
  exact ⟨c, _, e1⟩

theorem eol_run {w : World} {z : Addr} (kz : w.heap.kind (some z) = .newLine) : ∀ (us rest : List Addr) {p : Ptr} {c c' : Counts} {w' : World} {r : Ptr},
    Fwd w.heap p (us ++ z :: rest) →
    (∀ x ∈ us, w.heap.kind (some x) ≠ .newLine ∧ w.heap.kind (some x) ≠ .curlyL ∧ w.heap.kind (some x) ≠ .curlyR ∧
      w.heap.kind (some x) ≠ .parenL ∧ w.heap.kind (some x) ≠ .parenR) →
    c.paren = 0 → c.curly = 0 → c.square + us.countP (fun x => decide (w.heap.kind (some x) = .squareL)) =
      us.countP (fun x => decide (w.heap.kind (some x) = .squareR)) →
    Runs (fun (ws : World × Counts) a => ws.1.heap.next (some a)) eolFn (w, c) p (w', c') r → w' = w ∧ r = some z
  | [], rest, p, c, c', w', r, f, hu, h1, h2, h3, run => by
    have := f.head
    subst this
    simp only [List.countP_nil, Int.natCast_zero, Int.add_zero] at h3
    obtain ⟨e1, e2⟩ := run.stop (a := z) (w1 := (w, c)) (by
      simp [eolFn, kz, Counts.step, findCont, h1, h2, h3, CharSet.new, CharSet.contain])
    simp only [Prod.mk.injEq] at e1
    exact ⟨e1.1, e2⟩
  | x :: us, rest, p, c, c', w', r, f, hu, h1, h2, h3, run => by
    obtain ⟨rfl, _, f⟩ := Fwd.cons_iff.1 f
    obtain ⟨k1, k2, k3, k4, k5⟩ := hu x (by simp)
    have hc : findCont [.newLine, .curlyR] { isOutsideParenthesis := true, isOutsideCurlyBracket := true, isOutsideSquareBracket := true }
        (c.step (w.heap.kind (some x))) (w.heap.kind (some x)) = true := by
      have : (CharSet.new [Kind.newLine, .curlyR]).contain (w.heap.kind (some x)) = false := by
        simp [CharSet.new, CharSet.contain, k1, k3]
      simp only [findCont, this]
      repeat' split
      all_goals simp_all
    have run := run.cont (w1 := (w, c.step (w.heap.kind (some x)))) (by simp [eolFn, hc])
    rw [List.countP_cons, List.countP_cons] at h3
    have hst : (c.step (w.heap.kind (some x))).paren = 0 ∧ (c.step (w.heap.kind (some x))).curly = 0 ∧
        (c.step (w.heap.kind (some x))).square = c.square + (if w.heap.kind (some x) = .squareL then 1 else 0) - (if w.heap.kind (some x) = .squareR then 1 else 0) := by
      unfold Counts.step
      split <;> simp_all
    refine eol_run kz us rest f (fun y hy => hu y (by simp [hy])) hst.1 hst.2.1 ?_ run
    rw [hst.2.2]
    by_cases hL : w.heap.kind (some x) = .squareL
    · simp [hL] at h3 ⊢; omega
    · by_cases hR : w.heap.kind (some x) = .squareR
      · simp [hL, hR] at h3 ⊢; omega
      · simp [hL, hR] at h3 ⊢; omega

/-! ## The whole interface -/

theorem funcRun_interface (d : Nat) (w : World) (head : Ptr) :
    funcRun (d + 1) { isInterfaceDefinition := true } w head [] = generalFunc d w head [.newLine] [] := by
  rw [funcRun]; simp

theorem methods_loop {c : RCtx} (d : Nat) (o : c.OK) (hF : ∀ a, c.S a → c.f a ≤ c.F) (ne : c.ne = false) (hd : 8 * c.F + 2 ≤ d + 3)
    {R ts ts' : List Token} (M : Methods R ts ts') (hR : ∃ u M, R = u :: M ∧ u.1 = .curlyR) : ∀ {h : Heap} {l : List Addr} {w' : World} {r : Ptr},
    WF h → Fwd h l.head? l → Good c h → (∀ x ∈ l, c.S x) → l.map (kt h) = ts →
    JR false [] (interfaceBody (d + 5)) ⟨h, []⟩ ⟨false, none, ()⟩ l.head? w' r →
    ∃ m q l₂ m', l = m ++ q :: l₂ ∧ (q :: l₂).map (kt h) = R ∧ w'.buf = [] ∧ r = some q ∧ Step h m (q :: l₂) w'.heap m' ts' := by
  induction M with
  | stop =>
    intro h l w' r w f g hS e run
    obtain ⟨u, M, rfl, hu⟩ := hR
    obtain ⟨q, l₂, rfl, e1, e2⟩ := List.map_eq_cons_iff.1 e
    have kq : h.kind (some q) = .curlyR := by rw [← hu, ← e1]; rfl
    obtain ⟨rfl, rfl⟩ := run.stop (w1 := ⟨h, []⟩) (s1 := ()) (by simp [interfaceBody, kq])
    exact ⟨[], q, l₂, [], rfl, e, rfl, rfl, Step.nil w f⟩
  | @skip t ts ts' ht _ ih =>
    intro h l w' r w f g hS e run
    obtain ⟨y, l, rfl, e1, e2⟩ := List.map_eq_cons_iff.1 e
    have f' := (Fwd.cons_iff.1 f).2.2
    rw [← e1] at ht
    simp only [isBlank, kt] at ht
    have run := run.cont (w1 := ⟨h, []⟩) (s1 := ()) (by rcases ht with (k | k | k | k) | k <;> simp [interfaceBody, k])
    have hh := f'.head
    rw [hh] at f'
    simp only [hh] at run
    obtain ⟨m, q, l₂, m', rfl, b1, b2, b3, b4⟩ := ih w f' g (fun x hx => hS x (by simp [hx])) e2 run
    refine ⟨y :: m, q, l₂, y :: m', rfl, b1, b2, b3, ?_⟩
    rw [← e1]
    exact (Step.same [y] (l := m ++ q :: l₂) w f).comp b4 fun x hx hx' => by
      simp only [List.mem_singleton] at hx
      subst hx
      exact (List.nodup_cons.1 f.nodup).1 (by simp [hx'])
  | @method t u n M M' ts ts' hn ht hu sig _ ih =>
    intro h l w' r w f g hS e run
    obtain ⟨y, l, rfl, e1, e2⟩ := List.map_eq_cons_iff.1 e
    obtain ⟨z, l1, rfl, e3, e4⟩ := List.map_eq_cons_iff.1 e2
    have ky : h.kind (some y) = .raw := by rw [← hn, ← e1]; rfl
    have kz : h.kind (some z) = .parenL := by rw [← ht, ← e3]; rfl
    simp only [List.head?_cons] at run f
    obtain ⟨x, hx⟩ := run.some_body
    have hb : interfaceBody (d + 5) ⟨h, []⟩ () y = toJump (generalFunc (d + 4) ⟨h, []⟩ (some y) [.newLine] []) () := by
      rw [interfaceBody_other _ _ _ (by simp [ky]) (by simp [ky]) (by simp [ky]) (by simp [ky]) (by simp [ky]) (by simp [ky])] at hx ⊢
      cases hl : isThisLineFunction ⟨h, []⟩ (some y) with
      | none => simp [hl] at hx
      | some b =>
        obtain ⟨_, _, lr⟩ := isThisLineFunction_runs hl
        have := line_run (w := ⟨h, []⟩) (z := z) [y] l1 f (by simp [ky]) (.inl kz) lr
        simp only [kz, decide_true] at this
        subst this
        rw [funcRun_interface]
    cases hg : generalFunc (d + 4) ⟨h, []⟩ (some y) [.newLine] [] with
    | none => rw [hb, hg] at hx; simp [toJump] at hx
    | some v =>
      obtain ⟨w1, q1⟩ := v
      have hg0 := hg
      rw [generalFunc_eq] at hg
      simp only [ky, reduceCtorEq, if_false] at hg
      have grun : JR false [] (generalBody (d + 3) nlSet []) ⟨h, []⟩ ⟨false, none, (false, false)⟩ (some y) w1 q1 := JR.of_jumpLoop hg
      obtain ⟨m, l₂, m', h₂, el, er, st, g2, run2⟩ := name_sig o hF ne hd w f g hS ky e2 sig grun
      obtain ⟨v, l₃, rfl, e5, e6⟩ := List.map_eq_cons_iff.1 er
      have nd := f.nodup
      have dis : ∀ x ∈ v :: l₃, x ∉ m := by
        rw [el, List.nodup_append] at nd
        exact fun x hx hh => nd.2.2 x hh x hx rfl
      have kv : h.kind (some v) = .newLine := by rw [← hu, ← e5]; rfl
      have kv2 : h₂.kind (some v) = .newLine := (congrArg Prod.fst (st.frame v (dis v (by simp))).2).trans kv
      obtain ⟨rfl, rfl⟩ := run2.stop (w1 := ⟨h₂, []⟩) (s1 := (true, true)) (by simp [generalBody, nlSet_contain, kv2])
      have hd2 := st.fwd.head
      rw [← el] at hd2
      obtain ⟨mid, rfl⟩ : ∃ mid, m' = y :: mid := by
        cases m' with
        | nil =>
          simp only [List.head?_cons, List.nil_append, Option.some.injEq] at hd2
          subst hd2
          rw [ky] at kv; cases kv
        | cons a mid =>
          simp only [List.head?_cons, List.cons_append, Option.some.injEq] at hd2
          exact ⟨mid, by rw [hd2]⟩
      have pv : Path h₂ (y :: (mid ++ [v])) := by
        have := st.path
        have ex : y :: mid ++ v :: l₃ = (y :: (mid ++ [v])) ++ l₃ := by simp
        rw [ex] at this
        exact this.left
      have run := run.jump_path (w1 := ⟨h₂, []⟩) (s1 := ()) (q := v) (mid := mid) (by rw [hb, hg0]; rfl) pv fun hh =>
        dis v (by simp) (st.sub.mem (by simp [hh]))
      have run := run.cont (w1 := ⟨h₂, []⟩) (s1 := ()) (by simp [interfaceBody, kv2])
      have nd2 : (m ++ v :: l₃).Nodup := by rw [← el]; exact nd
      obtain ⟨f3, m3⟩ := st.rest (fun x hx hx' => dis x hx' hx)
      have f4 := (Fwd.cons_iff.1 f3).2.2
      have hh := f4.head
      rw [hh] at f4
      simp only [hh] at run
      have S3 : ∀ x ∈ v :: l₃, c.S x := fun x hx => hS x (by rw [el]; exact List.mem_append_right _ hx)
      rw [List.map_cons, List.map_cons] at m3
      obtain ⟨m4, q, l₄, m4', rfl, b1, b2, b3, b4⟩ := ih st.wf f4 g2 (fun x hx => S3 x (by simp [hx])) (by
        rw [(List.cons.inj m3).2]; exact e6) run
      have st2 := (Step.same [v] (l := m4 ++ q :: l₄) st.wf f3).comp b4 fun x hx hx' => by
        simp only [List.mem_singleton] at hx
        subst hx
        exact (List.nodup_cons.1 (List.nodup_append.1 nd2).2.1).1 (by simp [hx'])
      have st3 := st.comp (m2 := [v] ++ m4) (l := q :: l₄) st2 (fun x hx hx' => dis x (by
        simp only [List.mem_append, List.mem_cons, List.mem_singleton, List.not_mem_nil, or_false] at hx' ⊢
        rcases hx' with hx' | hx' <;> simp [hx']) hx)
      refine ⟨m ++ ([v] ++ m4), q, l₄, y :: mid ++ ([v] ++ m4'), by rw [el]; simp, ?_, b2, b3, ?_⟩
      · rw [← b1]
        exact (List.map_congr_left fun x hx => (st.frame x (dis x (by
          simp only [List.mem_append, List.mem_cons] at hx ⊢
          rcases hx with hx | hx <;> simp [hx]))).2).symm
      · have kt2 : kt h₂ v = u := by rw [← e5]; exact (st.frame v (dis v (by simp))).2
        have tn : h.text (some y) = n.2 := by rw [← e1]; rfl
        simpa [kt2, tn] using st3
  | @embedded t u us ts ts' first hu hs hn _ ih =>
    intro h l w' r w f g hS e run
    obtain ⟨ys, l, rfl, e1, e2⟩ := List.map_eq_append_iff.1 e
    obtain ⟨z, l, rfl, e3, e4⟩ := List.map_eq_cons_iff.1 e2
    obtain ⟨y, ys, rfl, e5, e6⟩ := List.map_eq_cons_iff.1 e1
    have kz : h.kind (some z) = .newLine := by rw [← hn, ← e3]; rfl
    rw [← e1] at hu hs
    have hu' : ∀ x ∈ y :: ys, h.kind (some x) ≠ .newLine ∧ h.kind (some x) ≠ .curlyL ∧ h.kind (some x) ≠ .curlyR ∧
        h.kind (some x) ≠ .parenL ∧ h.kind (some x) ≠ .parenR := fun x hx => hu (kt h x) (List.mem_map_of_mem hx)
    rw [← e5] at first
    simp only [isBlank, kt, not_or] at first
    have hy := hu' y (by simp)
    simp only [List.cons_append, List.head?_cons] at run f
    have ly : y < h.size := f.lt y (by simp)
    -- the label of the first token
    obtain ⟨h1, rl, g1, eh⟩ : ∃ h1, Relab h h1 [y] [(if t.1 = .raw then .typeName else t.1, t.2)] ∧ Good c h1 ∧
        (if h.kind (some y) = .raw then { (⟨h, []⟩ : World) with heap := h.setKind (some y) .typeName } else ⟨h, []⟩) = ⟨h1, []⟩ := by
      have t1 : t.1 = h.kind (some y) := by rw [← e5]; rfl
      have t2 : t.2 = h.text (some y) := by rw [← e5]; rfl
      rw [t1, t2]
      by_cases hk : h.kind (some y) = .raw
      · rw [if_pos hk, if_pos hk]
        exact ⟨_, Relab.set ly _, g.setKind o (hS y (by simp)) (hF y (hS y (by simp))) (by rw [hk]; decide) (by decide), rfl⟩
      · rw [if_neg hk, if_neg hk]
        exact ⟨h, Relab.same h [y], g, rfl⟩
    have nd := f.nodup
    have yn : ∀ x ∈ ys ++ z :: l, x ∉ [y] := fun x hx hh => by
      simp only [List.mem_singleton] at hh
      subst hh
      exact (List.nodup_cons.1 nd).1 hx
    have k1 : ∀ x ∈ ys ++ z :: l, h1.kind (some x) = h.kind (some x) := fun x hx => congrArg Prod.fst (rl.frame x (yn x hx))
    have ky1 : ∀ k, k ≠ .raw → k ≠ .typeName → (h1.kind (some y) = k ↔ h.kind (some y) = k) := by
      intro k hk hk'
      have : kt h1 y = (if t.1 = .raw then .typeName else t.1, t.2) := by
        have := rl.toks
        simpa using this
      have : h1.kind (some y) = if t.1 = .raw then .typeName else t.1 := congrArg Prod.fst this
      rw [this, show t.1 = h.kind (some y) by rw [← e5]; rfl]
      split
      · rename_i hr
        rw [hr]
        exact ⟨fun hh => absurd hh.symm hk', fun hh => absurd hh.symm hk⟩
      · exact Iff.rfl
    have f1 : Fwd h1 (some y) (y :: ys ++ z :: l) := f.congr (fun x hx => by rw [rl.size]; exact f.lt x hx) (fun x _ => rl.next _)
    obtain ⟨x, hx⟩ := run.some_body
    have hb : interfaceBody (d + 5) ⟨h, []⟩ () y = toJump (findNext ⟨h1, []⟩ (some y) [.newLine, .curlyR]
        { isOutsideParenthesis := true, isOutsideCurlyBracket := true, isOutsideSquareBracket := true } []) () := by
      rw [interfaceBody_other _ _ _ hy.2.2.1 first.2.1 first.2.2.2 hy.1 first.1 hy.2.1] at hx ⊢
      cases hl : isThisLineFunction ⟨h, []⟩ (some y) with
      | none => simp [hl] at hx
      | some b =>
        obtain ⟨_, _, lr⟩ := isThisLineFunction_runs hl
        have := line_run (w := ⟨h, []⟩) (z := z) (y :: ys) l f (fun x hx => ⟨(hu' x hx).2.2.2.1, (hu' x hx).1⟩) (.inr kz) lr
        simp only [kz, reduceCtorEq, decide_false] at this
        subst this
        simp only
        rw [eh]
    cases hg : findNext ⟨h1, []⟩ (some y) [.newLine, .curlyR]
        { isOutsideParenthesis := true, isOutsideCurlyBracket := true, isOutsideSquareBracket := true } [] with
    | none => rw [hb, hg] at hx; simp [toJump] at hx
    | some v =>
      obtain ⟨w1, q1⟩ := v
      obtain ⟨cc, run2⟩ := findNext_eol hg
      have hcount : ∀ (k : Kind), k ≠ .raw → k ≠ .typeName → (y :: ys).countP (fun x => decide (h1.kind (some x) = k)) =
          ((y :: ys).map (kt h)).countP (fun x => decide (x.1 = k)) := by
        intro k hk hk'
        rw [List.countP_map]
        refine List.countP_congr fun x hx => ?_
        show decide (h1.kind (some x) = k) = true ↔ decide (h.kind (some x) = k) = true
        rw [decide_eq_true_eq, decide_eq_true_eq]
        rcases List.mem_cons.1 hx with rfl | hx
        · exact ky1 k hk hk'
        · rw [k1 x (by simp [hx])]
      have kz1 : h1.kind (some z) = .newLine := by rw [k1 z (by simp)]; exact kz
      obtain ⟨rfl, rfl⟩ := eol_run (w := ⟨h1, []⟩) (z := z) kz1 (y :: ys) l f1 (by
        intro x hx
        have := hu' x hx
        rcases List.mem_cons.1 hx with rfl | hx
        · refine ⟨?_, ?_, ?_, ?_, ?_⟩ <;> (intro hh; rw [ky1 _ (by simp) (by simp)] at hh; simp_all)
        · show h1.kind (some x) ≠ _ ∧ h1.kind (some x) ≠ _ ∧ h1.kind (some x) ≠ _ ∧ h1.kind (some x) ≠ _ ∧ h1.kind (some x) ≠ _
          rw [k1 x (by simp [hx])]; exact this) rfl rfl (by
        show (0 : Int) + ((y :: ys).countP (fun x => decide (h1.kind (some x) = .squareL)) : Nat) = ((y :: ys).countP (fun x => decide (h1.kind (some x) = .squareR)) : Nat)
        rw [hcount _ (by simp) (by simp), hcount _ (by simp) (by simp), hs]
        omega) run2
      have pz : Path h1 (y :: (ys ++ [z])) := by
        have ex : y :: ys ++ z :: l = (y :: (ys ++ [z])) ++ l := by simp
        rw [ex] at f1
        exact f1.path.left
      have zys : z ∉ y :: ys := by
        intro hh
        have : y :: (ys ++ z :: l) = (y :: ys) ++ z :: l := rfl
        rw [this, List.nodup_append] at nd
        exact nd.2.2 z hh z (by simp) rfl
      have run := run.jump_path (w1 := ⟨h1, []⟩) (s1 := ()) (q := z) (mid := ys) (by rw [hb, hg]; rfl) pz fun hh => zys (by simp [hh])
      have run := run.cont (w1 := ⟨h1, []⟩) (s1 := ()) (by simp [interfaceBody, kz1])
      have w1 : WF h1 := wf_of_links w rl.next rl.prev
      have st1 : Step h (y :: ys) (z :: l) h1 (y :: ys) ((if t.1 = .raw then .typeName else t.1, t.2) :: us) := by
        refine Step.relab w f ?_
        have := rl.append (Relab.same h1 ys) (fun x hx hh => yn x (by simp [hh]) hx)
        have e7 : ys.map (kt h1) = us := by rw [rl.map (fun x hx => yn x (by simp [hx]))]; exact e6
        rw [e7] at this
        exact this
      obtain ⟨f3, m3⟩ := st1.rest (fun x hx hx' => by
        have : y :: (ys ++ z :: l) = (y :: ys) ++ z :: l := rfl
        rw [this, List.nodup_append] at nd
        exact nd.2.2 x hx x hx' rfl)
      have f4 := (Fwd.cons_iff.1 f3).2.2
      have hh := f4.head
      rw [hh] at f4
      simp only [hh] at run
      rw [List.map_cons, List.map_cons] at m3
      obtain ⟨m4, q, l₄, m4', rfl, b1, b2, b3, b4⟩ := ih w1 f4 g1 (fun x hx => hS x (by simp [hx])) (by
        rw [(List.cons.inj m3).2]; exact e4) run
      have st2 := (Step.same [z] (l := m4 ++ q :: l₄) w1 f3).comp b4 fun x hx hx' => by
        simp only [List.mem_singleton] at hx
        subst hx
        exact (List.nodup_cons.1 f3.nodup).1 (by simp [hx'])
      have dis : ∀ x ∈ z :: (m4 ++ q :: l₄), x ∉ y :: ys := fun x hx hh => by
        have : y :: (ys ++ z :: (m4 ++ q :: l₄)) = (y :: ys) ++ z :: (m4 ++ q :: l₄) := rfl
        rw [this, List.nodup_append] at nd
        exact nd.2.2 x hh x hx rfl
      have st3 := st1.comp (m2 := [z] ++ m4) (l := q :: l₄) st2 (fun x hx hx' => dis x (by
        simp only [List.mem_append, List.mem_cons, List.mem_singleton, List.not_mem_nil, or_false] at hx' ⊢
        rcases hx' with hx' | hx' <;> simp [hx']) hx)
      refine ⟨y :: ys ++ ([z] ++ m4), q, l₄, y :: ys ++ ([z] ++ m4'), by simp, ?_, b2, b3, ?_⟩
      · rw [← b1]
        exact (List.map_congr_left fun x hx => (st1.frame x (dis x (by
          simp only [List.mem_append, List.mem_cons] at hx ⊢
          rcases hx with hx | hx <;> simp [hx]))).2).symm
      · have kt2 : kt h1 z = u := by rw [← e3]; exact (st1.frame z (dis z (by simp))).2
        simpa [kt2] using st3

/-- `interface … { … }`: the methods get their labels, and the result is the closing bracket. -/
theorem interface_exact {c : RCtx} (d : Nat) (o : c.OK) (hF : ∀ a, c.S a → c.f a ≤ c.F) (ne : c.ne = false) (hd : 8 * c.F + 2 ≤ d + 3)
    {R ts ts' : List Token} (M : Methods R ts ts') (hR : ∃ u M, R = u :: M ∧ u.1 = .curlyR) {h : Heap} {y p : Addr}
    {gap l : List Addr} {w' : World} {r : Ptr} (w : WF h) (f : Fwd h (some y) (y :: (gap ++ p :: l))) (g : Good c h)
    (hS : ∀ x ∈ l, c.S x) (hy : h.kind (some y) ≠ .curlyL)
    (hg : ∀ x ∈ gap, h.kind (some x) ≠ .curlyL) (ho : h.kind (some p) = .curlyL)
    (el : l.map (kt h) = ts) (e : interfaceRun (d + 5) ⟨h, []⟩ (some y) = some (w', r)) :
    ∃ m q l₂ m', l = m ++ q :: l₂ ∧ (q :: l₂).map (kt h) = R ∧ w'.buf = [] ∧ r = some q ∧ Step h m (q :: l₂) w'.heap m' ts' := by
  rw [interfaceRun_eq] at e
  split at e
  · cases e
  · rename_i w1 p1 hf
    obtain ⟨cc, run⟩ := findNext_curly hf
    obtain ⟨rfl, rfl⟩ := curly_run (w := ⟨h, []⟩) (y :: gap) l (by simpa using f) (by
      intro x hx
      rcases List.mem_cons.1 hx with rfl | hx
      · exact hy
      · exact hg x hx) ho run
    have run := JR.of_jumpLoop e
    have run := run.cont (w1 := ⟨h, []⟩) (s1 := ()) (by simp [interfaceBody, ho])
    have fo := Fwd.drop (y :: gap) (l₂ := p :: l) (by simpa using f)
    have f' := (Fwd.cons_iff.1 fo).2.2
    have hh := f'.head
    simp only [hh] at run
    rw [hh] at f'
    exact methods_loop d o hF ne hd M hR w f' g hS el run

end Goast
