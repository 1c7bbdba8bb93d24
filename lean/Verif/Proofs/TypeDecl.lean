import Verif.Proofs.InterfaceDecl

/-!
# The labels of a whole type declaration
-/

set_option linter.unusedSimpArgs false
set_option linter.unusedVariables false

namespace Goast
open Heap

/-! ## Jumps that pass over the node jumped to -/

section
variable {σ : Type} {body : World → σ → Addr → Option (World × σ × Ctl)} {w w1 w' : World} {s s1 : σ} {r : Ptr} {a q : Addr}

theorem JR.over (h : JR true [] body w ⟨false, some a, s⟩ (some a) w' r) : JR true [] body w ⟨false, none, s⟩ (w.heap.next (some a)) w' r := by
  obtain ⟨j', h⟩ := h
  refine ⟨j', h.cont (w1 := (w, ⟨false, none, s⟩)) ?_⟩
  simp [jumpStep, handleHook]

theorem JR.pass_over : ∀ (mid : List Addr) (x : Addr), Path w.heap (x :: (mid ++ [q])) → q ∉ mid →
    JR true [] body w ⟨false, some q, s⟩ (w.heap.next (some x)) w' r → JR true [] body w ⟨false, none, s⟩ (w.heap.next (some q)) w' r
  | [], x, p, _, run => by
    rw [p.1] at run
    exact run.over
  | y :: mid, x, p, hq, run => by
    rw [p.1] at run
    have : q ≠ y := fun e => hq (by simp [e])
    exact JR.pass_over mid y p.2 (fun hh => hq (by simp [hh])) (run.pass this)

/-- A nested run and the way behind the node it returned. -/
theorem JR.jump_over {mid : List Addr} (run : JR true [] body w ⟨false, none, s⟩ (some a) w' r) (e : body w s a = some (w1, s1, .jump (some q)))
    (p : Path w1.heap (a :: (mid ++ [q]))) (hq : q ∉ mid) : JR true [] body w1 ⟨false, none, s1⟩ (w1.heap.next (some q)) w' r := by
  have run := run.jump e
  simp only [reduceCtorEq, decide_false] at run
  exact run.pass_over mid a p hq

/-- A step in front that does nothing. -/
theorem JR.uncons {consume : Bool} (run : JR consume [] body w ⟨false, none, s⟩ (w.heap.next (some a)) w' r) (e : body w s a = some (w, s, .cont)) :
    JR consume [] body w ⟨false, none, s⟩ (some a) w' r := by
  obtain ⟨j', fuel, h⟩ := run
  refine ⟨j', fuel + 1, ?_⟩
  rw [loop]
  have : jumpStep consume [] body (w, ⟨false, none, s⟩) a = some ((w, ⟨false, none, s⟩), true) := by
    simp [jumpStep, handleHook, e, applyCtl]
  rw [this]
  exact h

end

/-! ## Runs up to a rest -/

/-- The state of a run at the rest `R`. -/
def Done {σ : Type} (c : RCtx) (consume : Bool) (body : World → σ → Addr → Option (World × σ × Ctl)) (s : σ) (h : Heap) (l : List Addr)
    (R ts' : List Token) (w' : World) (r : Ptr) : Prop :=
  ∃ m l₂ m' h₂, l = m ++ l₂ ∧ l₂.map (kt h) = R ∧ Step h m l₂ h₂ m' ts' ∧ Good c h₂ ∧
    JR consume [] body ⟨h₂, []⟩ ⟨false, none, s⟩ l₂.head? w' r

section
variable {σ : Type} {c : RCtx} {consume : Bool} {body : World → σ → Addr → Option (World × σ × Ctl)} {s : σ}

/-- Put a step in front. -/
theorem Done.after {h h1 : Heap} {m m' l : List Addr} {R ts us : List Token} {w' : World} {r : Ptr}
    (nd : (m ++ l).Nodup) (a : Step h m l h1 m' ts) (b : Done c consume body s h1 l R us w' r) : Done c consume body s h (m ++ l) R (ts ++ us) w' r := by
  obtain ⟨m2, l₂, m2', h2, rfl, b3, b4, b5, b6⟩ := b
  rw [List.nodup_append] at nd
  refine ⟨m ++ m2, l₂, m' ++ m2', h2, by simp, ?_, a.comp b4 fun x hx hx' => nd.2.2 x hx x (by simp [hx']) rfl, b5, b6⟩
  rw [← b3]
  exact (List.map_congr_left fun x hx => (a.frame x fun hh => nd.2.2 x hh x (by simp [hx]) rfl).2).symm

/-- What is left of a declaration whatever follows it. -/
theorem Done.front (o : c.OK) (hF : ∀ a, c.S a → c.f a ≤ c.F)
    (hbody : ∀ (h₂ : Heap) (M : Nat), M ≤ c.F → ∀ w' s y, Inv (c.under M h₂) w' → c.S y → c.f y ≤ M → TotB (c.under M h₂) (body w' s y))
    {h : Heap} {a : Addr} {pre l : List Addr}
    {R ts' : List Token} {w' : World} {r : Ptr} (f : Fwd h (some a) (a :: (pre ++ l))) (hS : ∀ x ∈ a :: (pre ++ l), c.S x)
    (b : Done c consume body s h l R ts' w' r) {l' : List Addr} (f' : Fwd w'.heap (some a) (a :: l')) :
    ∃ rest', (a :: l').map (kt w'.heap) = (a :: pre).map (kt h) ++ ts' ++ rest' ∧ (R = [] → rest' = []) := by
  obtain ⟨m, l₂, m', h₂, rfl, b3, st, g, run⟩ := b
  have nd := f.nodup
  have nd' : ((a :: pre) ++ (m ++ l₂)).Nodup := nd
  have out : ∀ x ∈ a :: pre, x ∉ m := fun x hx hh => (List.nodup_append.1 nd').2.2 x hx x (by simp [hh]) rfl
  have f₂ : Fwd h₂ (some a) (a :: (pre ++ (m' ++ l₂))) :=
    Fwd.change (a := a :: pre) f (fun x hx => by rw [st.size]; exact f.lt x (by
      rcases List.mem_cons.1 hx with rfl | hx <;> simp [*])) (fun x hx => (st.frame x (out x hx)).1) st.fwd
  have tks : (a :: (pre ++ m')).map (kt h₂) = (a :: pre).map (kt h) ++ ts' := by
    have : (a :: (pre ++ m')) = (a :: pre) ++ m' := rfl
    rw [this, List.map_append, st.toks]
    congr 1
    exact List.map_congr_left fun x hx => (st.frame x (out x hx)).2
  by_cases he : R = []
  · subst he
    obtain rfl := List.map_eq_nil_iff.1 b3
    obtain ⟨rfl, _⟩ := run.end_
    have := f'.det f₂
    rw [this]
    refine ⟨[], ?_, fun _ => rfl⟩
    rw [List.append_nil, List.append_nil, tks]
  · suffices hs : ∃ rest', (a :: l').map (kt w'.heap) = (a :: pre).map (kt h) ++ ts' ++ rest' by
      obtain ⟨rest', e⟩ := hs
      exact ⟨rest', e, fun hh => absurd hh he⟩
    -- keep everything up to the last node before the rest
    obtain ⟨k, x, hk⟩ : ∃ k x, a :: (pre ++ m') = k ++ [x] := by
      rcases List.eq_nil_or_concat (a :: (pre ++ m')) with hh | ⟨k, x, hh⟩
      · cases hh
      · exact ⟨k, x, by rw [hh, List.concat_eq_append]⟩
    have f₃ : Fwd h₂ (some a) (k ++ x :: l₂) := by
      have : a :: (pre ++ (m' ++ l₂)) = k ++ x :: l₂ := by
        have e1 : a :: (pre ++ (m' ++ l₂)) = a :: (pre ++ m') ++ l₂ := by simp
        rw [e1, hk]; simp
      rw [← this]; exact f₂
    have hx : h₂.next (some x) = l₂.head? := (Fwd.cons_iff.1 (f₃.drop k)).2.2.head
    have mem : ∀ z ∈ k ++ [x], z ∈ a :: (pre ++ (m ++ l₂)) := by
      intro z hz
      rw [← hk] at hz
      simp only [List.mem_cons, List.mem_append] at hz ⊢
      rcases hz with hz | hz | hz
      · exact .inl hz
      · exact .inr (.inl hz)
      · exact .inr (.inr (.inl (st.sub.mem hz)))
    have sx : c.S x := hS x (mem x (by simp))
    rw [← hx] at run
    obtain ⟨_, keep⟩ := run.keep o sx (hF x sx) g rfl (by
      intro q fq w' s y i sy fy
      have := hF x sx
      exact hbody h₂ (c.f q) (by omega) w' s y i sy fy)
    have rk := fwd_rank g f₃
    have path : Path w'.heap (k ++ [x]) := by
      have p2 : Path h₂ (k ++ [x]) := by
        have : k ++ x :: l₂ = (k ++ [x]) ++ l₂ := by simp
        rw [this] at f₃
        exact f₃.path.left
      have key : ∀ (m : List Addr), Path h₂ m → (∀ z ∈ m, c.f x ≤ c.f z) → Path w'.heap m := by
        intro m
        induction m with
        | nil => intro _ _; trivial
        | cons u m ih =>
          intro p hr
          cases m with
          | nil => trivial
          | cons v m => exact ⟨(keep u (hr u (by simp))).2.2 v (hr v (by simp)) p.1, ih p.2 fun z hz => hr z (by simp only [List.mem_cons] at hz ⊢; exact .inr hz)⟩
      exact key _ p2 rk
    rw [← hk] at path rk
    obtain ⟨l3, e3⟩ := Fwd.path_front path f'
    refine ⟨l3.map (kt w'.heap), ?_⟩
    rw [e3, List.map_append, ← tks]
    congr 1
    exact List.map_congr_left fun z hz => by
      have := keep z (rk z hz)
      simp only [kt, this.1, this.2.1]

end

/-! ## A word up to the end of the line -/

/-- Tokens that `paramResetter.Run` collects. -/
def Collected (k : Kind) : Prop := k ≠ .newLine ∧ k ≠ .parenL ∧ k ≠ .curlyL ∧ k ≠ .squareL ∧ k ≠ .func_ ∧ k ≠ .comment

theorem param_collect (d : Nat) {h : Heap} : ∀ (us cs ts : List Addr) {p : Ptr} {b : List Ptr} {w' : World} {r : Ptr}, Fwd h p (us ++ (cs ++ ts)) →
    (∀ x ∈ us, Collected (h.kind (some x))) → (∀ x ∈ cs, h.kind (some x) = .comment) → (∀ x, ts.head? = some x → h.kind (some x) = .newLine) →
    (∀ x ∈ us, some x ∉ b) →
    JR false [] (paramBody d) ⟨h, b⟩ ⟨false, none, ()⟩ p w' r → w' = ⟨h, b ++ us.map some⟩ ∧ r = ts.head?
  | [], [], ts, p, b, w', r, f, hu, hc, ht, hb, run => by
    have := f.head
    subst this
    cases ts with
    | nil =>
      obtain ⟨e1, e2⟩ := run.end_
      exact ⟨by simp [e1], e2⟩
    | cons t ts =>
      have hk := ht t rfl
      obtain ⟨e1, e2⟩ := run.stop (a := t) (w1 := ⟨h, b⟩) (s1 := ()) (by simp [paramBody, hk])
      exact ⟨by simp [e1], e2⟩
  | [], x :: cs, ts, p, b, w', r, f, hu, hc, ht, hb, run => by
    obtain ⟨rfl, _, f⟩ := Fwd.cons_iff.1 f
    have run := run.cont (w1 := ⟨h, b⟩) (s1 := ()) (by simp [paramBody, hc x (by simp)])
    exact param_collect d [] cs ts f (by simp) (fun y hy => hc y (by simp [hy])) ht (by simp) run
  | x :: us, cs, ts, p, b, w', r, f, hu, hc, ht, hb, run => by
    have nd := f.nodup
    simp only [List.cons_append, List.nodup_cons, List.mem_append, not_or] at nd
    obtain ⟨rfl, _, f⟩ := Fwd.cons_iff.1 f
    obtain ⟨k1, k2, k3, k4, k5, k6⟩ := hu x (by simp)
    have hbx := hb x (by simp)
    have run := run.cont (w1 := ⟨h, b ++ [some x]⟩) (s1 := ()) (by
      have : appendUnrepeatable b [some x] = b ++ [some x] := by
        unfold appendUnrepeatable
        cases hl : b.getLast? with
        | none => rw [List.getLast?_eq_none_iff.1 hl]; rfl
        | some l =>
          simp only
          rw [if_neg]
          rintro rfl
          exact hbx (List.mem_of_getLast? hl)
      unfold paramBody
      split <;> first | (exfalso; simp_all; done) | simp [this])
    obtain ⟨e1, e2⟩ := param_collect d us cs ts f (fun y hy => hu y (by simp [hy])) hc ht (fun y hy hh => by
      rcases List.mem_append.1 hh with hh | hh
      · exact hb y (by simp [hy]) hh
      · simp only [List.mem_singleton, Option.some.injEq] at hh
        subst hh
        exact nd.1.1 hy) run
    exact ⟨by simp [e1], e2⟩

theorem word_exact (d : Nat) {h : Heap} {y : Addr} {us cs ts : List Addr} {w' : World} {r : Ptr} (w : WF h)
    (f : Fwd h (some y) (y :: us ++ (cs ++ ts))) (hu : ∀ x ∈ y :: us, Collected (h.kind (some x))) (hc : ∀ x ∈ cs, h.kind (some x) = .comment)
    (ht : ∀ x, ts.head? = some x → h.kind (some x) = .newLine) (e : paramRun d ⟨h, []⟩ (some y) = some (w', r)) :
    w'.buf = [] ∧ r = ts.head? ∧
      Step h (y :: us) (cs ++ ts) w'.heap [y] [(.paramType, h.text (some y) ++ (us.map fun x => h.text (some x)).flatten)] := by
  rw [paramRun_eq] at e
  split at e
  · cases e
  · rename_i w1 r1 hj
    obtain ⟨rfl, rfl⟩ := param_collect d (y :: us) cs ts f hu hc ht (by simp) (JR.of_jumpLoop hj)
    simp only [List.nil_append, List.map_cons] at e
    split at e
    · cases e
    · rename_i h1 hd
      simp only [Option.some.injEq, Prod.mk.injEq] at e
      obtain ⟨rfl, rfl⟩ := e
      exact ⟨rfl, rfl, Step.merge w f hd⟩

/-! ## Behind the name -/

theorem type_tot {c : RCtx} (o : c.OK) (hX : ∀ h, c.X h) (hT : c.F ≤ c.top) {d : Nat} (hd : 8 * c.F + 5 ≤ d) (h₂ : Heap) (M : Nat) (hM : M ≤ c.F)
    (w' : World) (s : Bool × Bool) (y : Addr) (i : Inv (c.under M h₂) w') (sy : c.S y) (fy : c.f y ≤ M) : TotB (c.under M h₂) (typeBody d w' s y) := by
  have ou := o.under (F := M) hM h₂
  refine typeBody_inv ou i (Nat.le_refl _) sy fy ?_ s (by show 8 * M + 5 ≤ _; omega)
  intro hk
  refine paramRun_inv ou ?_ i (Nat.le_refl _) (Nat.le_refl _) (.some sy fy) (by show 8 * M + 5 ≤ _; omega)
  intro h1 n1 rest h2 g1 s1 f1 nc1 hr e1
  exact ⟨hX _, g1.keep.trans ((keep_merge o g1.of_under s1 hr e1).mono f1)⟩

/-- The invariant after one step of the loop. -/
theorem type_good {c : RCtx} (o : c.OK) (hF : ∀ a, c.S a → c.f a ≤ c.F) (hX : ∀ h, c.X h) (hT : c.F ≤ c.top) (ne : c.ne = false) {d : Nat}
    (hd : 8 * c.F + 5 ≤ d) {h : Heap} (g : Good c h) {y : Addr} (sy : c.S y)
    {s s1 : Bool × Bool} {w1 : World} {ctl : Ctl} (e : typeBody d ⟨h, []⟩ s y = some (w1, s1, ctl)) : Good c w1.heap := by
  have i : Inv c ⟨h, []⟩ := ⟨g, by simp, by simp [ne]⟩
  obtain ⟨w2, s2, ctl2, e2, i⟩ := typeBody_inv (M := c.F) o i (Nat.le_refl _) sy (hF y sy) (fun hk =>
    paramRun_inv o (fun _ _ _ _ _ _ _ _ _ _ => hX _) i (Nat.le_refl _) hT (.some sy (hF y sy)) hd) s hd
  rw [e] at e2
  simp only [Option.some.injEq, Prod.mk.injEq] at e2
  rw [e2.1]; exact i.good

theorem def_run {c : RCtx} (d : Nat) (o : c.OK) (hF : ∀ a, c.S a → c.f a ≤ c.F) (hX : ∀ h, c.X h) (hT : c.F ≤ c.top) (ne : c.ne = false)
    (hd : 8 * c.F + 5 ≤ d + 3) {R ts ts' : List Token} (D : Def R ts ts') : ∀ {h : Heap} {l : List Addr} {w' : World} {r : Ptr},
    WF h → Fwd h l.head? l → Good c h → (∀ x ∈ l, c.S x) → l.map (kt h) = ts →
    JR true [] (typeBody (d + 5)) ⟨h, []⟩ ⟨false, none, (true, true)⟩ l.head? w' r → Done c true (typeBody (d + 5)) (true, true) h l R ts' w' r := by
  have hd5 : 8 * c.F + 5 ≤ d + 5 := by omega
  induction D with
  | stop =>
    intro h l w' r w f g hS e run
    exact ⟨[], l, [], h, rfl, e, Step.nil w f, g, run⟩
  | @pass t ts ts' ht _ ih =>
    intro h l w' r w f g hS e run
    obtain ⟨y, l, rfl, e1, e2⟩ := List.map_eq_cons_iff.1 e
    have f' := (Fwd.cons_iff.1 f).2.2
    rw [← e1] at ht
    simp only [isPassive, kt] at ht
    have run := run.cont (w1 := ⟨h, []⟩) (s1 := (true, true)) (by
      show (match h.kind (some y) with
        | .comment => some ((⟨h, []⟩ : World), (true, true), Ctl.cont)
        | .interface_ => toJump (interfaceRun (d + 5) ⟨h, []⟩ (some y)) (true, true)
        | .struct_ => toJump (structRun (d + 5) ⟨h, []⟩ (some y)) (true, true)
        | .func_ => toJump (funcRun (d + 5) { isNotMethod := true } ⟨h, []⟩ (some y) []) (true, true)
        | .raw => toJump (paramRun (d + 5) ⟨h, []⟩ (some y)) (true, true)
        | .squareL => toJump (squareRun ⟨h, []⟩ (some y) []) (true, true)
        | _ => some (⟨h, []⟩, (true, true), .cont)) = _
      generalize h.kind (some y) = k at ht ⊢
      cases k <;> first | rfl | (exfalso; simp_all; done))
    have hh := f'.head
    rw [hh] at f'
    simp only [hh] at run
    have := ih w f' g (fun x hx => hS x (by simp [hx])) e2 run
    have := this.after (m := [y]) f.nodup (Step.same [y] w f)
    rw [← e1]
    exact this
  | @square t u ts inner rest rest' ht hc _ ih =>
    intro h l w' r w f g hS e run
    obtain ⟨y, l, rfl, e1, e2⟩ := List.map_eq_cons_iff.1 e
    rw [← e1] at ht
    simp only [kt] at ht
    rw [← e2] at hc
    obtain ⟨i', u', rest'', hc', rfl, rfl, er⟩ := closeAt_map _ _ h l 0 _ _ _ hc
    simp only [List.head?_cons] at run
    obtain ⟨x, hx⟩ := run.some_body
    have hb : typeBody (d + 5) ⟨h, []⟩ (true, true) y = toJump (squareRun ⟨h, []⟩ (some y) []) (true, true) := by
      simp [typeBody, ht]
    cases hg : squareRun ⟨h, []⟩ (some y) [] with
    | none => rw [hb, hg] at hx; simp [toJump] at hx
    | some v =>
      obtain ⟨w1, q1⟩ := v
      obtain ⟨rfl, rfl, rfl, kz⟩ := skipNest_exact (by decide) ht f.path hc' hg
      have nd := f.nodup
      have ex : y :: (i' ++ u' :: rest'') = (y :: (i' ++ [u'])) ++ rest'' := by simp
      rw [ex] at f nd ⊢
      have run := run.jump_over (w1 := ⟨h, []⟩) (s1 := (true, true)) (q := u') (mid := i') (by rw [hb, hg]; rfl) f.path.left (by
        intro hh
        have := (List.nodup_append.1 nd).1
        simp only [List.nodup_cons, List.nodup_append] at this
        exact this.2.2.2 u' hh u' (by simp) rfl)
      have f3 := f.drop
      have hq : h.next (some u') = rest''.head? := by
        have := Fwd.drop (y :: i') (l₂ := u' :: rest'') (by simpa using f)
        exact (Fwd.cons_iff.1 this).2.2.head
      simp only [hq] at run
      have := (ih w f3 g (fun x hx => hS x (by simp [hx])) er run).after nd (Step.same _ w f)
      rw [← e1]
      simpa using this
  | @struct t p u gap ts ts' M M' ht hgap ho hu F _ ih =>
    intro h l w' r w f g hS e run
    obtain ⟨y, l, rfl, e1, e2⟩ := List.map_eq_cons_iff.1 e
    obtain ⟨gp, l, rfl, e3, e4⟩ := List.map_eq_append_iff.1 e2
    obtain ⟨b, l, rfl, e5, e6⟩ := List.map_eq_cons_iff.1 e4
    have ky : h.kind (some y) = .struct_ := by rw [← ht, ← e1]; rfl
    have kb : h.kind (some b) = .curlyL := by rw [← ho, ← e5]; rfl
    simp only [List.head?_cons] at run f
    obtain ⟨x, hx⟩ := run.some_body
    have hb : typeBody (d + 5) ⟨h, []⟩ (true, true) y = toJump (structRun (d + 5) ⟨h, []⟩ (some y)) (true, true) := by
      simp [typeBody, ky]
    cases hg : structRun (d + 5) ⟨h, []⟩ (some y) with
    | none => rw [hb, hg] at hx; simp [toJump] at hx
    | some v =>
      obtain ⟨w1, q1⟩ := v
      have gg : Good c w1.heap := type_good o hF hX hT ne hd5 g (hS y (by simp)) (by rw [hb, hg]; rfl)
      obtain ⟨m, q, l₂, rfl, er, hbuf, rfl, rl⟩ := struct_exact (d + 5) F ⟨u, M, rfl, hu⟩ f (by simp [ky])
        (fun z hz => hgap (kt h z) (by rw [← e3]; exact List.mem_map_of_mem hz)) kb e6 hg
      obtain ⟨eu, eM⟩ := List.cons.inj er
      have nd := f.nodup
      have ex : y :: (gp ++ b :: (m ++ q :: l₂)) = (y :: (gp ++ [b])) ++ (m ++ ([q] ++ l₂)) := by simp
      have ex2 : y :: (gp ++ b :: (m ++ q :: l₂)) = (y :: (gp ++ b :: m)) ++ q :: l₂ := by simp
      have nd1 := nd
      rw [ex] at nd1
      have nd2 := nd
      rw [ex2] at nd2
      have d1 : ∀ x ∈ y :: (gp ++ [b]), x ∉ m := fun x hx hh => (List.nodup_append.1 nd1).2.2 x hx x (by simp [hh]) rfl
      have d2 : ∀ x ∈ [q] ++ l₂, x ∉ m := fun x hx hh => (List.nodup_append.1 (List.nodup_append.1 nd1).2.1).2.2 x hh x hx rfl
      have rl2 : Relab h w1.heap (y :: (gp ++ [b]) ++ (m ++ [q])) ((y :: (gp ++ [b])).map (kt h) ++ (ts' ++ [u])) := by
        refine (Relab.same h _).append (?_ : Relab h w1.heap (m ++ [q]) (ts' ++ [u])) ?_
        · have := rl.append (Relab.same w1.heap [q]) (fun x hx hx' => by
            simp only [List.mem_singleton] at hx'
            subst hx'
            exact d2 x (by simp) hx)
          have kq : kt w1.heap q = u := by rw [← eu]; exact rl.frame q (d2 q (by simp))
          simpa [kq] using this
        · intro x hx hx'
          rcases List.mem_append.1 hx' with hx' | hx'
          · exact d1 x hx hx'
          · exact (List.nodup_append.1 nd1).2.2 x hx x (by simp at hx'; simp [hx']) rfl
      have st : Step h (y :: (gp ++ [b]) ++ (m ++ [q])) l₂ w1.heap (y :: (gp ++ [b]) ++ (m ++ [q])) _ := Step.relab w (by simpa using f) rl2
      have run := run.jump_over (w1 := w1) (s1 := (true, true)) (q := q) (mid := gp ++ b :: m) (by rw [hb, hg]; rfl) (rl.path (by
        have : y :: (gp ++ b :: (m ++ q :: l₂)) = (y :: (gp ++ b :: m ++ [q])) ++ l₂ := by simp
        rw [this] at f
        exact f.path.left)) (fun hh => (List.nodup_append.1 nd2).2.2 q (by simp only [List.mem_cons]; exact .inr hh) q (by simp) rfl)
      have nd3 : (y :: (gp ++ [b]) ++ (m ++ [q]) ++ l₂).Nodup := by simpa using nd
      obtain ⟨f3, m3⟩ := st.rest (fun x hx hx' => (List.nodup_append.1 nd3).2.2 x hx x hx' rfl)
      have hq : w1.heap.next (some q) = l₂.head? := by
        rw [rl.next]
        have := Fwd.drop (y :: (gp ++ b :: m)) (l₂ := q :: l₂) (by simpa using f)
        exact (Fwd.cons_iff.1 this).2.2.head
      simp only [hq] at run
      rw [world_eta (w := w1) rfl hbuf] at run
      have := (ih st.wf f3 gg (fun x hx => hS x (by simp [hx])) (by rw [m3]; exact eM) run).after nd3 st
      rw [← e1, ← e3, ← e5]
      simpa using this
  | @interface t p u gap ts ts' M M' ht hgap ho hu F _ ih =>
    intro h l w' r w f g hS e run
    obtain ⟨y, l, rfl, e1, e2⟩ := List.map_eq_cons_iff.1 e
    obtain ⟨gp, l, rfl, e3, e4⟩ := List.map_eq_append_iff.1 e2
    obtain ⟨b, l, rfl, e5, e6⟩ := List.map_eq_cons_iff.1 e4
    have ky : h.kind (some y) = .interface_ := by rw [← ht, ← e1]; rfl
    have kb : h.kind (some b) = .curlyL := by rw [← ho, ← e5]; rfl
    simp only [List.head?_cons] at run f
    obtain ⟨x, hx⟩ := run.some_body
    have hb : typeBody (d + 5) ⟨h, []⟩ (true, true) y = toJump (interfaceRun (d + 5) ⟨h, []⟩ (some y)) (true, true) := by
      simp [typeBody, ky]
    cases hg : interfaceRun (d + 5) ⟨h, []⟩ (some y) with
    | none => rw [hb, hg] at hx; simp [toJump] at hx
    | some v =>
      obtain ⟨w1, q1⟩ := v
      have gg : Good c w1.heap := type_good o hF hX hT ne hd5 g (hS y (by simp)) (by rw [hb, hg]; rfl)
      obtain ⟨m, q, l₂, m', rfl, er, hbuf, rfl, st⟩ := interface_exact d o hF ne (by omega) F ⟨u, M, rfl, hu⟩ w f g
        (fun x hx => hS x (by simp [hx])) (by simp [ky])
        (fun z hz => hgap (kt h z) (by rw [← e3]; exact List.mem_map_of_mem hz)) kb e6 hg
      obtain ⟨eu, eM⟩ := List.cons.inj er
      have nd := f.nodup
      have ex : y :: (gp ++ b :: (m ++ q :: l₂)) = (y :: (gp ++ [b])) ++ (m ++ ([q] ++ l₂)) := by simp
      have nd1 := nd
      rw [ex] at nd1
      have d1 : ∀ x ∈ y :: (gp ++ [b]), x ∉ m := fun x hx hh => (List.nodup_append.1 nd1).2.2 x hx x (by simp [hh]) rfl
      have d2 : ∀ x ∈ [q] ++ l₂, x ∉ m := fun x hx hh => (List.nodup_append.1 (List.nodup_append.1 nd1).2.1).2.2 x hh x hx rfl
      have stq : Step w1.heap [q] l₂ w1.heap [q] [u] := by
        have kq : kt w1.heap q = u := by rw [← eu]; exact (st.frame q (d2 q (by simp))).2
        have := Step.same [q] (l := l₂) st.wf (st.fwd.drop m')
        simpa [kq] using this
      have st1 := st.comp (m2 := [q]) (l := l₂) stq (fun x hx hx' => d2 x (by
        simp only [List.mem_singleton] at hx'
        simp [hx']) hx)
      have st2 := (Step.same (y :: (gp ++ [b])) (l := m ++ [q] ++ l₂) w (by simpa using f)).comp st1 (by
        intro x hx hx'
        rcases List.mem_append.1 hx' with hx' | hx'
        · exact d1 x hx hx'
        · exact (List.nodup_append.1 nd1).2.2 x hx x (by simp at hx'; simp [hx']) rfl)
      have run := run.jump_over (w1 := w1) (s1 := (true, true)) (q := q) (mid := gp ++ b :: m') (by rw [hb, hg]; rfl) (by
        have p := st2.path
        have : y :: (gp ++ [b]) ++ (m' ++ [q]) ++ l₂ = (y :: (gp ++ b :: m' ++ [q])) ++ l₂ := by simp
        rw [this] at p
        exact p.left) (by
          have nd3 := st2.fwd.nodup
          have : y :: (gp ++ [b]) ++ (m' ++ [q]) ++ l₂ = y :: (gp ++ b :: m') ++ q :: l₂ := by simp
          rw [this] at nd3
          exact fun hh => (List.nodup_append.1 nd3).2.2 q (by simp only [List.mem_cons]; exact .inr hh) q (by simp) rfl)
      have nd3 : (y :: (gp ++ [b]) ++ (m ++ [q]) ++ l₂).Nodup := by simpa using nd
      obtain ⟨f3, m3⟩ := st2.rest (fun x hx hx' => (List.nodup_append.1 nd3).2.2 x hx x hx' rfl)
      have hq : w1.heap.next (some q) = l₂.head? := by
        have := Fwd.drop m' (l₂ := q :: l₂) st.fwd
        exact (Fwd.cons_iff.1 this).2.2.head
      simp only [hq] at run
      rw [world_eta (w := w1) rfl hbuf] at run
      have := (ih st2.wf f3 gg (fun x hx => hS x (by simp [hx])) (by rw [m3]; exact eM) run).after nd3 st2
      rw [← e1, ← e3, ← e5]
      simpa using this
  | @word t us cs ts ts' ht hu hc hn _ ih =>
    intro h l w' r w f g hS e run
    obtain ⟨y, l, rfl, e1, e2⟩ := List.map_eq_cons_iff.1 e
    obtain ⟨ys, l, rfl, e3, e4⟩ := List.map_eq_append_iff.1 e2
    obtain ⟨zs, l2, rfl, e5, e6⟩ := List.map_eq_append_iff.1 e4
    have ky : h.kind (some y) = .raw := by rw [← ht, ← e1]; rfl
    simp only [List.head?_cons] at run f
    obtain ⟨x, hx⟩ := run.some_body
    have hb : typeBody (d + 5) ⟨h, []⟩ (true, true) y = toJump (paramRun (d + 5) ⟨h, []⟩ (some y)) (true, true) := by
      simp [typeBody, ky]
    cases hg : paramRun (d + 5) ⟨h, []⟩ (some y) with
    | none => rw [hb, hg] at hx; simp [toJump] at hx
    | some v =>
      obtain ⟨w1, q1⟩ := v
      have gg : Good c w1.heap := type_good o hF hX hT ne hd5 g (hS y (by simp)) (by rw [hb, hg]; rfl)
      have hzs : ∀ z ∈ zs, h.kind (some z) = .comment := fun z hz => hc (kt h z) (by rw [← e5]; exact List.mem_map_of_mem hz)
      obtain ⟨hbuf, rfl, st⟩ := word_exact (d + 5) w (us := ys) (cs := zs) (ts := l2) (by simpa using f) (fun z hz => by
          rcases List.mem_cons.1 hz with rfl | hz
          · rw [ky]; simp [Collected]
          · exact hu (kt h z) (by rw [← e3]; exact List.mem_map_of_mem hz))
        hzs (fun z hz => hn (kt h z) (by rw [← e6, List.head?_map, hz]; rfl)) hg
      have nd := f.nodup
      have nd1 : ((y :: ys) ++ (zs ++ l2)).Nodup := by simpa using nd
      have d1 : ∀ x ∈ y :: ys, x ∉ zs ++ l2 := fun x hx hh => (List.nodup_append.1 nd1).2.2 x hx x hh rfl
      obtain ⟨f1, m1⟩ := st.rest d1
      have sc := Step.same zs (l := l2) st.wf f1
      have hzm : zs.map (kt w1.heap) = cs := by
        rw [← e5]
        exact List.map_congr_left fun x hx => (st.frame x fun hh => d1 x hh (by simp [hx])).2
      rw [hzm] at sc
      have st2 := st.comp (m2 := zs) (l := l2) sc (fun x hx hx' => d1 x hx (by simp [hx']))
      have nd2 : ((y :: ys) ++ zs ++ l2).Nodup := by simpa using nd
      obtain ⟨f3, m3⟩ := st2.rest (fun x hx hx' => (List.nodup_append.1 nd2).2.2 x hx x hx' rfl)
      suffices hh : Done c true (typeBody (d + 5)) (true, true) w1.heap l2 R ts' w' r by
        have := hh.after nd2 st2
        rw [← e1, ← e3]
        simp only [List.map_map] at this ⊢
        simp only [List.append_assoc, List.cons_append, List.nil_append] at this
        exact this
      cases l2 with
      | nil =>
        have run := run.jump (w1 := w1) (s1 := (true, true)) (q := none) (by rw [hb, hg]; rfl)
        simp only [decide_true] at run
        obtain ⟨rfl, rfl⟩ := run.skipAll
        rw [world_eta (w := w') rfl hbuf]
        exact ih st2.wf f3 gg (by simp) (by rw [m3]; exact e6) ⟨_, 0, rfl⟩
      | cons q l3 =>
        have kq : w1.heap.kind (some q) = .newLine := by
          have k0 : h.kind (some q) = .newLine := hn (kt h q) (by rw [← e6]; rfl)
          rw [← k0]
          exact congrArg Prod.fst (st.frame q fun hh => d1 q hh (by simp)).2
        have run := run.jump_over (w1 := w1) (s1 := (true, true)) (q := q) (mid := zs) (by rw [hb, hg]; rfl) (by
          have p := st2.path
          have : [y] ++ zs ++ q :: l3 = (y :: (zs ++ [q])) ++ l3 := by simp
          rw [this] at p
          exact p.left) (fun hh => (List.nodup_append.1 nd2).2.2 q (by simp [hh]) q (by simp) rfl)
        have run := run.uncons (by simp [typeBody, kq])
        rw [world_eta (w := w1) rfl hbuf] at run
        exact ih st2.wf f3 gg (fun x hx => hS x (by simp [hx])) (by rw [m3]; exact e6) run

theorem closeAt_append {α : Type} (L R : Kind) (key : α → Kind) (S : List α) : ∀ (ts : List α) (n : Nat) {i : List α} {u : α} {r : List α},
    closeAt L R key n ts = some (i, u, r) → closeAt L R key n (ts ++ S) = some (i, u, r ++ S) ∧ ts = i ++ u :: r := by
  intro ts
  induction ts with
  | nil => intro n i u r e; cases e
  | cons x ts ih =>
    intro n i u r e
    rw [closeAt] at e
    rw [List.cons_append, closeAt]
    have go : ∀ m, (closeAt L R key m ts).map (fun r => (x :: r.1, r.2)) = some (i, u, r) →
        (closeAt L R key m (ts ++ S)).map (fun r => (x :: r.1, r.2)) = some (i, u, r ++ S) ∧ x :: ts = i ++ u :: r := by
      intro m e
      obtain ⟨⟨i1, u1, r1⟩, e1, e2⟩ := Option.map_eq_some_iff.1 e
      simp only [Prod.mk.injEq] at e2
      obtain ⟨rfl, rfl, rfl⟩ := e2
      obtain ⟨a, b⟩ := ih m e1
      exact ⟨by rw [a]; rfl, by rw [b]; rfl⟩
    split at e
    · rename_i hL; rw [if_pos hL]; exact go _ e
    · rename_i hL
      rw [if_neg hL]
      split at e
      · rename_i hR
        rw [if_pos hR]
        split at e
        · rename_i hn
          simp only [Option.some.injEq, Prod.mk.injEq] at e
          obtain ⟨rfl, rfl, rfl⟩ := e
          rw [if_pos hn]
          exact ⟨rfl, rfl⟩
        · rename_i hn; rw [if_neg hn]; exact go _ e
      · rename_i hR; rw [if_neg hR]; exact go _ e

/-- The tokens of a type declaration after resetting. -/
theorem type_labels {h h' : Heap} {r : Ptr} (w : WF h) (ac : Acyclic h) {a b n : Addr} {l : List Addr}
    (ch : Chain h (a :: b :: n :: l)) (ka : h.kind (some a) = .type_) (kb : h.kind (some b) = .space)
    (kn : h.kind (some n) = .raw) {R tp ts ts' : List Token} {t : Token} (el : l.map (kt h) = tp ++ t :: ts) (P : TypeParams tp) (hs : t.1 = .space)
    (D : Def R ts ts')
    (e : resetKind h (some a) = some (h', r)) {l' : List Addr} (ch' : Chain h' (a :: l')) :
    ∃ rest', (a :: l').map (kt h') = kt h a :: kt h b :: (.typeName, h.text (some n)) :: (tp ++ t :: (ts' ++ rest')) ∧ (R = [] → rest' = []) := by
  have o := ok_true ac ch
  have g := good_start w ac ch (X := fun _ => True) trivial
  have hF : ∀ x, (rctx h ac (a :: b :: n :: l) fun _ => True).S x →
      (rctx h ac (a :: b :: n :: l) fun _ => True).f x ≤ (rctx h ac (a :: b :: n :: l) fun _ => True).F :=
    fun x hx => Nat.le_of_lt (behind_lt ac (ch.1 x hx))
  have nab : h.next (some a) = some b := (ch.2.2.2 [] a b _ rfl).1
  have nbn : h.next (some b) = some n := (ch.2.2.2 [a] b n _ rfl).1
  have ln : n < h.size := ch.1 n (by simp)
  unfold resetKind at e
  simp only [ka] at e
  obtain ⟨d, hd, hd'⟩ : ∃ d, resetDepth h = d + 5 ∧ 8 * h.size + 5 ≤ d + 3 := ⟨8 * h.size + 3, by unfold resetDepth; omega, by omega⟩
  rw [typeRun_eq, if_neg (by simp [ka]), hd] at e
  rw [Option.map_eq_some_iff] at e
  obtain ⟨⟨w', r'⟩, e, e'⟩ := e
  simp only [Prod.mk.injEq] at e'
  obtain ⟨rfl, rfl⟩ := e'
  have run := JR.of_jumpLoop e
  have run := run.cont (w1 := ⟨h, []⟩) (s1 := (false, false)) (by simp [typeBody, ka])
  simp only [nab] at run
  have run := run.cont (w1 := ⟨h, []⟩) (s1 := (false, false)) (by simp [typeBody, kb])
  simp only [nbn] at run
  have run := run.cont (w1 := ⟨h.setKind (some n) .typeName, []⟩) (s1 := (true, false)) (by simp [typeBody, kn])
  have f := ch.fwd
  have nd := f.nodup
  have rl : Relab h (h.setKind (some n) .typeName) [n] [(.typeName, h.text (some n))] := Relab.set ln _
  generalize hh1 : h.setKind (some n) .typeName = h1 at run rl
  have g1 : Good (rctx h ac (a :: b :: n :: l) fun _ => True) h1 := by
    rw [← hh1]
    exact g.setKind o (show n ∈ a :: b :: n :: l by simp) (hF n (show n ∈ a :: b :: n :: l by simp)) (by rw [kn]; decide) (by decide)
  have ln' : ∀ x ∈ l, x ∉ [n] := fun x hx hh => by
    simp only [List.mem_singleton] at hh
    subst hh
    simp only [List.nodup_cons] at nd
    exact nd.2.2.1 hx
  have el1 : l.map (kt h1) = tp ++ t :: ts := by rw [rl.map ln']; exact el
  have w1 := wf_of_links w rl.next rl.prev
  have f1 : Fwd h1 (some a) (a :: b :: n :: l) := f.congr (fun x hx => by rw [rl.size]; exact f.lt x hx) (fun x _ => rl.next _)
  obtain ⟨k, l2, rfl, ek, e2⟩ := List.map_eq_append_iff.1 el1
  obtain ⟨z, l3, rfl, ez, e3⟩ := List.map_eq_cons_iff.1 e2
  have kz : h1.kind (some z) = .space := by rw [← hs, ← ez]; rfl
  have fk : Fwd h1 (h1.next (some n)) (k ++ z :: l3) := (Fwd.cons_iff.1 (Fwd.drop [a, b] (l₂ := n :: (k ++ z :: l3)) f1)).2.2
  -- behind the type parameters
  have run : JR true [] (typeBody (d + 5)) ⟨h1, []⟩ ⟨false, none, (true, false)⟩ (some z) w' r' := by
    cases P with
    | none =>
      obtain rfl := List.map_eq_nil_iff.1 ek
      have := fk.head
      simp only [List.nil_append, List.head?_cons] at this
      simp only [this] at run
      exact run
    | @some t u ts inner ht hc =>
      obtain ⟨y, k, rfl, ey, ek⟩ := List.map_eq_cons_iff.1 ek
      have ky : h1.kind (some y) = .squareL := by rw [← ht, ← ey]; rfl
      have hy := fk.head
      simp only [List.cons_append, List.head?_cons] at hy
      rw [hy] at fk
      simp only [hy] at run
      rw [← ek] at hc
      obtain ⟨i', u', rest'', hc', rfl, rfl, er⟩ := closeAt_map _ _ h1 k 0 _ _ _ hc
      obtain rfl := List.map_eq_nil_iff.1 er
      obtain ⟨hc2, rfl⟩ := closeAt_append _ _ _ (z :: l3) k 0 hc'
      obtain ⟨x, hx⟩ := run.some_body
      have hb : typeBody (d + 5) ⟨h1, []⟩ (true, false) y = toJump (squareRun ⟨h1, []⟩ (some y) []) (true, false) := by
        simp [typeBody, ky]
      cases hg : squareRun ⟨h1, []⟩ (some y) [] with
      | none => rw [hb, hg] at hx; simp [toJump] at hx
      | some v =>
        obtain ⟨w2, q1⟩ := v
        obtain ⟨rfl, rfl, _, _⟩ := skipNest_exact (by decide) ky (by simpa using fk.path) hc2 hg
        have ndk := fk.nodup
        have run := run.jump_over (w1 := ⟨h1, []⟩) (s1 := (true, false)) (q := u') (mid := i') (by rw [hb, hg]; rfl) (by
          have := fk.path
          have ex : y :: (i' ++ [u']) ++ z :: l3 = (y :: (i' ++ [u'])) ++ z :: l3 := rfl
          rw [ex] at this
          exact this.left) (by
          intro hh
          have := (List.nodup_append.1 ndk).1
          simp only [List.nodup_cons, List.nodup_append] at this
          exact this.2.2.2 u' hh u' (by simp) rfl)
        have hq : h1.next (some u') = some z := by
          have := Fwd.drop (y :: i') (l₂ := u' :: z :: l3) (by simpa using fk)
          exact (Fwd.cons_iff.1 this).2.2.head
        simp only [hq] at run
        exact run
  have run := run.cont (w1 := ⟨h1, []⟩) (s1 := (true, true)) (by simp [typeBody, kz])
  have fz : Fwd h1 (some z) (z :: l3) := Fwd.drop (a :: b :: n :: k) (l₂ := z :: l3) (by simpa using f1)
  have f3 := (Fwd.cons_iff.1 fz).2.2
  have hh := f3.head
  rw [hh] at f3
  simp only [hh] at run
  have done := def_run d o hF (fun _ => trivial) (Nat.le_refl _) rfl hd' D w1 f3 g1 (fun x hx => show x ∈ a :: b :: n :: (k ++ z :: l3) by simp [hx]) e3 run
  obtain ⟨rest', t1, t2⟩ := done.front (pre := b :: n :: (k ++ [z])) o hF (type_tot o (fun _ => trivial) (Nat.le_refl _) (d := d + 5) (by show 8 * h.size + 5 ≤ _; omega))
    (by simpa using f1) (fun x hx => show x ∈ a :: b :: n :: (k ++ z :: l3) by simpa using hx) ch'.fwd
  refine ⟨rest', ?_, t2⟩
  rw [t1]
  simp only [List.nodup_cons, List.mem_cons, not_or] at nd
  have ka1 : kt h1 a = kt h a := rl.frame a (by simp [nd.1.2.1])
  have kb1 : kt h1 b = kt h b := rl.frame b (by simp [nd.2.1.1])
  have kn1 : kt h1 n = (.typeName, h.text (some n)) := by
    have := rl.toks
    simpa using this
  simp [ka1, kb1, kn1, ek, ez]

end Goast
