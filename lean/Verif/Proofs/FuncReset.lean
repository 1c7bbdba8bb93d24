import Verif.Proofs.FuncDecl
import Verif.Proofs.Ends

/-!
# Resetting whole function declarations
-/

set_option linter.unusedSimpArgs false
set_option linter.unusedVariables false

namespace Goast
open Heap

theorem general_stopped {d : Nat} {h : Heap} {s : Bool × Bool} {p : Ptr} {w' : World} {r : Ptr}
    (run : JR false [] (generalBody d nlSet []) ⟨h, []⟩ ⟨false, none, s⟩ p w' r) : ∀ z, r = some z → w'.heap.kind (some z) = .newLine := by
  rintro z rfl
  obtain ⟨w0, s0, s1, e⟩ := run.stopped
  obtain ⟨rfl, hk⟩ := generalBody_stop e
  exact hk

/-- `func` and a name: one run of the loop of `handleGeneralFunc` from the name on. -/
theorem func_runs {h h' : Heap} {r : Ptr} {a b n : Addr} {l : List Addr}
    (ch : Chain h (a :: b :: n :: l)) (ka : h.kind (some a) = .func_) (kb : h.kind (some b) = .space)
    (kn : h.kind (some n) = .raw) (e : resetKind h (some a) = some (h', r)) :
    ∃ d w1 r1, 8 * h.size ≤ d ∧ JR false [] (generalBody (d + 3) nlSet []) ⟨h, []⟩ ⟨false, none, (false, false)⟩ (some n) w1 r1 ∧ h' = w1.heap := by
  have nab : h.next (some a) = some b := (ch.2.2.2 [] a b _ rfl).1
  have nbn : h.next (some b) = some n := (ch.2.2.2 [a] b n _ rfl).1
  unfold resetKind at e
  simp only [ka] at e
  obtain ⟨d, hd, hd'⟩ : ∃ d, resetDepth h = d + 5 ∧ 8 * h.size ≤ d := ⟨8 * h.size + 3, by unfold resetDepth; omega, by omega⟩
  rw [hd, funcRun_eq _ _ _ ka, Option.map_eq_some_iff] at e
  obtain ⟨⟨w', r'⟩, e, e'⟩ := e
  simp only [Prod.mk.injEq] at e'
  obtain ⟨rfl, rfl⟩ := e'
  have gen : ∀ {w1 r1}, JR false [] (generalBody (d + 3) nlSet []) ⟨h, []⟩ ⟨false, none, (false, false)⟩ (some b) w1 r1 →
      JR false [] (generalBody (d + 3) nlSet []) ⟨h, []⟩ ⟨false, none, (false, false)⟩ (some n) w1 r1 := by
    intro w1 r1 run
    have run := run.cont (w1 := ⟨h, []⟩) (s1 := (false, false)) (by simp [generalBody, nlSet_contain, kb])
    simp only [nbn] at run
    exact run
  split at e
  · cases e
  · rw [generalFunc_eq] at e
    simp only [ka, if_true, nab] at e
    exact ⟨d, w', r', hd', gen (JR.of_jumpLoop e), rfl⟩
  · simp only [nab] at e
    have run := JR.of_jumpLoop e
    have run := run.cont (w1 := ⟨h, []⟩) (s1 := (false, false)) (by simp [funcBody, kb])
    simp only [nbn] at run
    obtain ⟨x, hx⟩ := run.some_body
    have hx' := hx
    simp [funcBody, kn] at hx'
    cases hg : generalFunc (d + 4) ⟨h, []⟩ (some b) [.newLine] [] with
    | none => rw [hg] at hx'; simp [toJump] at hx'
    | some y =>
      obtain ⟨w1, q⟩ := y
      have run := run.jump (w1 := w1) (s1 := (true, false)) (q := q) (by simp [funcBody, kn, hg, toJump])
      rw [generalFunc_eq] at hg
      simp only [kb, reduceCtorEq, if_false] at hg
      have g := gen (JR.of_jumpLoop hg)
      have := funcBody_idle (general_stopped g) run
      exact ⟨d, w1, q, hd', g, congrArg World.heap this⟩

/-! ## Labelled receivers are not labelled again -/

theorem closeAt_split {α : Type} {L R : Kind} {key : α → Kind} : ∀ {ts : List α} {n : Nat} {i : List α} {u : α} {rest : List α},
    closeAt L R key n ts = some (i, u, rest) → ts = i ++ u :: rest ∧ ∀ rest', closeAt L R key n (i ++ u :: rest') = some (i, u, rest')
  | [], _, _, _, _, e => by cases e
  | t :: ts, n, i, u, rest, e => by
    rw [closeAt] at e
    have go : ∀ m, (closeAt L R key m ts).map (fun r => (t :: r.1, r.2)) = some (i, u, rest) → t :: ts = i ++ u :: rest ∧
        ∃ i', i = t :: i' ∧ ∀ rest', (closeAt L R key m (i' ++ u :: rest')).map (fun r => (t :: r.1, r.2)) = some (i, u, rest') := by
      intro m e
      obtain ⟨⟨i1, u1, r1⟩, e1, e2⟩ := Option.map_eq_some_iff.1 e
      simp only [Prod.mk.injEq] at e2
      obtain ⟨rfl, rfl, rfl⟩ := e2
      obtain ⟨h1, h2⟩ := closeAt_split e1
      exact ⟨by rw [h1]; rfl, i1, rfl, fun rest' => by simp [h2 rest']⟩
    split at e
    · rename_i hL
      obtain ⟨h1, i', rfl, h2⟩ := go _ e
      exact ⟨h1, fun rest' => by rw [List.cons_append, closeAt, if_pos hL]; exact h2 rest'⟩
    · rename_i hL
      split at e
      · rename_i hR
        split at e
        · rename_i hn
          simp only [Option.some.injEq, Prod.mk.injEq] at e
          obtain ⟨rfl, rfl, rfl⟩ := e
          exact ⟨rfl, fun rest' => by rw [List.nil_append, closeAt, if_neg hL, if_pos hR, if_pos hn]⟩
        · rename_i hn
          obtain ⟨h1, i', rfl, h2⟩ := go _ e
          exact ⟨h1, fun rest' => by rw [List.cons_append, closeAt, if_neg hL, if_pos hR, if_neg hn]; exact h2 rest'⟩
      · rename_i hR
        obtain ⟨h1, i', rfl, h2⟩ := go _ e
        exact ⟨h1, fun rest' => by rw [List.cons_append, closeAt, if_neg hL, if_neg hR]; exact h2 rest'⟩

theorem relevant_append {a b : List Token} (e : relevant a = relevant b) : ∀ l : List Token, relevant (l ++ a) = relevant (l ++ b)
  | [] => e
  | t :: l => by simp only [List.cons_append, relevant, relevant_append e l]

/-- A labelled receiver parameter: a second pass changes nothing. -/
theorem Param.again {b : Bool} {ts ts' : List Token} (P : Param .methodReceiverName .methodReceiverType b ts ts') :
    (∀ b', Param .paramName .paramType b' ts' ts') ∧ relevant ts' = relevant ts ∧
      ∀ t, ts.head? = some t → ¬ isBlank t ∧ t.1 ≠ .parenL → ∃ u us, ts' = u :: us ∧ ¬ isBlank u ∧ u.1 ≠ .parenL := by
  refine Param.rec (motive_1 := fun _ _ _ => True) (motive_2 := fun b ts ts' _ => (∀ b', Param .paramName .paramType b' ts' ts') ∧ relevant ts' = relevant ts ∧
      ∀ t, ts.head? = some t → ¬ isBlank t ∧ t.1 ≠ .parenL → ∃ u us, ts' = u :: us ∧ ¬ isBlank u ∧ u.1 ≠ .parenL)
    trivial (fun _ _ _ => trivial) (fun _ _ _ _ _ _ => trivial) ?_ ?_ ?_ ?_ ?_ P
  · intro b; exact ⟨fun _ => .nil, rfl, by simp⟩
  · intro b t ts ts' h _ ih
    have hp : isPlain ((if b then Kind.methodReceiverName else .methodReceiverType), t.2) := by cases b <;> simp [isPlain]
    refine ⟨fun b' => .plain hp (ih.1 b'), ?_, fun x _ _ => ⟨_, _, rfl, ?_⟩⟩
    · simp only [relevant, ih.2.1, h]
      cases b <;> simp [isBlank, h]
    · cases b <;> simp [isBlank]
  · intro b t ts ts' h _ ih
    exact ⟨fun b' => .plain h (ih.1 b'), by simp only [relevant, ih.2.1], fun x hx hb => ⟨_, _, rfl, by simp at hx; rw [hx]; exact hb⟩⟩
  · intro b t u ts inner rest rest' ht hc _ ih
    obtain ⟨h1, h2⟩ := closeAt_split hc
    refine ⟨fun b' => .square ht (h2 rest') (ih.1 b'), ?_, fun x hx hb => ⟨_, _, rfl, by simp at hx; rw [hx]; exact hb⟩⟩
    rw [h1]
    exact relevant_append (by simp only [relevant, ih.2.1]) (t :: inner)
  · intro b t l u ps ps' ts ts' hk; simp at hk

/-- Labelling the parameters again, after they were labelled as receivers, changes nothing. -/
theorem Params.again {ts ts' : List Token} (P : Params .methodReceiverName .methodReceiverType ts ts') : Params .paramName .paramType ts' ts' := by
  refine Params.rec (motive_1 := fun ts ts' _ => Params .paramName .paramType ts' ts') (motive_2 := fun _ _ _ _ => True)
    ?_ ?_ ?_ (fun {_} => trivial) (fun _ _ _ => trivial) (fun _ _ _ => trivial) (fun _ _ _ _ => trivial) (fun _ _ _ _ _ _ _ _ => trivial) P
  · exact .nil
  · intro t ts ts' h _ ih; exact .sep h ih
  · intro t ty ty' rest rest' first q stop p _ ih
    obtain ⟨h1, h2, h3⟩ := q.again
    obtain ⟨u, us, rfl, hu⟩ := h3 t rfl first
    have st : ∀ x, rest'.head? = some x → x.1 = .comma := by
      intro x hx
      cases p with
      | nil => cases hx
      | sep h' _ =>
        simp only [List.head?_cons, Option.some.injEq] at hx
        subst hx
        exact stop _ rfl
      | @param t' ty' _ _ first' ok' q' _ _ =>
        exact absurd (stop t' rfl) q'.first.1
    exact Params.param hu (h1 _) st ih

/-- A method declaration: the receiver is labelled, then one run of the loop of `handleGeneralFunc` from the name on. -/
theorem method_runs {h h' : Heap} {r : Ptr} {a b p q s n : Addr} {mid l : List Addr}
    (ch : Chain h (a :: b :: p :: (mid ++ q :: s :: n :: l))) (ka : h.kind (some a) = .func_) (kb : h.kind (some b) = .space)
    (kp : h.kind (some p) = .parenL) (kq : h.kind (some q) = .parenR) (ks : h.kind (some s) = .space)
    (kn : h.kind (some n) = .raw) (hc : ¬ CalledAtOnce (kindsOf h (a :: b :: p :: (mid ++ q :: s :: n :: l))))
    {ps ps' : List Token} (em : mid.map (kt h) = ps) (P : Params .methodReceiverName .methodReceiverType ps ps')
    (e : resetKind h (some a) = some (h', r)) :
    ∃ h1 d w1 r1, 8 * h.size ≤ d ∧ Relab h h1 mid ps' ∧
      JR false [] (generalBody (d + 3) nlSet []) ⟨h1, []⟩ ⟨false, none, (false, true)⟩ (some n) w1 r1 ∧ h' = w1.heap := by
  have nd := ch.nodup
  have ndq : (p :: (mid ++ [q])).Nodup := by
    have : a :: b :: p :: (mid ++ q :: s :: n :: l) = [a, b] ++ ((p :: (mid ++ [q])) ++ (s :: n :: l)) := by simp
    rw [this] at nd
    exact (List.nodup_append.1 (List.nodup_append.1 nd).2.1).1
  have path : Path h (p :: (mid ++ [q])) := by
    have f := ch.fwd.path
    have : a :: b :: p :: (mid ++ q :: s :: n :: l) = [a, b] ++ ((p :: (mid ++ [q])) ++ (s :: n :: l)) := by simp
    rw [this] at f
    exact (Path.drop _ f).left
  simp only [List.nodup_cons, List.nodup_append, List.mem_cons, List.mem_append, not_or] at nd
  have hb : b ∉ mid := fun hh => nd.2.1.2.1 hh
  have hp : p ∉ mid := fun hh => nd.2.2.1.1 hh
  have hq : q ∉ mid := fun hh => nd.2.2.2.2.2 q hh q (.inl rfl) rfl
  have hs : s ∉ mid := fun hh => nd.2.2.2.2.2 s hh s (.inr (.inl rfl)) rfl
  have hn : n ∉ mid := fun hh => nd.2.2.2.2.2 n hh n (.inr (.inr (.inl rfl))) rfl
  have nab : h.next (some a) = some b := (ch.2.2.2 [] a b _ rfl).1
  have nbp : h.next (some b) = some p := (ch.2.2.2 [a] b p _ rfl).1
  have nqs : h.next (some q) = some s := (ch.2.2.2 (a :: b :: p :: mid) q s _ (by simp; rfl)).1
  have nsn : h.next (some s) = some n := (ch.2.2.2 (a :: b :: p :: (mid ++ [q])) s n l (by simp)).1
  have lt : ∀ x ∈ mid, x < h.size := fun x hx => ch.1 x (by simp [hx])
  unfold resetKind at e
  simp only [ka] at e
  obtain ⟨d, hd, hd'⟩ : ∃ d, resetDepth h = d + 5 ∧ 8 * h.size ≤ d := ⟨8 * h.size + 3, by unfold resetDepth; omega, by omega⟩
  rw [hd, funcRun_eq _ _ _ ka, Option.map_eq_some_iff] at e
  obtain ⟨⟨w', r'⟩, e, e'⟩ := e
  simp only [Prod.mk.injEq] at e'
  obtain ⟨rfl, rfl⟩ := e'
  obtain ⟨t, ht, ht'⟩ := isTemporaryFunc_iff (h := h) [] ch.fwd
  simp only [List.head?_cons] at ht
  have : t = false := by
    cases t with
    | false => rfl
    | true => exact absurd (ht'.1 rfl) hc
  subst this
  simp only [ht, nab] at e
  have run := JR.of_jumpLoop e
  have run := run.cont (w1 := ⟨h, []⟩) (s1 := (false, false)) (by simp [funcBody, kb])
  simp only [nbp] at run
  -- the receiver
  obtain ⟨x, hx⟩ := run.some_body
  have hb1 : funcBody (d + 4) (some b) ⟨h, []⟩ (false, false) p = toJump (parenRun (d + 4) false true ⟨h, []⟩ (some p) []) (true, false) := by
    simp [funcBody, kp]
  cases hg : parenRun (d + 4) false true ⟨h, []⟩ (some p) [] with
  | none => rw [hb1, hg] at hx; simp [toJump] at hx
  | some y =>
    obtain ⟨w1, q1⟩ := y
    obtain ⟨hbuf, rfl, rl⟩ := paren_exact (d + 2) true P em path ndq lt kp kq hg
    have kf : ∀ x, x ∉ mid → w1.heap.kind (some x) = h.kind (some x) := fun x hx => congrArg Prod.fst (rl.frame x hx)
    have run := run.jump_path (w1 := w1) (s1 := (true, false)) (q := q) (mid := mid) (by rw [hb1, hg]; rfl) (rl.path path) hq
    rw [world_eta (w := w1) rfl hbuf] at run
    -- at the closing bracket
    obtain ⟨x, hx⟩ := run.some_body
    have hb2 : funcBody (d + 4) (some b) ⟨w1.heap, []⟩ (true, false) q =
        toJump (generalFunc (d + 4) ⟨w1.heap, []⟩ (some b) [.newLine] []) (true, false) := by
      simp [funcBody, kf q hq, kq]
    cases hg2 : generalFunc (d + 4) ⟨w1.heap, []⟩ (some b) [.newLine] [] with
    | none => rw [hb2, hg2] at hx; simp [toJump] at hx
    | some y =>
      obtain ⟨w2, q2⟩ := y
      have run := run.jump (w1 := w2) (s1 := (true, false)) (q := q2) (by rw [hb2, hg2]; rfl)
      rw [generalFunc_eq] at hg2
      simp only [kf b hb, kb, reduceCtorEq, if_false] at hg2
      have grun : JR false [] (generalBody (d + 3) nlSet []) ⟨w1.heap, []⟩ ⟨false, none, (false, false)⟩ (some b) w2 q2 := JR.of_jumpLoop hg2
      have stp := general_stopped grun
      have idle := funcBody_idle stp run
      have grun := grun.cont (w1 := ⟨w1.heap, []⟩) (s1 := (false, false)) (by simp [generalBody, nlSet_contain, kf b hb, kb])
      simp only [rl.next, nbp] at grun
      obtain ⟨x, hx⟩ := grun.some_body
      have hb3 : generalBody (d + 3) nlSet [] ⟨w1.heap, []⟩ (false, false) p =
          toJump (parenRun (d + 3) false false ⟨w1.heap, []⟩ (some p) []) (false, true) := by
        simp [generalBody, nlSet_contain, kf p hp, kp]
      cases hg3 : parenRun (d + 3) false false ⟨w1.heap, []⟩ (some p) [] with
      | none => rw [hb3, hg3] at hx; simp [toJump] at hx
      | some y =>
        obtain ⟨w3, q3⟩ := y
        obtain ⟨hbuf3, rfl, rl3⟩ := paren_exact (d + 1) false P.again rl.toks (rl.path path) ndq
          (fun x hx => by rw [rl.size]; exact lt x hx) (by rw [kf p hp, kp]) (by rw [kf q hq, kq]) hg3
        have rl4 : Relab h w3.heap mid ps' :=
          ⟨rl3.size.trans rl.size, fun p => (rl3.next p).trans (rl.next p), fun p => (rl3.prev p).trans (rl.prev p),
            fun p => (rl3.line p).trans (rl.line p), fun x hx => (rl3.frame x hx).trans (rl.frame x hx), rl3.toks⟩
        have kf : ∀ x, x ∉ mid → w3.heap.kind (some x) = h.kind (some x) := fun x hx => congrArg Prod.fst (rl4.frame x hx)
        have grun := grun.jump_path (w1 := w3) (s1 := (false, true)) (q := q) (mid := mid) (by rw [hb3, hg3]; rfl) (rl4.path path) hq
        rw [world_eta (w := w3) rfl hbuf3] at grun
        have grun := grun.cont (w1 := ⟨w3.heap, []⟩) (s1 := (false, true)) (by simp [generalBody, nlSet_contain, kf q hq, kq])
        simp only [rl4.next, nqs] at grun
        have grun := grun.cont (w1 := ⟨w3.heap, []⟩) (s1 := (false, true)) (by simp [generalBody, nlSet_contain, kf s hs, ks])
        simp only [rl4.next, nsn] at grun
        exact ⟨w3.heap, d, w2, q2, hd', rl4, grun, congrArg World.heap idle⟩

/-! ## Whole declarations -/

/-- From the name on. -/
theorem name_sig {c : RCtx} {d : Nat} (o : c.OK) (hF : ∀ a, c.S a → c.f a ≤ c.F) (ne : c.ne = false) (hd : 8 * c.F + 2 ≤ d + 3)
    {h : Heap} {n : Addr} {l : List Addr} {fin seen : Bool} {R ts ts' : List Token} {w' : World} {r : Ptr} (w : WF h)
    (f : Fwd h (some n) (n :: l)) (g : Good c h) (hS : ∀ x ∈ n :: l, c.S x) (kn : h.kind (some n) = .raw) (el : l.map (kt h) = ts) (S : Sig R fin seen ts ts')
    (run : JR false [] (generalBody (d + 3) nlSet []) ⟨h, []⟩ ⟨false, none, (false, seen)⟩ (some n) w' r) :
    SigDone c (d + 3) fin h (n :: l) R ((.funcName, h.text (some n)) :: ts') w' r := by
  have ln : n < h.size := f.lt n (by simp)
  have nd := f.nodup
  have hb : generalBody (d + 3) nlSet [] ⟨h, []⟩ (false, seen) n = some (⟨h.setKind (some n) .funcName, []⟩, (true, seen), .cont) := by
    simp [generalBody, nlSet_contain, kn]
  have run := run.cont hb
  have st : Step h [n] l (h.setKind (some n) .funcName) [n] [(.funcName, h.text (some n))] := Step.relab w f (Relab.set ln _)
  obtain ⟨f3, m3⟩ := st.rest (fun x hx hx' => by
    simp only [List.mem_singleton] at hx
    subst hx
    exact (List.nodup_cons.1 nd).1 hx')
  have hn : (h.setKind (some n) .funcName).next (some n) = l.head? := by
    rw [next_setKind]
    exact (Fwd.cons_iff.1 f).2.2.head
  simp only [hn] at run
  exact (sig_run d o hF ne hd S st.wf f3 (general_good o hF ne hd g (hS n (by simp)) hb) (fun x hx => hS x (by simp [hx])) (by rw [m3, el]) run).after nd st

theorem Fwd.path_front {h : Heap} : ∀ {a : Addr} {m l : List Addr}, Path h (a :: m) → Fwd h (some a) l → ∃ l', l = a :: m ++ l'
  | a, [], l, _, f => by cases f; exact ⟨_, rfl⟩
  | a, b :: m, l, s, f => by
    cases f with
    | @cons _ l _ f =>
      rw [s.1] at f
      obtain ⟨l', e⟩ := Fwd.path_front s.2 f
      exact ⟨l', by rw [e]; rfl⟩

/-- Ranks fall along a chain. -/
theorem fwd_rank {c : RCtx} {h : Heap} (g : Good c h) : ∀ {p : Ptr} {l : List Addr} {x : Addr} {m : List Addr}, Fwd h p (l ++ x :: m) → ∀ z ∈ l ++ [x], c.f x ≤ c.f z
  | p, [], x, m, f, z, hz => by simp at hz; rw [hz]; exact Nat.le_refl _
  | p, a :: l, x, m, f, z, hz => by
    obtain ⟨rfl, _, f⟩ := Fwd.cons_iff.1 f
    have f : Fwd h (h.next (some a)) (l ++ x :: m) := f
    rcases List.mem_cons.1 hz with rfl | hz
    · have hd := f.head
      cases hy : (l ++ x :: m) with
      | nil => simp at hy
      | cons y k =>
        rw [hy] at hd
        have h1 := g.rank z y hd
        have h2 := fwd_rank g (l := l) f y (by
          cases l with
          | nil => simp at hy; simp [hy.1]
          | cons _ _ => simp at hy; simp [hy.1])
        omega
    · exact fwd_rank g f z hz

/-- What is left of a declaration whatever follows it. -/
theorem SigDone.front {c : RCtx} {d : Nat} (o : c.OK) (hF : ∀ a, c.S a → c.f a ≤ c.F) (hd : 8 * c.F + 2 ≤ d) {fin : Bool} {h : Heap} {a : Addr} {pre l : List Addr}
    {R ts' : List Token} {w' : World} {r : Ptr} (f : Fwd h (some a) (a :: (pre ++ l))) (hS : ∀ x ∈ a :: (pre ++ l), c.S x) (b : SigDone c d fin h l R ts' w' r)
    {l' : List Addr} (f' : Fwd w'.heap (some a) (a :: l')) :
    ∃ rest', (a :: l').map (kt w'.heap) = (a :: pre).map (kt h) ++ ts' ++ rest' ∧ (DeclEnd fin R → rest' = R) := by
  obtain ⟨m, l₂, m', h₂, rfl, b3, st, g, run⟩ := b
  have nd := f.nodup
  have nd' : ((a :: pre) ++ (m ++ l₂)).Nodup := nd
  have out : ∀ x ∈ a :: pre, x ∉ m := fun x hx hh => (List.nodup_append.1 nd').2.2 x hx x (by simp [hh]) rfl
  have out2 : ∀ x ∈ l₂, x ∉ m := fun x hx hh => (List.nodup_append.1 (List.nodup_append.1 nd').2.1).2.2 x hh x hx rfl
  have f₂ : Fwd h₂ (some a) (a :: (pre ++ (m' ++ l₂))) :=
    Fwd.change (a := a :: pre) f (fun x hx => by rw [st.size]; exact f.lt x (by
      rcases List.mem_cons.1 hx with rfl | hx <;> simp [*])) (fun x hx => (st.frame x (out x hx)).1) st.fwd
  have tks : (a :: (pre ++ m')).map (kt h₂) = (a :: pre).map (kt h) ++ ts' := by
    have : (a :: (pre ++ m')) = (a :: pre) ++ m' := rfl
    rw [this, List.map_append, st.toks]
    congr 1
    exact List.map_congr_left fun x hx => (st.frame x (out x hx)).2
  by_cases he : DeclEnd fin R
  · -- the run stops at once
    have : w' = ⟨h₂, []⟩ := by
      cases l₂ with
      | nil => exact run.end_.1
      | cons z l₂ =>
        rcases he with rfl | ⟨rfl, t, ht, hk⟩
        · cases b3
        · rw [← b3, List.map_cons, List.head?_cons, Option.some.injEq] at ht
          subst ht
          have kz : h₂.kind (some z) = .newLine := (congrArg Prod.fst (st.frame z (out2 z (by simp))).2).trans hk
          exact (run.stop (w1 := ⟨h₂, []⟩) (s1 := (true, true)) (by simp [generalBody, nlSet_contain, kz])).1
    subst this
    have := f'.det f₂
    rw [this]
    refine ⟨R, ?_, fun _ => rfl⟩
    have e1 : a :: (pre ++ (m' ++ l₂)) = a :: (pre ++ m') ++ l₂ := by simp
    rw [e1, List.map_append, tks, ← b3]
    congr 1
    exact List.map_congr_left fun x hx => (st.frame x (out2 x hx)).2
  · suffices hs : ∃ rest', (a :: l').map (kt w'.heap) = (a :: pre).map (kt h) ++ ts' ++ rest' by
      obtain ⟨rest', e⟩ := hs
      exact ⟨rest', e, fun hh => absurd hh he⟩
    -- keep everything up to the last node before the rest
    obtain ⟨k, x, hk⟩ : ∃ k x, a :: (pre ++ m') = k ++ [x] := by
      rcases List.eq_nil_or_concat (a :: (pre ++ m')) with hh | ⟨k, x, hh⟩
      · cases hh
      · exact ⟨k, x, by rw [hh, List.concat_eq_append]⟩
    have f₃ : Fwd h₂ (some a) (k ++ x :: l₂) := by
      have : a :: (pre ++ (m' ++ l₂)) = k ++ x :: l₂ := by
        have e1 : a :: (pre ++ (m' ++ l₂)) = a :: (pre ++ m') ++ l₂ := by simp
        rw [e1, hk]; simp
      rw [← this]; exact f₂
    have hx : h₂.next (some x) = l₂.head? := (Fwd.cons_iff.1 (f₃.drop k)).2.2.head
    have mem : ∀ z ∈ k ++ [x], z ∈ a :: (pre ++ (m ++ l₂)) := by
      intro z hz
      rw [← hk] at hz
      simp only [List.mem_cons, List.mem_append] at hz ⊢
      rcases hz with hz | hz | hz
      · exact .inl hz
      · exact .inr (.inl hz)
      · exact .inr (.inr (.inl (st.sub.mem hz)))
    have sx : c.S x := hS x (mem x (by simp))
    rw [← hx] at run
    obtain ⟨_, keep⟩ := run.keep o sx (hF x sx) g rfl (by
      intro q fq w' s y i sy fy
      have := hF x sx
      have ou := o.under (F := c.f q) (by omega) h₂
      exact generalBody_inv ou _ H_nil i (Nat.le_refl _) sy fy s (by show 8 * c.f q + 2 ≤ _; omega))
    have rk := fwd_rank g f₃
    have path : Path w'.heap (k ++ [x]) := by
      have p2 : Path h₂ (k ++ [x]) := by
        have : k ++ x :: l₂ = (k ++ [x]) ++ l₂ := by simp
        rw [this] at f₃
        exact f₃.path.left
      have key : ∀ (m : List Addr), Path h₂ m → (∀ z ∈ m, c.f x ≤ c.f z) → Path w'.heap m := by
        intro m
        induction m with
        | nil => intro _ _; trivial
        | cons u m ih =>
          intro p hr
          cases m with
          | nil => trivial
          | cons v m => exact ⟨(keep u (hr u (by simp))).2.2 v (hr v (by simp)) p.1, ih p.2 fun z hz => hr z (by simp only [List.mem_cons] at hz ⊢; exact .inr hz)⟩
      exact key _ p2 rk
    rw [← hk] at path rk
    obtain ⟨l3, e3⟩ := Fwd.path_front path f'
    refine ⟨l3.map (kt w'.heap), ?_⟩
    rw [e3, List.map_append, ← tks]
    congr 1
    exact List.map_congr_left fun z hz => by
      have := keep z (rk z hz)
      simp only [kt, this.1, this.2.1]

/-- The tokens of a function declaration after resetting. -/
theorem func_labels {h h' : Heap} {r : Ptr} (w : WF h) (ac : Acyclic h) {a b n : Addr} {l : List Addr}
    (ch : Chain h (a :: b :: n :: l)) (ka : h.kind (some a) = .func_) (kb : h.kind (some b) = .space)
    (kn : h.kind (some n) = .raw) {fin : Bool} {R ts ts' : List Token} (el : l.map (kt h) = ts) (S : Sig R fin false ts ts')
    (e : resetKind h (some a) = some (h', r)) {l' : List Addr} (ch' : Chain h' (a :: l')) :
    ∃ rest', (a :: l').map (kt h') = kt h a :: kt h b :: (.funcName, h.text (some n)) :: (ts' ++ rest') ∧ (DeclEnd fin R → rest' = R) := by
  obtain ⟨d, w1, r1, hd, run, rfl⟩ := func_runs ch ka kb kn e
  have f := ch.fwd
  have fn : Fwd h (some n) (n :: l) := Fwd.drop [a, b] (l₂ := n :: l) f
  have o := ok_true ac ch
  have g := good_start w ac ch (X := fun _ => True) trivial
  have hF : ∀ x, (rctx h ac (a :: b :: n :: l) fun _ => True).S x →
      (rctx h ac (a :: b :: n :: l) fun _ => True).f x ≤ (rctx h ac (a :: b :: n :: l) fun _ => True).F :=
    fun x hx => Nat.le_of_lt (behind_lt ac (ch.1 x hx))
  have hd2 : 8 * (rctx h ac (a :: b :: n :: l) fun _ => True).F + 2 ≤ d + 3 := by show 8 * h.size + 2 ≤ _; omega
  have sd := name_sig o hF rfl hd2 w fn g (fun x hx => List.mem_cons_of_mem a (List.mem_cons_of_mem b hx)) kn el S run
  obtain ⟨rest', h1, h2⟩ := sd.front (pre := [b]) (l := n :: l) o hF hd2 f (fun x hx => hx) ch'.fwd
  exact ⟨rest', by simpa using h1, h2⟩

/-- The tokens of a method declaration after resetting. -/
theorem method_labels {h h' : Heap} {r : Ptr} (w : WF h) (ac : Acyclic h) {a b p q s n : Addr} {mid l : List Addr}
    (ch : Chain h (a :: b :: p :: (mid ++ q :: s :: n :: l))) (ka : h.kind (some a) = .func_) (kb : h.kind (some b) = .space)
    (kp : h.kind (some p) = .parenL) (kq : h.kind (some q) = .parenR) (ks : h.kind (some s) = .space)
    (kn : h.kind (some n) = .raw) (hc : ¬ CalledAtOnce (kindsOf h (a :: b :: p :: (mid ++ q :: s :: n :: l))))
    {fin : Bool} {ps ps' R ts ts' : List Token} (em : mid.map (kt h) = ps) (P : Params .methodReceiverName .methodReceiverType ps ps')
    (el : l.map (kt h) = ts) (S : Sig R fin true ts ts')
    (e : resetKind h (some a) = some (h', r)) {l' : List Addr} (ch' : Chain h' (a :: l')) :
    ∃ rest', (a :: l').map (kt h') =
      kt h a :: kt h b :: kt h p :: (ps' ++ kt h q :: kt h s :: (.funcName, h.text (some n)) :: (ts' ++ rest')) ∧ (DeclEnd fin R → rest' = R) := by
  obtain ⟨h1, d, w1, r1, hd, rl, run, rfl⟩ := method_runs ch ka kb kp kq ks kn hc em P e
  have nd := ch.nodup
  simp only [List.nodup_cons, List.nodup_append, List.mem_cons, List.mem_append, not_or] at nd
  have hb : b ∉ mid := fun hh => nd.2.1.2.1 hh
  have ha : a ∉ mid := fun hh => nd.1.2.2.1 hh
  have hp : p ∉ mid := fun hh => nd.2.2.1.1 hh
  have hq : q ∉ mid := fun hh => nd.2.2.2.2.2 q hh q (.inl rfl) rfl
  have hs : s ∉ mid := fun hh => nd.2.2.2.2.2 s hh s (.inr (.inl rfl)) rfl
  have hn : n ∉ mid := fun hh => nd.2.2.2.2.2 n hh n (.inr (.inr (.inl rfl))) rfl
  have hl : ∀ x ∈ l, x ∉ mid := fun x hx hh => nd.2.2.2.2.2 x hh x (.inr (.inr (.inr hx))) rfl
  have w1' := wf_of_links w rl.next rl.prev
  have fwd1 : ∀ {p : Ptr} {k : List Addr}, Fwd h p k → Fwd h1 p k := fun f =>
    f.congr (fun x hx => by rw [rl.size]; exact f.lt x hx) (fun x _ => rl.next _)
  have ac1 : Acyclic h1 := fun x hx => by
    rw [rl.size] at hx
    obtain ⟨k, f⟩ := ac x hx
    exact ⟨k, fwd1 f⟩
  have ch1 : Chain h1 (a :: b :: p :: (mid ++ q :: s :: n :: l)) := by
    refine Fwd.chain w1' (fwd1 ch.fwd) ?_
    rw [rl.prev]; exact ch.2.1 a (by simp)
  have f1 : Fwd h1 (some a) (a :: ((b :: p :: (mid ++ [q, s])) ++ n :: l)) := by
    have := ch1.fwd
    simpa using this
  have o := ok_true ac1 ch1
  have g := good_start w1' ac1 ch1 (X := fun _ => True) trivial
  have hF : ∀ x, (rctx h1 ac1 (a :: b :: p :: (mid ++ q :: s :: n :: l)) fun _ => True).S x →
      (rctx h1 ac1 (a :: b :: p :: (mid ++ q :: s :: n :: l)) fun _ => True).f x ≤ (rctx h1 ac1 (a :: b :: p :: (mid ++ q :: s :: n :: l)) fun _ => True).F :=
    fun x hx => Nat.le_of_lt (behind_lt ac1 (ch1.1 x hx))
  have hd2 : 8 * (rctx h1 ac1 (a :: b :: p :: (mid ++ q :: s :: n :: l)) fun _ => True).F + 2 ≤ d + 3 := by
    show 8 * h1.size + 2 ≤ _
    rw [rl.size]; omega
  have mm : ∀ x, x ∈ a :: ((b :: p :: (mid ++ [q, s])) ++ n :: l) → x ∈ a :: b :: p :: (mid ++ q :: s :: n :: l) := by
    intro x hx; simpa using hx
  have sd := name_sig o hF rfl hd2 w1' (Fwd.drop (a :: b :: p :: (mid ++ [q, s])) f1) g (fun x hx => mm x (by simp at hx; rcases hx with rfl | hx <;> simp [*]))
    (by rw [← kn]; exact congrArg Prod.fst (rl.frame n hn)) (by
    rw [← el]
    exact rl.map hl) S run
  obtain ⟨rest', h3, h2⟩ := sd.front o hF hd2 f1 mm ch'.fwd
  refine ⟨rest', ?_, h2⟩
  have tn : h1.text (some n) = h.text (some n) := congrArg Prod.snd (rl.frame n hn)
  rw [h3]
  simp only [List.map_cons, List.map_append, List.map_nil, rl.toks, rl.frame a ha, rl.frame b hb, rl.frame p hp, rl.frame q hq, rl.frame s hs, tn]
  simp

end Goast
