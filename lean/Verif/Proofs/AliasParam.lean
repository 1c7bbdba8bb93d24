import Verif.Proofs.AliasStruct

/-!
# Collecting an aliased type that contains no `(`
-/

set_option linter.unusedSimpArgs false
set_option linter.unusedVariables false

namespace Goast
open Heap

variable {c : RCtx}

/-- `buf` holds `a0` and, of the nodes linked from it up to `x`, all but comments. -/
def Cover (h : Heap) (a0 : Addr) (buf : List Ptr) (x : Addr) : Prop :=
  ∃ m rest, Path h (a0 :: m) ∧ buf = (a0 :: rest).map some ∧ rest.Sublist m ∧
    (∀ a ∈ m, a ∉ rest → h.kind (some a) = .comment) ∧ (a0 :: m).getLast? = some x

theorem Cover.start (h : Heap) (a0 : Addr) : Cover h a0 [some a0] a0 :=
  ⟨[], [], trivial, rfl, .refl _, by simp, rfl⟩

theorem path_last_le {h : Heap} (g : Good c h) : ∀ (m : List Addr) (n x : Addr), Path h (n :: m) → (n :: m).getLast? = some x →
    ∀ q ∈ n :: m, c.f x ≤ c.f q
  | [], n, x, _, hx, q, hq => by simp at hx hq; subst hx hq; exact Nat.le_refl _
  | b :: m, n, x, ⟨h1, h2⟩, hx, q, hq => by
    rw [List.getLast?_cons_cons] at hx
    have ih := path_last_le g m b x h2 hx
    rcases List.mem_cons.1 hq with rfl | hq
    · have := ih b (by simp); have := g.rank q b h1; omega
    · exact ih q hq

theorem path_S (o : c.OK) {h : Heap} (g : Good c h) : ∀ (m : List Addr) (n : Addr), c.S n → Path h (n :: m) → ∀ z ∈ n :: m, c.S z
  | [], n, sn, _, z, hz => by simp at hz; subst hz; exact sn
  | b :: m, n, sn, ⟨h1, h2⟩, z, hz => by
    rcases List.mem_cons.1 hz with rfl | hz
    · exact sn
    · exact path_S o g m b (g.next_S o sn h1) h2 z hz

theorem Cover.S (o : c.OK) {h : Heap} (g : Good c h) {a0 x : Addr} {buf : List Ptr} (cv : Cover h a0 buf x) (s : c.S a0) :
    c.S x ∧ c.f x ≤ c.f a0 := by
  obtain ⟨m, rest, p, rfl, sub, miss, hx⟩ := cv
  exact ⟨path_S o g m a0 s p x (List.mem_of_getLast? hx), path_last_le g m a0 x p hx a0 (by simp)⟩

/-- Every collected node has at least the rank of the last one. -/
theorem Cover.le {h : Heap} (g : Good c h) {a0 x : Addr} {buf : List Ptr} (cv : Cover h a0 buf x) :
    ∀ b, some b ∈ buf → c.f x ≤ c.f b := by
  obtain ⟨m, rest, p, rfl, sub, miss, hx⟩ := cv
  intro b hb
  simp only [List.map_cons, List.mem_cons, Option.some.injEq, List.mem_map, exists_eq_right] at hb
  refine path_last_le g m a0 x p hx b ?_
  rcases hb with rfl | hb
  · simp
  · exact List.mem_cons.2 (.inr (sub.mem hb))

theorem Cover.append {h : Heap} (g : Good c h) {a0 x b : Addr} {buf : List Ptr} (cv : Cover h a0 buf x) (n : h.next (some x) = some b) :
    Cover h a0 (appendUnrepeatable buf [some b]) b ∧ (appendUnrepeatable buf [some b]).getLast? = some (some b) := by
  have hle := cv.le g
  have hb := g.rank x b n
  have ea : appendUnrepeatable buf [some b] = buf ++ [some b] := by
    unfold appendUnrepeatable
    cases hl : buf.getLast? with
    | none => simp [List.getLast?_eq_none_iff.1 hl]
    | some y =>
      simp only
      rw [if_neg]
      rintro rfl
      have := hle b (List.mem_of_getLast? hl)
      omega
  rw [ea]
  refine ⟨?_, by simp⟩
  obtain ⟨m, rest, p, rfl, sub, miss, hx⟩ := cv
  refine ⟨m ++ [b], rest ++ [b], ?_, by simp, sub.append (.refl _), ?_, ?_⟩
  · refine path_snoc (a0 :: m) b p ?_
    intro z hz
    rw [hx] at hz; cases hz; exact n
  · intro z hz hn
    simp only [List.mem_append, List.mem_singleton, not_or] at hz hn
    rcases hz with hz | hz
    · exact miss z hz hn.1
    · exact absurd hz hn.2
  · rw [← List.cons_append, List.getLast?_concat]

theorem Cover.skip {h : Heap} {a0 x b : Addr} {buf : List Ptr} (cv : Cover h a0 buf x) (n : h.next (some x) = some b)
    (k : h.kind (some b) = .comment) : Cover h a0 buf b := by
  obtain ⟨m, rest, p, rfl, sub, miss, hx⟩ := cv
  refine ⟨m ++ [b], rest, ?_, rfl, sub.trans (List.sublist_append_left _ _), ?_, ?_⟩
  · refine path_snoc (a0 :: m) b p ?_
    intro z hz
    rw [hx] at hz; cases hz; exact n
  · intro z hz hn
    simp only [List.mem_append, List.mem_singleton] at hz
    rcases hz with hz | rfl
    · exact miss z hz hn
    · exact k
  · rw [← List.cons_append, List.getLast?_concat]

theorem append_again {buf : List Ptr} {p : Ptr} (h : buf.getLast? = some p) : appendUnrepeatable buf [p] = buf := by
  simp [appendUnrepeatable, h]

theorem path_keep {h h' : Heap} {F : Nat} (g : Good c h) (k : Keep c.f F h h') : ∀ (l : List Addr), (∀ q ∈ l, F < c.f q) → Path h l → Path h' l
  | [], _, _ => trivial
  | [_], _, _ => trivial
  | a :: b :: l, hq, ⟨h1, h2⟩ => ⟨(k a (hq a (by simp))).2.2 b (hq b (by simp)) h1,
      path_keep g k (b :: l) (fun q hq' => hq q (by simp only [List.mem_cons] at hq' ⊢; exact .inr hq')) h2⟩

theorem Cover.keep {h h' : Heap} (g : Good c h) {F : Nat} (k : Keep c.f F h h') {a0 x : Addr} {buf : List Ptr} (cv : Cover h a0 buf x)
    (hF : F < c.f x) : Cover h' a0 buf x := by
  obtain ⟨m, rest, p, rfl, sub, miss, hx⟩ := cv
  have hle := path_last_le g m a0 x p hx
  refine ⟨m, rest, path_keep g k _ (fun q hq => by have := hle q hq; omega) p, rfl, sub, ?_, hx⟩
  intro a ha hn
  rw [(k a (by have := hle a (by simp [ha]); omega)).1]
  exact miss a ha hn

/-! ## Bracket groups -/

theorem nest_cover {h : Heap} (g : Good c h) {L R : Kind} {a0 : Addr} (b0 : List Ptr) : ∀ (fuel : Nat) (w : World) (n : Int) (x : Addr)
    (p : Ptr) (ws' : World × Int) (r : Ptr),
    w.heap = h → Cover h a0 w.buf x → h.next (some x) = p →
    loop (fun ws a => ws.1.heap.next (some a)) (nestFn [.appendBuf] L R) fuel (w, n) p = some (ws', r) →
    ws'.1.heap = h ∧
    loop (fun ws a => ws.1.heap.next (some a)) (nestFn [] L R) fuel ((⟨h, b0⟩ : World), n) p = some ((⟨h, b0⟩, ws'.2), r) ∧
    ∃ y, Cover h a0 ws'.1.buf y ∧ ∀ t, r = some t → y = t ∧ h.kind (some t) = R ∧ ws'.1.buf.getLast? = some (some t) := by
  intro fuel
  induction fuel with
  | zero =>
    intro w n x p ws' r hw cv hx e
    cases p with
    | none => cases e; exact ⟨hw, rfl, x, cv, nofun⟩
    | some b => cases e
  | succ fuel ih =>
    intro w n x p ws' r hw cv hx e
    cases p with
    | none => cases e; exact ⟨hw, rfl, x, cv, nofun⟩
    | some b =>
      obtain ⟨cv', last⟩ := cv.append g hx
      subst hw
      simp only [loop] at e ⊢
      have f1 : nestFn [.appendBuf] L R (w, n) b = if w.heap.kind (some b) = L then
          some (({ w with buf := appendUnrepeatable w.buf [some b] }, n + 1), true)
        else if w.heap.kind (some b) = R then
          some (({ w with buf := appendUnrepeatable w.buf [some b] }, n - 1), decide (n - 1 ≠ 0))
        else some (({ w with buf := appendUnrepeatable w.buf [some b] }, n), true) := rfl
      have f2 : nestFn [] L R ((⟨w.heap, b0⟩ : World), n) b = if w.heap.kind (some b) = L then some ((⟨w.heap, b0⟩, n + 1), true)
        else if w.heap.kind (some b) = R then some ((⟨w.heap, b0⟩, n - 1), decide (n - 1 ≠ 0))
        else some ((⟨w.heap, b0⟩, n), true) := rfl
      rw [f1] at e
      rw [f2]
      by_cases h1 : w.heap.kind (some b) = L
      · rw [if_pos h1] at e ⊢
        exact ih { w with buf := appendUnrepeatable w.buf [some b] } _ b _ _ _ rfl cv' rfl e
      · rw [if_neg h1] at e ⊢
        by_cases h2 : w.heap.kind (some b) = R
        · rw [if_pos h2] at e ⊢
          by_cases h3 : n - 1 ≠ 0
          · rw [decide_eq_true h3] at e ⊢
            exact ih { w with buf := appendUnrepeatable w.buf [some b] } _ b _ _ _ rfl cv' rfl e
          · rw [decide_eq_false h3] at e ⊢
            cases e
            refine ⟨rfl, rfl, b, cv', ?_⟩
            intro t ht; cases ht
            exact ⟨rfl, h2, last⟩
        · rw [if_neg h2] at e ⊢
          exact ih { w with buf := appendUnrepeatable w.buf [some b] } _ b _ _ _ rfl cv' rfl e

theorem findNext_here {w : World} {a : Addr} {L : Kind} {hooks : List Hook} (hk : (handleHook w (some a) hooks).heap.kind (some a) = L) :
    findNext w (some a) [L] {} hooks = some (handleHook w (some a) hooks, some a) := by
  have : ∀ cs k, k = L → findCont [L] {} cs k = false := by
    intro cs k h
    subst h
    simp [findCont, CharSet.new, CharSet.contain]
  simp [findNext, iterW, loop, hk, this]

theorem skip_cover {h : Heap} (g : Good c h) {L R : Kind} {a0 x a : Addr} {buf b0 : List Ptr} {w' : World} {r : Ptr} (cv : Cover h a0 buf x)
    (hx : h.next (some x) = some a) (hk : h.kind (some a) = L)
    (e : skipNestNext ⟨h, buf⟩ (some a) L R [.appendBuf] = some (w', r)) :
    w'.heap = h ∧ skipNestNext ⟨h, b0⟩ (some a) L R [] = some (⟨h, b0⟩, r) ∧
    ∃ y, Cover h a0 w'.buf y ∧ ∀ t, r = some t → y = t ∧ h.kind (some t) = R ∧ w'.buf.getLast? = some (some t) := by
  obtain ⟨cv', last⟩ := cv.append g hx
  have hw : ∀ b : List Ptr, handleHook (⟨h, b⟩ : World) (some a) [.appendBuf] = ⟨h, appendUnrepeatable b [some a]⟩ := fun _ => rfl
  have hw0 : handleHook (⟨h, b0⟩ : World) (some a) [] = ⟨h, b0⟩ := rfl
  unfold skipNestNext at e ⊢
  rw [if_pos hk, hw, findNext_here (by rw [hw]; exact hk), hw, append_again last] at e
  rw [if_pos hk, hw0, findNext_here (by exact hk), hw0]
  obtain ⟨⟨ws', r'⟩, e1, e2⟩ := Option.map_eq_some_iff.1 e
  simp only [Prod.mk.injEq] at e2
  obtain ⟨rfl, rfl⟩ := e2
  obtain ⟨q1, q2, q3⟩ := nest_cover g (L := L) (R := R) b0 _ _ _ a _ _ _ rfl cv' rfl e1
  refine ⟨q1, ?_, q3⟩
  have q2 : iterW (nestFn [] L R) ⟨h, b0⟩ (1 : Int) (h.next (some a)) = some ((⟨h, b0⟩, ws'.2), r') := q2
  have e3 : (iterW (nestFn [] L R) ⟨h, b0⟩ (1 : Int) (h.next (some a))).map (fun r => (r.1.1, r.2)) = some (⟨h, b0⟩, r') := by
    rw [q2]; rfl
  exact e3

/-! ## The loop -/

/-- The context that also records what is kept above `F`, for a world with a `buf`. -/
def RCtx.over (c : RCtx) (F : Nat) (h1 : Heap) : RCtx :=
  { c with F, ne := false, X := fun h => c.X h ∧ Keep c.f F h1 h }

theorem Good.over {h h1 : Heap} (g : Good c h) (F : Nat) (a : Keep c.f F h1 h) : Good (c.over F h1) h :=
  ⟨g.1, g.2, g.3, g.4, g.5, g.6, g.7, g.8, g.9, a⟩

theorem Good.of_over {h h1 : Heap} {F : Nat} (g : Good (c.over F h1) h) : Good c h :=
  ⟨g.1, g.2, g.3, g.4, g.5, g.6, g.7, g.8, g.9.1⟩

theorem RCtx.OK.over (o : c.OK) {F : Nat} (hF : F ≤ c.F) (h1 : Heap) : (c.over F h1).OK where
  lt := o.lt
  bound := o.bound
  xKind h a k g s fa st hk := ⟨o.xKind h a k g.of_over s (Nat.le_trans fa hF) st hk,
    g.9.2.trans ((keep_setKind o g.of_over s k).mono fa)⟩
  xMerge h n m h' g s fa nc p e := ⟨o.xMerge h n m h' g.of_over s (Nat.le_trans fa hF) nc p e,
    g.9.2.trans ((keep_merge o g.of_over s (by
      intro q hq
      obtain ⟨b, hb, rfl⟩ := List.mem_map.1 hq
      have hb := (List.mem_filter.1 hb).1
      exact .some (path_S o g.of_over m n s p b (by simp [hb])) (Nat.le_of_lt (path_lt g.of_over m n p b hb))) e).mono fa)⟩

/-- A node that will be jumped to. -/
def JumpTo (c : RCtx) (h1 : Heap) (w : World) (p : Ptr) (x t : Addr) : Prop :=
  (w.heap = h1 ∧ x = t ∧ w.buf.getLast? = some (some t) ∧ (h1.kind (some t) = .curlyR ∨ h1.kind (some t) = .squareR) ∧
    OkAt c .alias (c.h0.next (some t))) ∨
  (c.h0.kind (some t) = .newLine ∧ Low c t c.h0 w.heap ∧ c.f t < c.f x ∧ OkAt c .typ (c.h0.next (some t))) ∨
  (∀ b, p = some b → c.f b < c.f t)

structure ParamI (c : RCtx) (M : Nat) (h1 : Heap) (a0 : Addr) (ws : World × JState Unit) (p : Ptr) : Prop where
  good : Good c ws.1.heap
  pos : c.P M p
  st : (ws = (⟨h1, []⟩, ⟨false, none, ()⟩) ∧ p = some a0) ∨
    ∃ x, Cover ws.1.heap a0 ws.1.buf x ∧
      (ws.2.skipAll = false → ws.2.jumpTo = none → ws.1.heap = h1 ∧ p = h1.next (some x) ∧ OkAt c .alias p) ∧
      (ws.2.skipAll = false → ∀ t, ws.2.jumpTo = some t → JumpTo c h1 ws.1 p x t)

/-- What the loop leaves. -/
def ParamQ (c : RCtx) (M : Nat) (a0 : Addr) (ws : World × JState Unit) (r : Ptr) : Prop :=
  Good c ws.1.heap ∧ c.P M r ∧ ∃ x, Cover ws.1.heap a0 ws.1.buf x ∧
    ∀ z, r = some z → Low c z c.h0 ws.1.heap ∧ c.f z < c.f x ∧ c.h0.kind (some z) = .newLine ∧ OkAt c .typ (c.h0.next (some z))

theorem Cover.shape {h : Heap} (o : c.OK) (g : Good c h) {a0 x : Addr} {buf : List Ptr} (cv : Cover h a0 buf x) (s : c.S a0) :
    ∃ ps, buf = some a0 :: ps ∧ ∀ q ∈ ps, c.P (c.f a0) q := by
  obtain ⟨m, rest, p, rfl, sub, miss, hx⟩ := cv
  refine ⟨rest.map some, rfl, ?_⟩
  intro q hq
  obtain ⟨b, hb, rfl⟩ := List.mem_map.1 hq
  have hb := sub.mem hb
  exact .some (path_S o g m a0 s p b (by simp [hb])) (Nat.le_of_lt (path_lt g m a0 p b hb))

theorem paramBody_auto (o : c.OK) (st0 : Start c) {M d : Nat} (hM : M ≤ c.F) (hT : M ≤ c.top) {w0 : World} {a0 : Addr} (i : Inv c w0)
    (sa0 : c.S a0) (fa0 : c.f a0 ≤ M) (nc : w0.heap.kind (some a0) ≠ .comment) (la0 : Low c a0 c.h0 w0.heap) {buf : List Ptr} {w' : World} {s' : Unit} {ctl : Ctl} {a x : Addr}
    (cv : Cover w0.heap a0 buf x) (hx : w0.heap.next (some x) = some a) (ok : OkAt c .alias (some a))
    (e : paramBody d ⟨w0.heap, buf⟩ () a = some (w', s', ctl)) :
    Good c w'.heap ∧ (ctl = .stop → w' = ⟨w0.heap, buf⟩ ∧ c.h0.kind (some a) = .newLine ∧ OkAt c .typ (c.h0.next (some a))) ∧
    (ctl = .cont → w'.heap = w0.heap ∧ Cover w0.heap a0 w'.buf a ∧ OkAt c .alias (c.h0.next (some a))) ∧
    (∀ p, ctl = .jump p → ∃ y, Cover w'.heap a0 w'.buf y ∧ ∀ t q, p = some t → (∀ b, q = some b → c.f b < c.f a) → JumpTo c w0.heap w' q y t) := by
  have g := i.good
  have sx := cv.S o g sa0
  have sa := g.next_lt o sx.1 a hx
  have la : Low c a c.h0 w0.heap := la0.mono (by omega)
  have kk : w0.heap.kind (some a) = c.h0.kind (some a) := la.kind sa.1
  have pa : c.P (c.f a) (some a) := .some sa.1 (Nat.le_refl _)
  obtain ⟨np, l, f, step⟩ := ok.step
  have bracket : ∀ (L R : Kind), L ≠ R → (R = .curlyR ∨ R = .squareR) → w0.heap.kind (some a) = L →
      TypeState.succ .alias L (kindsOf c.h0 l) = [.skip L R 1 .alias] →
      ∀ {w' : World} {p : Ptr}, skipNestNext ⟨w0.heap, buf⟩ (some a) L R [.appendBuf] = some (w', p) → 
      Good c w'.heap ∧ ∃ y, Cover w'.heap a0 w'.buf y ∧ ∀ t q, p = some t → (∀ b, q = some b → c.f b < c.f a) → JumpTo c w0.heap w' q y t := by
    intro L R hLR hR hk hs w' p e
    obtain ⟨q1, q2, y, q3, q4⟩ := skip_cover g (b0 := w0.buf) cv hx hk e
    have oks := step (.skip L R 1 .alias) (by rw [← kk, hk, hs]; simp)
    obtain ⟨_, q5⟩ := skip_auto o st0 hLR i sa.1 la hk oks q2
    refine ⟨by rw [q1]; exact g, y, by rw [q1]; exact q3, ?_⟩
    intro t q ht _
    obtain ⟨r1, r2, r3⟩ := q4 t ht
    exact .inl ⟨q1, r1, r3, by rw [r2]; exact hR, q5 t ht⟩
  unfold paramBody at e
  simp only at e
  split at e
  · rename_i hk
    cases e
    refine ⟨g, fun _ => ⟨rfl, kk ▸ hk, step .typ (by rw [← kk, hk]; simp [TypeState.succ])⟩, nofun, nofun⟩
  · rename_i hk
    exact absurd ⟨rfl, kk ▸ hk⟩ np
  · rename_i hk
    obtain ⟨p, e1, rfl, rfl⟩ := toJump_some e
    obtain ⟨g', b⟩ := bracket .curlyL .curlyR (by decide) (.inl rfl) hk rfl e1
    exact ⟨g', nofun, nofun, fun p hp => by cases hp; exact b⟩
  · rename_i hk
    obtain ⟨p, e1, rfl, rfl⟩ := toJump_some e
    obtain ⟨g', b⟩ := bracket .squareL .squareR (by decide) (.inr rfl) hk rfl e1
    exact ⟨g', nofun, nofun, fun p hp => by cases hp; exact b⟩
  · rename_i hk
    obtain ⟨p, e1, rfl, rfl⟩ := toJump_some e
    have fa : c.f a ≤ c.F := by omega
    obtain ⟨ps, hb, hps⟩ := cv.shape o g sa0
    have i1 : Inv (c.over (c.f a) w0.heap) ⟨w0.heap, buf⟩ := by
      refine ⟨g.over _ (.refl _ _ _), ?_, nofun⟩
      intro q qs hq
      simp only [hb, List.cons.injEq] at hq
      obtain ⟨rfl, rfl⟩ := hq
      exact ⟨a0, rfl, ⟨sa0, Nat.le_trans fa0 hT⟩, nc, by show c.f a ≤ c.f a0; omega, hps⟩
    have cf := (confs (o.over fa w0.heap) d).func (c.f a) _ _ (some a) [] _ _ (Nat.le_refl _) H_nil i1 pa e1
    have hbuf : w'.buf = buf := cf.buf (by simp)
    have kp : Keep c.f (c.f a) w0.heap w'.heap := cf.inv.good.9.2
    refine ⟨cf.inv.good.of_over, nofun, nofun, ?_⟩
    intro p' hp
    cases hp
    refine ⟨x, by rw [hbuf]; exact cv.keep g kp sa.2, ?_⟩
    intro t q ht hq
    subst ht
    have stt : c.S t := (cf.pos t rfl).1
    have ft : c.f t ≤ c.f a := (cf.pos t rfl).2
    by_cases lt : c.f t < c.f a
    · right; left
      have okl := step (.line .typ) (by rw [← kk, hk]; simp [TypeState.succ])
      have okt := okl.line st0.lin sa.1 stt lt
      have low : Low c t w0.heap w'.heap := cf.low t rfl
      have low0 : Low c t c.h0 w'.heap := (la.mono (by omega) : Low c t _ _).trans low
      have kt : c.h0.kind (some t) = .newLine := by rw [← low0.kind stt]; exact func_stop (w := ⟨w0.heap, buf⟩) hk e1
      exact ⟨kt, low0, by omega, okt.line_end kt⟩
    · right; right
      intro b hb
      have := hq b hb; omega
  · rename_i hk
    cases e
    refine ⟨g, nofun, fun _ => ⟨rfl, cv.skip hx hk, step .alias (by rw [← kk, hk]; simp [TypeState.succ])⟩, nofun⟩
  · rename_i h1 h2 h3 h4 h5 h6
    cases e
    refine ⟨g, nofun, fun _ => ⟨rfl, (cv.append g hx).1, step .alias ?_⟩, nofun⟩
    rw [← kk]
    cases hk : w0.heap.kind (some a) <;> first | (simp [TypeState.succ]; done) | contradiction

theorem paramLoop_auto (o : c.OK) (st0 : Start c) {M d : Nat} (hM : M ≤ c.F) (hT : M ≤ c.top) {w0 w' : World} {a0 : Addr} {r : Ptr} (i : Inv c w0)
    (sa0 : c.S a0) (fa0 : c.f a0 ≤ M) (ka0 : w0.heap.kind (some a0) = .raw) (la0 : Low c a0 c.h0 w0.heap) (ok0 : OkAt c .typ (some a0))
    (e : jumpLoop false [] (paramBody d) { w0 with buf := [] } () (some a0) = some (w', r)) :
    ∃ j, ParamQ c M a0 (w', j) r := by
  have g0 := i.good
  have nc : w0.heap.kind (some a0) ≠ .comment := by rw [ka0]; decide
  have oka : OkAt c .alias (c.h0.next (some a0)) := by
    obtain ⟨_, l, f, step⟩ := ok0.step
    exact step .alias (by rw [← la0.kind sa0, ka0]; simp [TypeState.succ])
  simp only [jumpLoop, iterW] at e
  obtain ⟨⟨⟨w2, j2⟩, r2⟩, e1, e2⟩ := Option.map_eq_some_iff.1 e
  simp only [Prod.mk.injEq] at e2
  obtain ⟨rfl, rfl⟩ := e2
  refine ⟨j2, loop_partial (ParamI c M w0.heap a0) (ParamQ c M a0) _ _ ?_ ?_ _ _ _ _ _
    (show ParamI c M w0.heap a0 (⟨w0.heap, []⟩, ⟨false, none, ()⟩) (some a0) from ⟨g0, .some sa0 fa0, .inl ⟨rfl, rfl⟩⟩) e1⟩
  · intro w i
    refine ⟨i.good, .none, ?_⟩
    rcases i.st with h | ⟨x, cv, _⟩
    · cases h.2
    · exact ⟨x, cv, nofun⟩
  · rintro ⟨w, j⟩ a ⟨w', j'⟩ b ii e
    have sa := (ii.pos a rfl).1
    have fa := (ii.pos a rfl).2
    have nxt : ∀ {w1 : World}, Good c w1.heap → c.P M (w1.heap.next (some a)) := fun i1 => i1.next_P o ii.pos
    simp only [jumpStep, handleHook, List.foldl_nil] at e
    rcases ii.st with ⟨h1, h2⟩ | ⟨x, cv, act, jmp⟩
    · -- the first node
      cases h1
      cases h2
      simp only [Bool.false_eq_true, if_false, ne_eq, not_true_eq_false, false_and] at e
      simp only [paramBody, ka0] at e
      cases e
      refine ⟨nofun, fun _ => ⟨g0, nxt (w1 := w0) g0, .inr ⟨a0, ?_, fun _ _ => ⟨rfl, rfl, ?_⟩, nofun⟩⟩⟩
      · exact Cover.start _ _
      · show OkAt c .alias (w0.heap.next (some a0))
        rw [la0.next sa0]; exact oka
    · have gw := ii.good
      by_cases c1 : j.skipAll = true
      · rw [if_pos c1] at e
        cases e
        refine ⟨nofun, fun _ => ⟨gw, nxt gw, .inr ⟨x, cv, fun h => ?_, fun h => ?_⟩⟩⟩
        · simp only at h; rw [h] at c1; cases c1
        · simp only at h; rw [h] at c1; cases c1
      · rw [if_neg c1] at e
        have c1 : j.skipAll = false := by simpa using c1
        by_cases c2 : j.jumpTo ≠ none ∧ j.jumpTo ≠ some a
        · rw [if_pos c2] at e
          cases e
          refine ⟨nofun, fun _ => ⟨gw, nxt gw, .inr ⟨x, cv, fun _ h => absurd h c2.1, ?_⟩⟩⟩
          intro _ t ht
          rcases jmp c1 t ht with h1 | h1 | h1
          · exact .inl h1
          · exact .inr (.inl h1)
          · right; right
            intro b hb
            have := (gw.next_lt o sa b hb).2
            have := h1 a rfl
            omega
        · rw [if_neg c2, if_neg (by simp)] at e
          cases hb : paramBody d w j.s a with
          | none => rw [hb] at e; cases e
          | some y =>
            obtain ⟨w1, s1, ctl⟩ := y
            rw [hb] at e
            cases hj : j.jumpTo with
            | none =>
              obtain ⟨hw, hp, ok⟩ := act c1 hj
              simp only at hw
              obtain ⟨wh, wb⟩ := w
              simp only at hw
              subst hw
              obtain ⟨q1, q2, q3, q4⟩ := paramBody_auto o st0 hM hT i sa0 fa0 nc la0 cv hp.symm ok hb
              have fax : c.f a < c.f x := gw.rank x a hp.symm
              have sx := cv.S o gw sa0
              cases ctl with
              | stop =>
                simp only [applyCtl] at e
                cases e
                obtain ⟨rfl, k1, ok1⟩ := q2 rfl
                refine ⟨fun _ => ⟨gw, ii.pos, x, cv, ?_⟩, nofun⟩
                intro z hz; cases hz
                exact ⟨la0.mono (by omega), fax, k1, ok1⟩
              | cont =>
                simp only [applyCtl] at e
                cases e
                obtain ⟨h1, h2, h3⟩ := q3 rfl
                refine ⟨nofun, fun _ => ⟨q1, nxt q1, .inr ⟨a, by rw [h1]; exact h2, fun _ _ => ⟨h1, by rw [h1], ?_⟩, nofun⟩⟩⟩
                show OkAt c .alias (w'.heap.next (some a))
                rw [h1, Low.next (a := a) (la0.mono (by omega)) sa]
                exact h3
              | jump q =>
                simp only [applyCtl] at e
                cases e
                obtain ⟨y, h1, h2⟩ := q4 q rfl
                refine ⟨nofun, fun _ => ⟨q1, nxt q1, .inr ⟨y, h1, ?_, ?_⟩⟩⟩
                · intro h1 h2
                  simp only at h1 h2
                  simp [h2] at h1
                · intro _ t ht
                  exact h2 t _ ht (fun b hb => (q1.next_lt o sa b hb).2)
            | some t =>
              have : t = a := by
                apply Classical.byContradiction
                intro hn
                exact c2 ⟨by simp [hj], by simpa [hj] using hn⟩
              subst this
              rcases jmp c1 t hj with ⟨h1, h2, h3, h4, h5⟩ | ⟨h1, h2, h3, h4⟩ | h1
              · simp only at h1 h3
                subst h2
                have : paramBody d w j.s x = some (w, (), .cont) := by
                  have e1 : appendUnrepeatable w.buf [some x] = w.buf := append_again h3
                  rw [← h1] at h4
                  unfold paramBody
                  rcases h4 with h4 | h4 <;> simp [h4, e1]
                rw [this] at hb
                cases hb
                simp only [applyCtl] at e
                cases e
                have sx := cv.S o gw sa0
                refine ⟨nofun, fun _ => ⟨gw, nxt gw, .inr ⟨x, cv, fun _ _ => ⟨h1, by rw [h1], ?_⟩, nofun⟩⟩⟩
                show OkAt c .alias (w.heap.next (some x))
                rw [h1, Low.next (a := x) (la0.mono (by omega)) sa]
                exact h5
              · have kt : w.heap.kind (some t) = .newLine := by rw [h2.kind sa]; exact h1
                have : paramBody d w j.s t = some (w, (), .stop) := by simp [paramBody, kt]
                rw [this] at hb
                cases hb
                simp only [applyCtl] at e
                cases e
                refine ⟨fun _ => ⟨gw, ii.pos, x, cv, ?_⟩, nofun⟩
                intro z hz; cases hz
                exact ⟨h2, h3, h1, h4⟩
              · have := h1 t rfl; omega

/-- Collecting an aliased type without `(`. -/
theorem paramRun_auto (o : c.OK) (st0 : Start c)
    (hx : ∀ (h : Heap) (n : Addr) (m rest : List Addr) (h' : Heap), Good c h → c.S n → h.kind (some n) ≠ .comment → Path h (n :: m) → rest.Sublist m →
      (∀ a ∈ m, a ∉ rest → h.kind (some a) = .comment) → deferCombine h (some n :: rest.map some) .paramType = some h' → c.X h')
    {M d : Nat} (hM : M ≤ c.F) (hT : M ≤ c.top) {w0 w' : World} {a0 : Addr} {r : Ptr} (i : Inv c w0)
    (sa0 : c.S a0) (fa0 : c.f a0 ≤ M) (ka0 : w0.heap.kind (some a0) = .raw) (la0 : Low c a0 c.h0 w0.heap) (ok0 : OkAt c .typ (some a0))
    (e : paramRun d w0 (some a0) = some (w', r)) :
    Inv c w' ∧ c.P M r ∧ ∀ z, r = some z → Low c z c.h0 w'.heap ∧ OkAt c .typ (c.h0.next (some z)) := by
  rw [paramRun_eq] at e
  split at e
  · cases e
  · rename_i w1 r1 e1
    obtain ⟨j, g, hp, x, cv, hz⟩ := paramLoop_auto o st0 hM hT i sa0 fa0 ka0 la0 ok0 e1
    simp only at g cv hz
    obtain ⟨ps, hb, hps⟩ := cv.shape o g sa0
    split at e
    · cases e
    · rename_i h' e2
      cases e
      have nc : w1.heap.kind (some a0) ≠ .comment := by
        rw [ne_eq, g.comm, ← i.good.comm, ka0]; decide
      have nn : ∀ q ∈ ps, q ≠ none := by
        obtain ⟨m, rest, p, hb', sub, miss, hx⟩ := cv
        rw [hb] at hb'
        simp only [List.map_cons, List.cons.injEq, true_and] at hb'
        rw [hb']
        intro q hq
        obtain ⟨b, _, rfl⟩ := List.mem_map.1 hq
        simp
      have hle := cv.le g
      rw [hb] at e2 hle
      have g' : Good c h' := by
        obtain ⟨h2, e3, g2⟩ := g.merge o sa0 nc hps
        rw [e2] at e3; cases e3
        refine g2 ?_
        obtain ⟨m, rest, p, hb', sub, miss, _⟩ := cv
        rw [hb] at hb'
        simp only [List.map_cons, List.cons.injEq, true_and] at hb'
        rw [hb'] at e2
        exact hx _ _ m rest _ g sa0 nc p sub miss e2
      refine ⟨i.heap g', hp, ?_⟩
      intro z h
      obtain ⟨l1, l2, l3, l4⟩ := hz z h
      refine ⟨l1.trans (below_merge o g sa0 hps ?_ ?_ nn e2), l4⟩
      · have := hle a0 (by simp); omega
      · intro b hb'
        have := hle b (by simp [hb']); omega

end Goast
