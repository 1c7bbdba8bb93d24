import Verif.Model.Resetter
import Verif.Proofs.Frame

/-!
# Invariant of the resetters and rules for their loops
-/

set_option linter.unusedSimpArgs false
set_option linter.unusedVariables false

namespace Goast

/-- The kinds a resetter assigns. -/
def IsResetKind (k : Kind) : Prop :=
  k ∈ [Kind.funcName, .typeName, .paramName, .paramType, .methodReceiverName, .methodReceiverType]

instance (k : Kind) : Decidable (IsResetKind k) := by unfold IsResetKind; infer_instance

/-- The kinds a resetter changes one by one. -/
def Settable (k : Kind) : Prop := k = .raw ∨ IsResetKind k

instance (k : Kind) : Decidable (Settable k) := by unfold Settable; infer_instance

theorem Settable.nc {k : Kind} (h : Settable k) : k ≠ .comment := by
  rintro rfl; revert h; decide

/-- What is fixed during one run of a resetter: a rank that drops along every link, the nodes `S` of
the chain, the heap at the start, an upper bound `F` for the rank of every node a hook will see, an upper
bound `top` for the rank of the first node in `buf`,
whether `buf` is known to be non-empty, and a further property `X` of the heap carried along. -/
structure RCtx where
  f : Addr → Nat
  S : Addr → Prop
  h0 : Heap
  F : Nat
  top : Nat
  ne : Bool
  X : Heap → Prop

/-- Allocated nodes outside the chain. -/
def RCtx.R (c : RCtx) : Addr → Prop := fun a => a < c.h0.size ∧ ¬ c.S a

/-- `p` is nil or a node of the chain of rank at most `M`. -/
def RCtx.P (c : RCtx) (M : Nat) (p : Ptr) : Prop := ∀ a, p = some a → c.S a ∧ c.f a ≤ M

/-- The invariant on heaps. -/
structure Good (c : RCtx) (h : Heap) : Prop where
  wf : WF h
  size : h.size = c.h0.size
  rank : ∀ a b, h.next (some a) = some b → c.f b < c.f a
  closed : Closed h c.R
  same : SameOn c.R c.h0 h
  line : ∀ p, h.line p = c.h0.line p
  comm : ∀ p, h.kind p = .comment ↔ c.h0.kind p = .comment
  kinds : ∀ p, h.kind p = c.h0.kind p ∨ IsResetKind (h.kind p)
  x : c.X h

/-- The invariant on worlds. -/
structure Inv (c : RCtx) (w : World) : Prop where
  good : Good c w.heap
  buf : ∀ p ps, w.buf = p :: ps → ∃ a, p = some a ∧ (c.S a ∧ c.f a ≤ c.top) ∧ w.heap.kind (some a) ≠ .comment ∧ c.F ≤ c.f a ∧
    ∀ q ∈ ps, c.P (c.f a) q
  ne : c.ne = true → w.buf ≠ []

/-- Consecutive nodes, linked by `Next`. -/
def Path (h : Heap) : List Addr → Prop
  | [] => True
  | [_] => True
  | a :: b :: l => h.next (some a) = some b ∧ Path h (b :: l)

/-- The non-comment nodes of a list. -/
def nonComments (h : Heap) (l : List Addr) : List Addr :=
  l.filter fun a => decide (h.kind (some a) ≠ .comment)

/-- What the fixed data of a run must satisfy. -/
structure RCtx.OK (c : RCtx) : Prop where
  lt : ∀ a, c.S a → a < c.h0.size
  bound : ∀ a, c.S a → c.f a < c.h0.size
  xKind : ∀ h a k, Good c h → c.S a → c.f a ≤ c.F → Settable (h.kind (some a)) → IsResetKind k → c.X (h.setKind (some a) k)
  xMerge : ∀ h n m h', Good c h → c.S n → c.f n ≤ c.F → h.kind (some n) ≠ .comment → Path h (n :: m) →
    deferCombine h (some n :: (nonComments h m).map some) .paramType = some h' → c.X h'

/-- The hooks a run may carry. -/
def RCtx.H (c : RCtx) (hooks : List Hook) : Prop := Hook.appendBuf ∈ hooks → c.ne = true

variable {c : RCtx}

theorem RCtx.P.mono {M M' : Nat} {p : Ptr} (h : c.P M p) (hm : M ≤ M') : c.P M' p :=
  fun a ha => ⟨(h a ha).1, Nat.le_trans (h a ha).2 hm⟩

theorem RCtx.P.none {M : Nat} : c.P M none := fun a ha => by cases ha

theorem RCtx.P.some {M : Nat} {a : Addr} (h1 : c.S a) (h2 : c.f a ≤ M) : c.P M (some a) :=
  fun b hb => by cases hb; exact ⟨h1, h2⟩

theorem RCtx.P.out {M : Nat} {p : Ptr} (h : c.P M p) : Heap.Out c.R p :=
  fun a ra hh => ra.2 (h a hh).1

namespace Good

theorem lt (o : c.OK) {h : Heap} (g : Good c h) {a : Addr} (s : c.S a) : a < h.size := by
  rw [g.size]; exact o.lt a s

theorem valid (o : c.OK) {h : Heap} (g : Good c h) {M : Nat} {p : Ptr} (hp : c.P M p) : Valid h p :=
  fun a ha => g.lt o (hp a ha).1

theorem next_S (o : c.OK) {h : Heap} (g : Good c h) {a b : Addr} (s : c.S a) (e : h.next (some a) = some b) :
    c.S b := by
  rcases Classical.em (c.S b) with hb | hb
  · exact hb
  · have lb : b < c.h0.size := by rw [← g.size]; exact g.wf.valid_next _ _ e
    exact absurd s (g.closed.prev b a ⟨lb, hb⟩ ((g.wf.inverse a b).1 e)).2

/-- The successor of a node of rank at most `M` has a smaller rank. -/
theorem next_lt (o : c.OK) {h : Heap} (g : Good c h) {a : Addr} (s : c.S a) :
    ∀ b, h.next (some a) = some b → c.S b ∧ c.f b < c.f a :=
  fun b e => ⟨g.next_S o s e, g.rank a b e⟩

theorem next_P (o : c.OK) {h : Heap} (g : Good c h) {M : Nat} {p : Ptr} (hp : c.P M p) : c.P M (h.next p) := by
  intro b e
  rcases p with _ | a
  · cases e
  · have := g.next_lt o (hp a rfl).1 b e
    exact ⟨this.1, by have := (hp a rfl).2; omega⟩

theorem setKind (o : c.OK) {h : Heap} (g : Good c h) {a : Addr} {k : Kind} (s : c.S a)
    (fa : c.f a ≤ c.F) (st : Settable (h.kind (some a))) (hk : IsResetKind k) : Good c (h.setKind (some a) k) := by
  have nc := st.nc
  have la := g.lt o s
  have kk := Heap.kind_setKind h a k
  have fr := Heap.frame_setKind (R := c.R) (h := h) (n := some a) (g.valid o (RCtx.P.some s (Nat.le_refl _)))
    (RCtx.P.some (M := c.f a) s (Nat.le_refl _)).out k
  refine ⟨Heap.wf_setKind g.wf _ _, by simp [g.size], by simpa using g.rank, fr.closed g.closed (by simp),
    g.same.trans fr, by simpa using g.line, ?_, ?_, o.xKind h a k g s fa st hk⟩
  · intro p
    rw [kk p la]
    split
    · rename_i e
      have : k ≠ .comment := by rintro rfl; simp [IsResetKind] at hk
      subst e
      have := g.comm (some a)
      simp_all
    · exact g.comm p
  · intro p
    rw [kk p la]
    split
    · exact .inr hk
    · exact g.kinds p

end Good

theorem Inv.heap {w : World} (i : Inv c w) {h' : Heap} (g : Good c h') : Inv c { w with heap := h' } where
  good := g
  ne := i.ne
  buf p ps e := by
    obtain ⟨a, h1, h2, h3, h4⟩ := i.buf p ps e
    refine ⟨a, h1, h2, ?_, h4⟩
    intro hh
    exact h3 ((i.good.comm _).2 ((g.comm _).1 hh))

theorem Inv.setKind (o : c.OK) {w : World} (i : Inv c w) {a : Addr} {k : Kind} (s : c.S a)
    (fa : c.f a ≤ c.F) (st : Settable (w.heap.kind (some a))) (hk : IsResetKind k) :
    Inv c { w with heap := w.heap.setKind (some a) k } :=
  i.heap (i.good.setKind o s fa st hk)

theorem appendUnrepeatable_one {α : Type} [DecidableEq α] (l : List α) (e : α) :
    appendUnrepeatable l [e] = l ∨ appendUnrepeatable l [e] = l ++ [e] := by
  unfold appendUnrepeatable
  cases h : l.getLast? with
  | none => right; simp_all
  | some x => simp only; split <;> simp

theorem Inv.append (o : c.OK) {w : World} (i : Inv c w) (hne : w.buf ≠ []) {p : Ptr} (hp : c.P c.F p) :
    Inv c { w with buf := appendUnrepeatable w.buf [p] } := by
  rcases appendUnrepeatable_one w.buf p with e | e
  · rw [e]; exact i
  · rw [e]
    refine ⟨i.good, ?_, fun _ => by simp⟩
    intro q qs hq
    cases hb : w.buf with
    | nil => exact absurd hb hne
    | cons r rs =>
      simp only [hb, List.cons_append, List.cons.injEq] at hq
      obtain ⟨rfl, rfl⟩ := hq
      obtain ⟨a, h1, h2, h3, h4, h5⟩ := i.buf r rs hb
      refine ⟨a, h1, h2, h3, h4, ?_⟩
      intro q hq
      rcases List.mem_append.1 hq with hq | hq
      · exact h5 q hq
      · simp only [List.mem_singleton] at hq
        subst hq; exact hp.mono h4

/-- Hooks keep the invariant. -/
theorem Inv.hook (o : c.OK) {p : Ptr} (hp : c.P c.F p) (hooks : List Hook) (hh : c.H hooks) :
    ∀ {w : World}, Inv c w → Inv c (handleHook w p hooks) := by
  induction hooks with
  | nil => intro w i; exact i
  | cons k ks ih =>
    intro w i
    have hks : c.H ks := fun e => hh (by simp [e])
    simp only [handleHook, List.foldl_cons]
    refine ih hks ?_
    cases k with
    | appendBuf => exact i.append o (i.ne (hh (by simp))) hp
    | rawToParamType =>
      simp only [runHook]
      split
      · rename_i hr
        rcases p with _ | a
        · simp [Heap.kind] at hr
        · exact i.setKind o (hp a rfl).1 (hp a rfl).2 (by rw [hr]; decide) (by decide)
      · exact i

/-! ## Loop rules -/

/-- Total correctness of the `for` loop behind `IterNext`, by a rank. -/
theorem loop_rule {ω : Type} (I : ω → Ptr → Prop) (Q : ω → Ptr → Prop) (iter : ω → Addr → Ptr)
    (fn : ω → Addr → Option (ω × Bool)) (rank : Addr → Nat) (hnone : ∀ w, I w none → Q w none)
    (hstep : ∀ w a, I w (some a) → ∃ w' b, fn w a = some (w', b) ∧ (b = false → Q w' (some a)) ∧
      (b = true → I w' (iter w' a) ∧ ∀ a', iter w' a = some a' → rank a' < rank a)) :
    ∀ fuel w p, I w p → (∀ a, p = some a → rank a < fuel) →
      ∃ w' r, loop iter fn fuel w p = some (w', r) ∧ Q w' r := by
  intro fuel
  induction fuel with
  | zero =>
    intro w p hi hr
    cases p with
    | none => exact ⟨w, none, rfl, hnone w hi⟩
    | some a => have := hr a rfl; omega
  | succ fuel ih =>
    intro w p hi hr
    cases p with
    | none => exact ⟨w, none, rfl, hnone w hi⟩
    | some a =>
      obtain ⟨w', b, e, h1, h2⟩ := hstep w a hi
      cases b with
      | false => exact ⟨w', some a, by simp [loop, e], h1 rfl⟩
      | true =>
        obtain ⟨h3, h4⟩ := h2 rfl
        obtain ⟨w'', r, e', hq⟩ := ih w' _ h3 (fun a' ha' => by have := h4 a' ha'; have := hr a rfl; omega)
        exact ⟨w'', r, by simp [loop, e, e'], hq⟩

/-- `iterW` with a callback that keeps the invariant. -/
theorem iterW_rule (o : c.OK) {σ : Type} (fn : World × σ → Addr → Option ((World × σ) × Bool)) {M : Nat}
    (hstep : ∀ w s a, Inv c w → c.S a → c.f a ≤ M → ∃ w' s' b, fn (w, s) a = some ((w', s'), b) ∧ Inv c w')
    {w : World} (i : Inv c w) (s : σ) {p : Ptr} (hp : c.P M p) :
    ∃ w' s' r, iterW fn w s p = some ((w', s'), r) ∧ Inv c w' ∧ c.P M r := by
  have := loop_rule (fun (ws : World × σ) p => Inv c ws.1 ∧ c.P M p) (fun ws p => Inv c ws.1 ∧ c.P M p)
    (fun ws a => ws.1.heap.next (some a)) fn c.f (fun _ h => h) ?_ (w.heap.size + 1) (w, s) p ⟨i, hp⟩ ?_
  · obtain ⟨⟨w', s'⟩, r, e, h1, h2⟩ := this
    exact ⟨w', s', r, e, h1, h2⟩
  · rintro ⟨w, s⟩ a ⟨i, hp⟩
    obtain ⟨w', s', b, e, i'⟩ := hstep w s a i (hp a rfl).1 (hp a rfl).2
    refine ⟨(w', s'), b, e, fun _ => ⟨i', hp⟩, fun _ => ⟨⟨i', ?_⟩, ?_⟩⟩
    · exact i'.good.next_P o hp
    · exact fun a' ha' => (i'.good.next_lt o (hp a rfl).1 a' ha').2
  · intro a ha
    have := o.bound a (hp a ha).1
    rw [i.good.size]; omega

/-- The loop of `jumpLoop`, from any fuel and any captured state. -/
theorem jump_rule (o : c.OK) {σ : Type} (consume : Bool) (hooks : List Hook) (hh : c.H hooks)
    (body : World → σ → Addr → Option (World × σ × Ctl)) {M : Nat} (hM : M ≤ c.F)
    (hbody : ∀ w s a, Inv c w → c.S a → c.f a ≤ M → ∃ w' s' ctl, body w s a = some (w', s', ctl) ∧ Inv c w')
    {w : World} (i : Inv c w) (j : JState σ) {p : Ptr} (hp : c.P M p) {fuel : Nat}
    (hf : ∀ a, p = some a → c.f a < fuel) :
    ∃ w' j' r, loop (fun ws a => ws.1.heap.next (some a)) (jumpStep consume hooks body) fuel (w, j) p
      = some ((w', j'), r) ∧ Inv c w' ∧ c.P M r := by
  have := loop_rule (fun (ws : World × JState σ) p => Inv c ws.1 ∧ c.P M p) (fun ws p => Inv c ws.1 ∧ c.P M p)
    (fun ws a => ws.1.heap.next (some a)) (jumpStep consume hooks body) c.f (fun _ h => h) ?_ fuel (w, j) p ⟨i, hp⟩ hf
  · obtain ⟨⟨w', s'⟩, r, e, h1, h2⟩ := this
    exact ⟨w', s', r, e, h1, h2⟩
  · rintro ⟨w, j⟩ a ⟨i, hp⟩
    have hi : Inv c (handleHook w (some a) hooks) := i.hook o (hp.mono hM) hooks hh
    have fin : ∀ (w' : World) (j' : JState σ) (b : Bool), Inv c w' →
        jumpStep consume hooks body (w, j) a = some ((w', j'), b) →
        ∃ (ws' : World × JState σ) (b : Bool), jumpStep consume hooks body (w, j) a = some (ws', b) ∧
          (b = false → Inv c ws'.1 ∧ c.P M (some a)) ∧
          (b = true → (Inv c ws'.1 ∧ c.P M (ws'.1.heap.next (some a))) ∧
            ∀ a', ws'.1.heap.next (some a) = some a' → c.f a' < c.f a) := by
      intro w' j' b i' e
      exact ⟨(w', j'), b, e, fun _ => ⟨i', hp⟩, fun _ => ⟨⟨i', i'.good.next_P o hp⟩,
        fun a' ha' => (i'.good.next_lt o (hp a rfl).1 a' ha').2⟩⟩
    by_cases c1 : j.skipAll
    · exact fin _ j true hi (by simp [jumpStep, c1])
    · by_cases c2 : j.jumpTo ≠ none ∧ j.jumpTo ≠ some a
      · exact fin _ j true hi (by simp only [jumpStep]; rw [if_neg c1, if_pos c2])
      · by_cases c3 : j.jumpTo ≠ none ∧ consume = true
        · exact fin _ _ true hi (by simp only [jumpStep]; rw [if_neg c1, if_neg c2, if_pos c3])
        · obtain ⟨w', s', ctl, e, i'⟩ := hbody _ j.s a hi (hp a rfl).1 (hp a rfl).2
          have key : jumpStep consume hooks body (w, j) a = some (applyCtl w' s' ctl) := by
            simp only [jumpStep]; rw [if_neg c1, if_neg c2, if_neg c3]; simp only [e]
          cases ctl with
          | stop => exact fin w' _ _ i' key
          | cont => exact fin w' _ _ i' key
          | jump p => exact fin w' _ _ i' key

theorem jumpLoop_rule (o : c.OK) {σ : Type} (consume : Bool) (hooks : List Hook) (hh : c.H hooks)
    (body : World → σ → Addr → Option (World × σ × Ctl)) {M : Nat} (hM : M ≤ c.F)
    (hbody : ∀ w s a, Inv c w → c.S a → c.f a ≤ M → ∃ w' s' ctl, body w s a = some (w', s', ctl) ∧ Inv c w')
    {w : World} (i : Inv c w) (s : σ) {p : Ptr} (hp : c.P M p) :
    ∃ w' r, jumpLoop consume hooks body w s p = some (w', r) ∧ Inv c w' ∧ c.P M r := by
  obtain ⟨w', j', r, e, h1, h2⟩ := jump_rule o consume hooks hh body hM hbody i ⟨false, none, s⟩ hp
    (fuel := w.heap.size + 1) (fun a ha => by
      have := o.bound a (hp a ha).1
      rw [i.good.size]; omega)
  exact ⟨w', r, by simp [jumpLoop, iterW, e], h1, h2⟩

/-! ## Merging -/

theorem deferCombine_some {h : Heap} {a : Addr} {rest : List Ptr} {k : Kind} :
    ∃ t, deferCombine h (some a :: rest) k =
      some (((((h.setKind (some a) k).isolateAll (Heap.realNodes (some a) rest)).setText (some a) t).replaceNext
        (some a) (h.next ((some a :: rest).getLast (by simp)))).1) := by
  unfold deferCombine
  have : ∃ h1, h.combineNext (some a) k rest = some (h1, some a) ∧ ∃ t, h1 =
      ((h.setKind (some a) k).isolateAll (Heap.realNodes (some a) rest)).setText (some a) t := by
    rcases rest with _ | ⟨m, ms⟩
    · refine ⟨h.setKind (some a) k, rfl, ?_⟩
      obtain ⟨ns, t, h1, h2, h3⟩ := Heap.combineNext_some (h := h) (n := some a) (k := k) (ms := []) rfl
      have : ns = [] := List.eq_nil_iff_forall_not_mem.2 fun m hm => by simpa using h1 m hm
      subst this
      exact ⟨t, h2⟩
    · exact ⟨_, rfl, _, by rw [Heap.combineLoop_eq]⟩
  obtain ⟨h1, e1, t, e2⟩ := this
  exact ⟨t, by simp only [e1, e2]⟩

theorem Good.merge (o : c.OK) {h : Heap} (g : Good c h) {a : Addr} {rest : List Ptr} (s : c.S a)
    (nc : h.kind (some a) ≠ .comment) (hr : ∀ q ∈ rest, c.P (c.f a) q) :
    ∃ h', deferCombine h (some a :: rest) .paramType = some h' ∧ (c.X h' → Good c h') := by
  obtain ⟨t, e⟩ := deferCombine_some (h := h) (a := a) (rest := rest) (k := .paramType)
  refine ⟨_, e, ?_⟩
  intro hx
  have pa : c.P (c.f a) (some a) := .some s (Nat.le_refl _)
  have la := g.lt o s
  -- the new successor
  have hlast : c.P (c.f a) ((some a :: rest).getLast (by simp)) := by
    have := List.getLast_mem (l := some a :: rest) (by simp)
    rcases List.mem_cons.1 this with h1 | h1
    · rw [h1]; exact pa
    · exact hr _ h1
  have hnx : ∀ b, h.next ((some a :: rest).getLast (by simp)) = some b → c.S b ∧ c.f b < c.f a := by
    intro b eb
    cases hl : (some a :: rest).getLast (by simp) with
    | none => rw [hl] at eb; cases eb
    | some l =>
      rw [hl] at eb hlast
      have := g.next_lt o (hlast l rfl).1 b eb
      have := (hlast l rfl).2
      exact ⟨by simp_all, by omega⟩
  generalize h.next ((some a :: rest).getLast (by simp)) = nx at *
  -- setKind
  have fr1 := Heap.frame_setKind (R := c.R) (h := h) (n := some a) (g.valid o pa) pa.out .paramType
  have w1 := Heap.wf_setKind g.wf (some a) .paramType
  have c1 := fr1.closed g.closed (by simp)
  -- isolate
  have hreal : ∀ m ∈ Heap.realNodes (some a) rest, c.P (c.f a) m := fun m hm => hr m (List.mem_filter.1 hm).1
  have hne : ∀ m ∈ Heap.realNodes (some a) rest, m ≠ none := by
    intro m hm
    have := (List.mem_filter.1 hm).2
    simp at this; exact this.1
  have v1 : ∀ m ∈ Heap.realNodes (some a) rest, Valid (h.setKind (some a) .paramType) m :=
    fun m hm => Heap.valid_setKind.2 (g.valid o (hreal m hm))
  have fr2 := Heap.frame_isolateAll (R := c.R) _ w1 c1 v1 (fun m hm => (hreal m hm).out)
  have w2 := Heap.wf_isolateAll _ w1 v1
  have sd2 := Heap.sameData_isolateAll (Heap.realNodes (some a) rest) (h.setKind (some a) .paramType)
  have l2 := Heap.isolateAll_links _ w1 v1 hne
  have c2 := fr2.closed c1 (by rw [sd2.1]; exact Nat.le_refl _)
  -- setText
  generalize hh2 : (h.setKind (some a) .paramType).isolateAll (Heap.realNodes (some a) rest) = h2 at *
  have s2 : h2.size = c.h0.size := by rw [sd2.1, Heap.size_setKind, g.size]
  have rk2 : ∀ x y, h2.next (some x) = some y → c.f y < c.f x := by
    intro x y e
    rw [(l2 x).1] at e
    split at e
    · cases e
    · exact g.rank x y (by simpa using e)
  have va2 : Valid h2 (some a) := by intro b hb; cases hb; rw [s2, ← g.size]; exact la
  have fr3 := Heap.frame_setText (R := c.R) va2 pa.out t
  have w3 := Heap.wf_setText w2 (some a) t
  have c3 := fr3.closed c2 (by simp)
  have va3 : Valid (h2.setText (some a) t) (some a) := by intro b hb; rw [Heap.size_setText]; exact va2 b hb
  have vn3 : Valid (h2.setText (some a) t) nx := by
    intro b hb; rw [Heap.size_setText, s2]; exact o.lt b (hnx b hb).1
  have onx : Heap.Out c.R nx := fun b rb hb => rb.2 (hnx b hb).1
  have fr4 := Heap.frame_replaceNext (R := c.R) w3 c3 va3 vn3 pa.out onx
  have w4 := Heap.wf_replaceNext w3 va3 vn3
  have sd4 := Heap.sameData_replaceNext (h2.setText (some a) t) (some a) nx
  have kk := Heap.kind_setKind h a .paramType
  refine ⟨w4, by rw [sd4.1, Heap.size_setText, s2], ?_, fr4.closed c3 (by rw [sd4.1]; exact Nat.le_refl _), ?_, ?_, ?_, ?_, hx⟩
  · intro x y e
    by_cases hc : some a = nx ∨ (h2.setText (some a) t).next (some a) = nx
    · rw [Heap.replaceNext, if_pos hc] at e
      exact rk2 x y (by simpa using e)
    · have e4 := Heap.replaceNext_links w3 va3 vn3 (fun hh => hc (.inl hh)) (fun hh => hc (.inr hh)) x
      rw [e4.1] at e
      split at e
      · rename_i hxa; cases hxa; exact (hnx y e).2
      · split at e
        · cases e
        · exact rk2 x y (by simpa using e)
  · exact (((g.same.trans fr1).trans fr2).trans fr3).trans fr4
  · intro p
    rw [(sd4.2 p).1, Heap.line_setText, (sd2.2 p).1, Heap.line_setKind, g.line]
  · intro p
    rw [(sd4.2 p).2.1, Heap.kind_setText, (sd2.2 p).2.1, kk p la]
    split
    · rename_i e; subst e
      have := g.comm (some a)
      simp_all
    · exact g.comm p
  · intro p
    rw [(sd4.2 p).2.1, Heap.kind_setText, (sd2.2 p).2.1, kk p la]
    split
    · exact .inr (by decide)
    · exact g.kinds p

/-! ## Searches -/

theorem findNext_inv (o : c.OK) {w : World} (i : Inv c w) {M : Nat} (hM : M ≤ c.F) {p : Ptr} (hp : c.P M p)
    (target : List Kind) (opt : FindOpt) {hooks : List Hook} (hh : c.H hooks) :
    ∃ w' r, findNext w p target opt hooks = some (w', r) ∧ Inv c w' ∧ c.P M r := by
  obtain ⟨w', s', r, e, h1, h2⟩ := iterW_rule o (fun (ws : World × Counts) a =>
      let w := handleHook ws.1 (some a) hooks
      let k := w.heap.kind (some a)
      let c := ws.2.step k
      some ((w, c), findCont target opt c k)) (M := M) (by
    intro w s a i sa fa
    exact ⟨_, _, _, rfl, i.hook o (.some sa (Nat.le_trans fa hM)) hooks hh⟩) i {} hp
  exact ⟨w', r, by simp only [findNext, e, Option.map_some], h1, h2⟩

theorem skipNestNext_inv (o : c.OK) {w : World} (i : Inv c w) {M : Nat} (hM : M ≤ c.F) {p : Ptr} (hp : c.P M p)
    (l r : Kind) {hooks : List Hook} (hh : c.H hooks) :
    ∃ w' q, skipNestNext w p l r hooks = some (w', q) ∧ Inv c w' ∧ c.P M q := by
  have h1 : ∃ w' q, (if w.heap.kind p = l then
      match findNext (handleHook w p hooks) p [l] {} hooks with
      | none => none
      | some (w, f) => some (w, w.heap.next f)
    else some (w, p)) = some (w', q) ∧ Inv c w' ∧ c.P M q := by
    split
    · obtain ⟨w', q, e, i', hq⟩ := findNext_inv o (i.hook o (hp.mono hM) hooks hh) hM hp [l] {} hh
      exact ⟨w', _, by simp only [e], i', i'.good.next_P o hq⟩
    · exact ⟨w, p, rfl, i, hp⟩
  obtain ⟨w1, p1, e1, i1, hp1⟩ := h1
  obtain ⟨w', s', q, e, h1, h2⟩ := iterW_rule o (fun (ws : World × Int) a =>
        let w := handleHook ws.1 (some a) hooks
        let k := w.heap.kind (some a)
        if k = l then some ((w, ws.2 + 1), true)
        else if k = r then some ((w, ws.2 - 1), decide (ws.2 - 1 ≠ 0))
        else some ((w, ws.2), true)) (M := M) (by
    intro w s a i sa fa
    have := i.hook o (.some sa (Nat.le_trans fa hM)) hooks hh
    simp only
    split
    · exact ⟨_, _, _, rfl, this⟩
    · split <;> exact ⟨_, _, _, rfl, this⟩) i1 1 hp1
  refine ⟨w', q, ?_, h1, h2⟩
  have e2 := congrArg (Option.map fun r : (World × Int) × Ptr => (r.1.1, r.2)) e
  unfold skipNestNext
  split
  · rename_i hn
    have hn := e1.symm.trans hn; cases hn
  · rename_i hn
    have hn := e1.symm.trans hn; cases hn
    exact e2

theorem validParamCount_inv (o : c.OK) {w : World} (i : Inv c w) {M : Nat} {p : Ptr} (hp : c.P M p) :
    ∃ n, validParamCount w p = some n := by
  obtain ⟨w', s', r, e, h1, h2⟩ := iterW_rule o (fun (ws : World × Nat) a =>
      match ws.1.heap.kind (some a) with
      | .comma | .parenR => some (ws, false)
      | .space | .tab | .comment | .newLine => some (ws, true)
      | _ => some ((ws.1, ws.2 + 1), true)) (M := M) (by
    intro w s a i sa fa
    split <;> exact ⟨_, _, _, rfl, i⟩) i 0 hp
  exact ⟨s', congrArg (Option.map fun r : (World × Nat) × Ptr => r.1.2) e⟩

theorem isTemporaryFunc_inv (o : c.OK) {w : World} (i : Inv c w) {M : Nat} (hM : M ≤ c.F) {p : Ptr} (hp : c.P M p) :
    ∃ b, isTemporaryFunc w p = some b := by
  obtain ⟨w', r, e, h1, h2⟩ := findNext_inv o i hM hp [.newLine, .curlyR]
      { isOutsideParenthesis := true, isOutsideCurlyBracket := true,
        isOutsideSquareBracket := true } (hooks := []) (by simp [RCtx.H])
  simp only [isTemporaryFunc, e]
  split <;> exact ⟨_, rfl⟩

theorem isThisLineFunction_inv (o : c.OK) {w : World} (i : Inv c w) {M : Nat} {p : Ptr} (hp : c.P M p) :
    ∃ b, isThisLineFunction w p = some b := by
  obtain ⟨w', s', r, e, h1, h2⟩ := iterW_rule o (fun (ws : World × Bool) a =>
      match ws.1.heap.kind (some a) with
      | .parenL => some ((ws.1, true), false)
      | .newLine => some (ws, false)
      | _ => some (ws, true)) (M := M) (by
    intro w s a i sa fa
    split <;> exact ⟨_, _, _, rfl, i⟩) i false hp
  exact ⟨s', congrArg (Option.map fun r : (World × Bool) × Ptr => r.1.2) e⟩

theorem getRowNameCount_inv (o : c.OK) {w : World} (i : Inv c w) {M : Nat} {p : Ptr} (hp : c.P M p) :
    ∃ b, getRowNameCount w p = some b := by
  obtain ⟨w', s', r, e, h1, h2⟩ := iterW_rule o (fun (ws : World × RowSt) a =>
      let r := ws.2.step (ws.1.heap.kind (some a))
      some ((ws.1, r.1), r.2)) (M := M) (by
    intro w s a i sa fa
    exact ⟨_, _, _, rfl, i⟩) i {} hp
  exact ⟨_, by simp only [getRowNameCount, e, Option.map_some]; rfl⟩

end Goast
