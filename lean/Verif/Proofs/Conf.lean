import Verif.Proofs.Keep

/-!
# What a resetter leaves alone behind its result

A resetter that returns the node `z` has changed neither `z` nor any node behind `z`.
-/

set_option linter.unusedSimpArgs false
set_option linter.unusedVariables false

namespace Goast
open Heap

variable {c : RCtx}

/-- The nodes of the chain of rank below `m` are unchanged (their `prev` aside). -/
def Below (c : RCtx) (m : Nat) (h1 h : Heap) : Prop :=
  ∀ x, c.S x → c.f x < m → h.next (some x) = h1.next (some x) ∧ h.kind (some x) = h1.kind (some x) ∧
    h.text (some x) = h1.text (some x)

/-- `z` and the nodes behind it are unchanged. -/
def Low (c : RCtx) (z : Addr) (h1 h : Heap) : Prop := Below c (c.f z + 1) h1 h

theorem Below.refl (m : Nat) (h : Heap) : Below c m h h := fun _ _ _ => ⟨rfl, rfl, rfl⟩

theorem Below.trans {m : Nat} {h1 h2 h3 : Heap} (a : Below c m h1 h2) (b : Below c m h2 h3) : Below c m h1 h3 :=
  fun x s l => ⟨(b x s l).1.trans (a x s l).1, (b x s l).2.1.trans (a x s l).2.1, (b x s l).2.2.trans (a x s l).2.2⟩

theorem Below.mono {m m' : Nat} {h1 h2 : Heap} (a : Below c m h1 h2) (hm : m' ≤ m) : Below c m' h1 h2 :=
  fun x s l => a x s (Nat.lt_of_lt_of_le l hm)

theorem Below.heap {m : Nat} {h1 h2 h3 : Heap} (a : Below c m h1 h2) (e : h3 = h2) : Below c m h1 h3 := e ▸ a

theorem below_setKind (o : c.OK) {h : Heap} (g : Good c h) {a : Addr} (s : c.S a) (k : Kind) :
    Below c (c.f a) h (h.setKind (some a) k) := by
  intro x _ hx
  refine ⟨by simp, ?_, by simp⟩
  rw [kind_setKind h a k (some x) (g.lt o s), if_neg]
  rintro hh; cases hh; omega

/-- Hooks touch only raw nodes. -/
theorem heap_handleHook (p : Ptr) (hooks : List Hook) : ∀ (w : World), w.heap.kind p ≠ .raw →
    (handleHook w p hooks).heap = w.heap := by
  induction hooks with
  | nil => intro w _; rfl
  | cons k ks ih =>
    intro w hq
    have hk : (runHook w p k).heap = w.heap := by
      cases k <;> simp only [runHook]
      rw [if_neg hq]
    simp only [handleHook, List.foldl_cons] at ih ⊢
    rw [ih _ (by rw [hk]; exact hq), hk]

/-- After the hooks a node is neither raw nor a parameter type: they did nothing. -/
theorem kind_handleHook_self (p : Ptr) (hooks : List Hook) (w : World)
    (h : (handleHook w p hooks).heap.kind p ≠ .paramType) : (handleHook w p hooks).heap.kind p = w.heap.kind p := by
  by_cases hr : w.heap.kind p = .raw
  · induction hooks generalizing w with
    | nil => rfl
    | cons k ks ih =>
      simp only [handleHook, List.foldl_cons] at ih h ⊢
      cases k with
      | appendBuf => exact ih _ h hr
      | rawToParamType =>
        exfalso
        apply h
        simp only [runHook, if_pos hr]
        rcases p with _ | a
        · cases hr
        · have la : a < w.heap.size := by
            apply Classical.byContradiction
            intro hn
            have : w.heap.cells[a]? = none := List.getElem?_eq_none (Nat.le_of_not_lt hn)
            simp [Heap.kind, this] at hr
          have k1 : (w.heap.setKind (some a) .paramType).kind (some a) = .paramType := by
            rw [kind_setKind _ _ _ _ la, if_pos rfl]
          have := kind_handleHook (some a) ks ⟨w.heap.setKind (some a) .paramType, w.buf⟩ (some a) (by rw [k1]; decide)
          rw [k1] at this
          exact this
  · rw [heap_handleHook p hooks w hr]

/-- After the hooks a node is no parameter type: they left the heap alone. -/
theorem heap_handleHook_of_ne (p : Ptr) (hooks : List Hook) (w : World)
    (h : (handleHook w p hooks).heap.kind p ≠ .paramType) : (handleHook w p hooks).heap = w.heap := by
  by_cases hr : w.heap.kind p = .raw
  · induction hooks generalizing w with
    | nil => rfl
    | cons k ks ih =>
      simp only [handleHook, List.foldl_cons] at ih h ⊢
      cases k with
      | appendBuf => exact ih _ h hr
      | rawToParamType =>
        exfalso
        apply h
        simp only [runHook, if_pos hr]
        rcases p with _ | a
        · cases hr
        · have la : a < w.heap.size := by
            apply Classical.byContradiction
            intro hn
            have : w.heap.cells[a]? = none := List.getElem?_eq_none (Nat.le_of_not_lt hn)
            simp [Heap.kind, this] at hr
          have k1 : (w.heap.setKind (some a) .paramType).kind (some a) = .paramType := by
            rw [kind_setKind _ _ _ _ la, if_pos rfl]
          have := kind_handleHook (some a) ks ⟨w.heap.setKind (some a) .paramType, w.buf⟩ (some a) (by rw [k1]; decide)
          rw [k1] at this
          exact this
  · rw [heap_handleHook p hooks w hr]

theorem below_hook (o : c.OK) (hooks : List Hook) {a : Addr} (s : c.S a) : ∀ {w : World}, Good c w.heap →
    Below c (c.f a) w.heap (handleHook w (some a) hooks).heap := by
  intro w g x _ hx
  have xa : x ≠ a := by rintro rfl; omega
  have la := g.lt o s
  clear hx
  have : ∀ (w : World), a < w.heap.size → (handleHook w (some a) hooks).heap.next (some x) = w.heap.next (some x) ∧
      (handleHook w (some a) hooks).heap.kind (some x) = w.heap.kind (some x) ∧
      (handleHook w (some a) hooks).heap.text (some x) = w.heap.text (some x) := by
    induction hooks with
    | nil => intro w _; exact ⟨rfl, rfl, rfl⟩
    | cons k ks ih =>
      intro w la
      simp only [handleHook, List.foldl_cons] at ih ⊢
      have hk : (runHook w (some a) k).heap.next (some x) = w.heap.next (some x) ∧
          (runHook w (some a) k).heap.kind (some x) = w.heap.kind (some x) ∧
          (runHook w (some a) k).heap.text (some x) = w.heap.text (some x) ∧ (runHook w (some a) k).heap.size = w.heap.size := by
        cases k <;> simp only [runHook]
        · exact ⟨trivial, trivial, trivial, trivial⟩
        · split
          · refine ⟨by simp, ?_, by simp, by simp⟩
            rw [kind_setKind _ _ _ _ la, if_neg (by simpa using xa)]
          · exact ⟨rfl, rfl, rfl, rfl⟩
      obtain ⟨i1, i2, i3⟩ := ih _ (by rw [hk.2.2.2]; exact la)
      exact ⟨i1.trans hk.1, i2.trans hk.2.1, i3.trans hk.2.2.1⟩
  exact this w la

theorem text_handleHook (p : Ptr) (hooks : List Hook) : ∀ (w : World) (q : Ptr),
    (handleHook w p hooks).heap.text q = w.heap.text q := by
  induction hooks with
  | nil => intro w q; rfl
  | cons k ks ih =>
    intro w q
    simp only [handleHook, List.foldl_cons] at ih ⊢
    rw [ih]
    cases k <;> simp only [runHook]
    split <;> simp

theorem kind_handleHook_other {a x : Addr} (hooks : List Hook) (xa : x ≠ a) : ∀ (w : World),
    (handleHook w (some a) hooks).heap.kind (some x) = w.heap.kind (some x) := by
  induction hooks with
  | nil => intro w; rfl
  | cons k ks ih =>
    intro w
    simp only [handleHook, List.foldl_cons] at ih ⊢
    rw [ih]
    cases k <;> simp only [runHook]
    split
    · rename_i hr
      have la : a < w.heap.size := by
        apply Classical.byContradiction
        intro hn
        have : w.heap.cells[a]? = none := List.getElem?_eq_none (Nat.le_of_not_lt hn)
        simp [Heap.kind, this] at hr
      rw [kind_setKind _ _ _ _ la, if_neg (by simpa using xa)]
    · rfl

theorem buf_handleHook (p : Ptr) (hooks : List Hook) (hh : Hook.appendBuf ∉ hooks) : ∀ (w : World),
    (handleHook w p hooks).buf = w.buf := by
  induction hooks with
  | nil => intro w; rfl
  | cons k ks ih =>
    intro w
    simp only [List.mem_cons, not_or] at hh
    simp only [handleHook, List.foldl_cons] at ih ⊢
    rw [ih hh.2]
    cases k with
    | appendBuf => exact absurd rfl hh.1
    | rawToParamType => simp only [runHook]; split <;> rfl

/-- A merge leaves everything behind the merged nodes alone. -/
theorem below_merge (o : c.OK) {h h' : Heap} (g : Good c h) {a : Addr} {rest : List Ptr} (s : c.S a)
    (hr : ∀ q ∈ rest, c.P (c.f a) q) {m : Nat} (ma : m ≤ c.f a) (hm : ∀ b, some b ∈ rest → m ≤ c.f b)
    (nn : ∀ q ∈ rest, q ≠ none) {k : Kind}
    (e : deferCombine h (some a :: rest) k = some h') : Below c m h h' := by
  obtain ⟨t, e'⟩ := deferCombine_some (h := h) (a := a) (rest := rest) (k := k)
  rw [e] at e'
  have e' := Option.some.inj e'
  have pa : c.P (c.f a) (some a) := .some s (Nat.le_refl _)
  have la := g.lt o s
  have hlast : ∃ l, (some a :: rest).getLast (by simp) = some l ∧ c.S l ∧ c.f l ≤ c.f a ∧ m ≤ c.f l := by
    have := List.getLast_mem (l := some a :: rest) (by simp)
    rcases List.mem_cons.1 this with h1 | h1
    · rw [h1]; exact ⟨a, rfl, s, Nat.le_refl _, ma⟩
    · have h2 := nn _ h1
      cases hl : (some a :: rest).getLast (by simp) with
      | none => exact absurd hl h2
      | some l =>
        rw [hl] at h1
        exact ⟨l, rfl, (hr _ h1 l rfl).1, (hr _ h1 l rfl).2, hm l h1⟩
  obtain ⟨l, el, sl, fl, ml⟩ := hlast
  rw [el] at e'
  have hnx : ∀ b, h.next (some l) = some b → c.S b ∧ c.f b < c.f l := g.next_lt o sl
  have w1 := Heap.wf_setKind g.wf (some a) k
  have hreal : ∀ m ∈ Heap.realNodes (some a) rest, m ∈ rest := fun m hm => (List.mem_filter.1 hm).1
  have hne : ∀ m ∈ Heap.realNodes (some a) rest, m ≠ none := fun m hm => nn _ (hreal m hm)
  have v1 : ∀ m ∈ Heap.realNodes (some a) rest, Valid (h.setKind (some a) k) m :=
    fun m hm => Heap.valid_setKind.2 (g.valid o (hr _ (hreal m hm)))
  have w2 := Heap.wf_isolateAll _ w1 v1
  have sd2 := Heap.sameData_isolateAll (Heap.realNodes (some a) rest) (h.setKind (some a) k)
  have l2 := Heap.isolateAll_links _ w1 v1 hne
  generalize hh2 : (h.setKind (some a) k).isolateAll (Heap.realNodes (some a) rest) = h2 at *
  have s2 : h2.size = c.h0.size := by rw [sd2.1, Heap.size_setKind, g.size]
  have va2 : Valid h2 (some a) := by intro b hb; cases hb; rw [s2, ← g.size]; exact la
  have w3 := Heap.wf_setText w2 (some a) t
  have va3 : Valid (h2.setText (some a) t) (some a) := by intro b hb; rw [Heap.size_setText]; exact va2 b hb
  have vn3 : Valid (h2.setText (some a) t) (h.next (some l)) := by
    intro b hb; rw [Heap.size_setText, s2]; exact o.lt b (hnx b hb).1
  have sd4 := Heap.sameData_replaceNext (h2.setText (some a) t) (some a) (h.next (some l))
  have kk := Heap.kind_setKind h a k
  rw [e']
  intro x sx hx
  have xa : some x ≠ some a := by rintro hh; cases hh; omega
  refine ⟨?_, ?_, ?_⟩
  · have n2 : h2.next (some x) = h.next (some x) := by
      rw [(l2 x).1, if_neg, Heap.next_setKind]
      rintro (hh | hh)
      · have := hm x (hreal _ hh); omega
      · rw [Heap.next_setKind] at hh
        cases hn : h.next (some x) with
        | none => rw [hn] at hh; exact hne _ hh rfl
        | some y =>
          rw [hn] at hh
          have := hm y (hreal _ hh)
          have := g.rank x y hn; omega
    by_cases hc : some a = h.next (some l) ∨ (h2.setText (some a) t).next (some a) = h.next (some l)
    · rw [Heap.replaceNext, if_pos hc]
      simpa using n2
    · have e4 := Heap.replaceNext_links w3 va3 vn3 (fun hh => hc (.inl hh)) (fun hh => hc (.inr hh)) x
      rw [e4.1, if_neg xa, if_neg]
      · simpa using n2
      · intro hh
        cases hn : h.next (some l) with
        | none => rw [hn] at hh; simp [Heap.prev] at hh
        | some z =>
          rw [hn] at hh
          have := (w3.inverse x z).2 hh.symm
          rw [Heap.next_setText, n2] at this
          have := g.wf.inverse x z |>.1 this
          rw [(g.wf.inverse l z).1 hn] at this
          cases this
          omega
  · rw [(sd4.2 _).2.1, Heap.kind_setText, (sd2.2 _).2.1, kk _ la, if_neg xa]
  · rw [(sd4.2 _).2.2, Heap.text_setText _ _ _ _ (va2 a rfl), if_neg xa, (sd2.2 _).2.2, Heap.text_setKind]

/-! ## Partial correctness of loops -/

theorem loop_partial {ω : Type} (I Q : ω → Ptr → Prop) (iter : ω → Addr → Ptr) (fn : ω → Addr → Option (ω × Bool))
    (hnone : ∀ w, I w none → Q w none)
    (hstep : ∀ w a w' b, I w (some a) → fn w a = some (w', b) →
      (b = false → Q w' (some a)) ∧ (b = true → I w' (iter w' a))) :
    ∀ fuel w p w' r, I w p → loop iter fn fuel w p = some (w', r) → Q w' r := by
  intro fuel
  induction fuel with
  | zero =>
    intro w p w' r i e
    cases p with
    | none => cases e; exact hnone _ i
    | some a => cases e
  | succ fuel ih =>
    intro w p w' r i e
    cases p with
    | none => cases e; exact hnone _ i
    | some a =>
      simp only [loop] at e
      cases ef : fn w a with
      | none => rw [ef] at e; cases e
      | some x =>
        obtain ⟨w1, b⟩ := x
        rw [ef] at e
        have := hstep w a w1 b i ef
        cases b with
        | true => exact ih _ _ _ _ (this.2 rfl) e
        | false => cases e; exact this.1 rfl

/-- The call keeps the invariant, its result `z` has rank at most `M`, and `z` and everything behind it is unchanged. -/
structure Conf (c : RCtx) (M : Nat) (hooks : List Hook) (w : World) (w' : World) (r : Ptr) : Prop where
  inv : Inv c w'
  pos : c.P M r
  low : ∀ z, r = some z → Low c z w.heap w'.heap
  buf : Hook.appendBuf ∉ hooks → w'.buf = w.buf

/-- What a callback must do at the node `a`. -/
structure ConfB (c : RCtx) (a : Addr) (hooks : List Hook) (w : World) (w' : World) (ctl : Ctl) : Prop where
  inv : Inv c w'
  stop : ctl = .stop → w'.heap = w.heap ∧ w.heap.kind (some a) ≠ .paramType
  cont : ctl = .cont → Below c (c.f a) w.heap w'.heap
  jump : ∀ t, ctl = .jump (some t) → c.f t < c.f a → Low c t w.heap w'.heap
  buf : Hook.appendBuf ∉ hooks → w'.buf = w.buf

theorem ConfB.stop' {a : Addr} {hooks : List Hook} {w : World} (i : Inv c w) (h : w.heap.kind (some a) ≠ .paramType) :
    ConfB c a hooks w w .stop :=
  ⟨i, fun _ => ⟨rfl, h⟩, nofun, nofun, fun _ => rfl⟩

theorem ConfB.cont' {a : Addr} {hooks : List Hook} {w : World} (i : Inv c w) : ConfB c a hooks w w .cont :=
  ⟨i, nofun, fun _ => .refl _ _, nofun, fun _ => rfl⟩

theorem ConfB.set (o : c.OK) {a : Addr} {hooks : List Hook} {w : World} (i : Inv c w) (s : c.S a) {k : Kind}
    (i' : Inv c { w with heap := w.heap.setKind (some a) k }) :
    ConfB c a hooks w { w with heap := w.heap.setKind (some a) k } .cont :=
  ⟨i', nofun, fun _ => below_setKind o i.good s k, nofun, fun _ => rfl⟩

theorem Conf.jump {a : Addr} {M : Nat} {hooks : List Hook} {w w' : World} {r : Ptr} (h : Conf c M hooks w w' r) :
    ConfB c a hooks w w' (.jump r) :=
  ⟨h.inv, nofun, nofun, fun t e _ => (by cases e; exact h.low t rfl), h.buf⟩

/-- The state of a loop of callbacks before it visits `p`. -/
structure ConfI {σ : Type} (c : RCtx) (M : Nat) (hooks : List Hook) (w0 : World) (ws : World × JState σ) (p : Ptr) : Prop where
  inv : Inv c ws.1
  pos : c.P M p
  act : ws.2.skipAll = false → ws.2.jumpTo = none → ∀ b, p = some b → Low c b w0.heap ws.1.heap
  jmp : ws.2.skipAll = false → ∀ t, ws.2.jumpTo = some t → Low c t w0.heap ws.1.heap ∨ ∀ b, p = some b → c.f b < c.f t
  buf : Hook.appendBuf ∉ hooks → ws.1.buf = w0.buf

theorem jump_conf (o : c.OK) {σ : Type} (consume : Bool) (hooks : List Hook) (hh : c.H hooks)
    (body : World → σ → Addr → Option (World × σ × Ctl)) {M : Nat} (hM : M ≤ c.F)
    (hbody : ∀ w s a w' s' ctl, Inv c w → c.S a → c.f a ≤ M → body w s a = some (w', s', ctl) → ConfB c a hooks w w' ctl)
    {w0 : World} {fuel : Nat} {ws ws' : World × JState σ} {p r : Ptr} (ci : ConfI c M hooks w0 ws p)
    (e : loop (fun ws a => ws.1.heap.next (some a)) (jumpStep consume hooks body) fuel ws p = some (ws', r)) :
    Conf c M hooks w0 ws'.1 r := by
  refine loop_partial (ConfI c M hooks w0) (fun ws r => Conf c M hooks w0 ws.1 r) _ _ ?_ ?_ fuel ws p ws' r ci e
  · intro w i
    exact ⟨i.inv, .none, nofun, i.buf⟩
  · rintro ⟨w, j⟩ a ⟨w', j'⟩ b i e
    have sa := (i.pos a rfl).1
    have fa := (i.pos a rfl).2
    have i1 : Inv c (handleHook w (some a) hooks) := i.inv.hook o (i.pos.mono hM) hooks hh
    have bh := below_hook o hooks sa i.inv.good
    have bb : Hook.appendBuf ∉ hooks → (handleHook w (some a) hooks).buf = w0.buf :=
      fun h => (buf_handleHook _ _ h w).trans (i.buf h)
    have nxt : ∀ {w1 : World}, Inv c w1 → c.P M (w1.heap.next (some a)) := fun i1 => i1.good.next_P o i.pos
    simp only [jumpStep] at e
    by_cases c1 : j.skipAll = true
    · rw [if_pos c1] at e
      cases e
      refine ⟨nofun, fun _ => ⟨i1, nxt i1, fun h => (by simp [c1] at h), fun h => (by simp [c1] at h), bb⟩⟩
    · rw [if_neg c1] at e
      have c1 : j.skipAll = false := by simpa using c1
      by_cases c2 : j.jumpTo ≠ none ∧ j.jumpTo ≠ some a
      · rw [if_pos c2] at e
        cases e
        refine ⟨nofun, fun _ => ⟨i1, nxt i1, fun _ h => absurd h c2.1, ?_, bb⟩⟩
        intro _ t ht
        by_cases lt : c.f t < c.f a
        · rcases i.jmp c1 t ht with h1 | h1
          · exact .inl (h1.trans (bh.mono (by omega)))
          · have := h1 a rfl; omega
        · right
          intro b hb
          have := (i1.good.next_lt o sa b hb).2
          omega
      · rw [if_neg c2] at e
        -- `a` is active
        have la : Low c a w0.heap w.heap := by
          cases hj : j.jumpTo with
          | none => exact i.act c1 hj a rfl
          | some t =>
            have : t = a := by
              apply Classical.byContradiction
              intro hn
              exact c2 ⟨by simp [hj], by simpa [hj] using hn⟩
            subst this
            rcases i.jmp c1 t hj with h1 | h1
            · exact h1
            · have := h1 t rfl; omega
        have la' : Below c (c.f a) w0.heap (handleHook w (some a) hooks).heap :=
          (la.mono (Nat.le_succ _)).trans bh
        have beh : ∀ {w1 : World}, Inv c w1 → Below c (c.f a) (handleHook w (some a) hooks).heap w1.heap →
            ∀ b, w1.heap.next (some a) = some b → Low c b w0.heap w1.heap := by
          intro w1 iw lw b hb
          have := (iw.good.next_lt o sa b hb).2
          exact (la'.trans lw).mono (by omega)
        by_cases c3 : j.jumpTo ≠ none ∧ consume = true
        · rw [if_pos c3] at e
          cases e
          exact ⟨nofun, fun _ => ⟨i1, nxt i1, fun _ _ => beh i1 (.refl _ _), nofun, bb⟩⟩
        · rw [if_neg c3] at e
          cases hb : body (handleHook w (some a) hooks) j.s a with
          | none => rw [hb] at e; cases e
          | some x =>
            obtain ⟨w1, s1, ctl⟩ := x
            rw [hb] at e
            have cb := hbody _ _ _ _ _ _ i1 sa fa hb
            have bf : Hook.appendBuf ∉ hooks → w1.buf = w0.buf := fun h => (cb.buf h).trans (bb h)
            cases ctl with
            | stop =>
              simp only [applyCtl] at e
              cases e
              refine ⟨fun _ => ⟨cb.inv, .some sa fa, ?_, bf⟩, nofun⟩
              intro z hz; cases hz
              obtain ⟨s1, s2⟩ := cb.stop rfl
              have s3 := kind_handleHook_self (some a) hooks w s2
              by_cases hr : w.heap.kind (some a) = .raw
              · -- the hooks left it raw, so they contain no relabelling
                intro x sx hx
                rcases Nat.lt_or_ge (c.f x) (c.f a) with h | h
                · rw [s1]; exact la' x sx h
                · rw [s1]
                  by_cases xa : x = a
                  · subst xa
                    have tx : (handleHook w (some x) hooks).heap.text (some x) = w.heap.text (some x) := by
                      clear s2 s3 hb e cb i1 bh bb la' beh bf
                      exact text_handleHook _ _ _ _
                    have l := la x sx hx
                    exact ⟨(next_handleHook _ _ _ _).trans l.1, s3.trans l.2.1, tx.trans l.2.2⟩
                  · have l := la x sx hx
                    exact ⟨(next_handleHook _ _ _ _).trans l.1, (kind_handleHook_other _ xa _).trans l.2.1,
                      (text_handleHook _ _ _ _).trans l.2.2⟩
              · rw [Low, s1, heap_handleHook _ _ _ hr]
                exact la
            | cont =>
              simp only [applyCtl] at e
              cases e
              exact ⟨nofun, fun _ => ⟨cb.inv, nxt cb.inv, fun _ _ => beh cb.inv (cb.cont rfl),
                nofun, bf⟩⟩
            | jump q =>
              simp only [applyCtl] at e
              cases e
              refine ⟨nofun, fun _ => ⟨cb.inv, nxt cb.inv, ?_, ?_, bf⟩⟩
              · intro h1 h2
                simp only at h1 h2
                simp [h2] at h1
              · intro _ t ht
                simp only at ht
                by_cases lt : c.f t < c.f a
                · left
                  exact (la'.mono (by omega)).trans (cb.jump t (by rw [ht]) lt)
                · right
                  intro b hb
                  have := (cb.inv.good.next_lt o sa b hb).2
                  omega

theorem jumpLoop_conf (o : c.OK) {σ : Type} (consume : Bool) (hooks : List Hook) (hh : c.H hooks)
    (body : World → σ → Addr → Option (World × σ × Ctl)) {M : Nat} (hM : M ≤ c.F)
    (hbody : ∀ w s a w' s' ctl, Inv c w → c.S a → c.f a ≤ M → body w s a = some (w', s', ctl) → ConfB c a hooks w w' ctl)
    {w w' : World} {s : σ} {p r : Ptr} (i : Inv c w) (hp : c.P M p)
    (e : jumpLoop consume hooks body w s p = some (w', r)) : Conf c M hooks w w' r := by
  simp only [jumpLoop, iterW] at e
  obtain ⟨⟨ws', r'⟩, e1, e2⟩ := Option.map_eq_some_iff.1 e
  cases e2
  have ci : ConfI c M hooks w (w, ⟨false, none, s⟩) p :=
    ⟨i, hp, fun _ _ _ _ => Below.refl _ _, fun _ t h => (by cases h), fun _ => rfl⟩
  exact jump_conf o consume hooks hh body hM hbody ci e1

/-- After the hooks at `z` everything up to `z` is as it was, if `z` was not relabelled. -/
theorem low_hook (o : c.OK) (hooks : List Hook) {h1 : Heap} {w : World} (g : Good c w.heap) {z : Addr} (sz : c.S z)
    (l : Low c z h1 w.heap) (hk : (handleHook w (some z) hooks).heap.kind (some z) ≠ .paramType) :
    Low c z h1 (handleHook w (some z) hooks).heap := by
  have s3 := kind_handleHook_self (some z) hooks w hk
  intro x sx hx
  have l' := l x sx hx
  clear l
  by_cases xa : x = z
  · subst xa
    have l := l'
    exact ⟨(next_handleHook _ _ _ _).trans l.1, s3.trans l.2.1, (text_handleHook _ _ _ _).trans l.2.2⟩
  · have l := l'
    exact ⟨(next_handleHook _ _ _ _).trans l.1, (kind_handleHook_other _ xa _).trans l.2.1,
      (text_handleHook _ _ _ _).trans l.2.2⟩

/-- A loop whose callback runs the hooks and nothing else. -/
structure HookRun {σ : Type} (c : RCtx) (M : Nat) (hooks : List Hook) (fn : World × σ → Addr → Option ((World × σ) × Bool))
    (w w' : World) (s' : σ) (r : Ptr) : Prop where
  inv : Inv c w'
  pos : c.P M r
  stop : ∀ z, r = some z → ∃ w1 s1, w' = handleHook w1 (some z) hooks ∧ Low c z w.heap w1.heap ∧ fn (w1, s1) z = some ((w', s'), false)
  below : ∀ z, r = some z → Below c (c.f z) w.heap w'.heap
  low : ∀ z, r = some z → w'.heap.kind (some z) ≠ .paramType → Low c z w.heap w'.heap
  buf : Hook.appendBuf ∉ hooks → w'.buf = w.buf

theorem hookRun (o : c.OK) {σ : Type} {hooks : List Hook} (hh : c.H hooks) {fn : World × σ → Addr → Option ((World × σ) × Bool)}
    (hfn : ∀ ws a w' s' b, fn ws a = some ((w', s'), b) → w' = handleHook ws.1 (some a) hooks) {M : Nat} (hM : M ≤ c.F)
    {w w' : World} {s s' : σ} {p r : Ptr} (i : Inv c w) (hp : c.P M p) (e : iterW fn w s p = some ((w', s'), r)) :
    HookRun c M hooks fn w w' s' r := by
  simp only [iterW] at e
  refine loop_partial (fun (ws : World × σ) p => Inv c ws.1 ∧ c.P M p ∧ (∀ b, p = some b → Low c b w.heap ws.1.heap) ∧
    (Hook.appendBuf ∉ hooks → ws.1.buf = w.buf)) (fun ws r => HookRun c M hooks fn w ws.1 ws.2 r) _ _ ?_ ?_ _ _ _ _ _ ?_ e
  · rintro w1 ⟨i1, _, _, b1⟩
    exact ⟨i1, .none, nofun, nofun, nofun, b1⟩
  · rintro ⟨w1, s1⟩ a ⟨w2, s2⟩ b ⟨i1, p1, l1, b1⟩ e1
    have hw := hfn _ _ _ _ _ e1
    simp only at hw
    subst hw
    have sa := (p1 a rfl).1
    have i2 := i1.hook o (p1.mono hM) hooks hh
    have bh := below_hook o hooks sa i1.good
    have bb : Hook.appendBuf ∉ hooks → (handleHook w1 (some a) hooks).buf = w.buf := fun h => (buf_handleHook _ _ h w1).trans (b1 h)
    have bl : Below c (c.f a) w.heap (handleHook w1 (some a) hooks).heap := ((l1 a rfl).mono (Nat.le_succ _)).trans bh
    refine ⟨?_, ?_⟩
    · rintro rfl
      refine ⟨i2, p1, ?_, ?_, ?_, bb⟩
      · intro z hz; cases hz; exact ⟨w1, s1, rfl, l1 a rfl, e1⟩
      · intro z hz; cases hz; exact bl
      · intro z hz hk; cases hz; exact low_hook o hooks i1.good sa (l1 a rfl) hk
    · intro _
      refine ⟨i2, i2.good.next_P o p1, ?_, bb⟩
      intro b hb
      have := (i2.good.next_lt o sa b hb).2
      exact bl.mono (by omega)
  · exact ⟨i, hp, fun _ _ => .refl _ _, fun _ => rfl⟩

theorem findNext_run (o : c.OK) {hooks : List Hook} (hh : c.H hooks) {M : Nat} (hM : M ≤ c.F) {w w' : World} {p r : Ptr}
    {target : List Kind} {opt : FindOpt} (i : Inv c w) (hp : c.P M p) (e : findNext w p target opt hooks = some (w', r)) :
    ∃ s, HookRun c M hooks (fun (ws : World × Counts) a =>
      let w := handleHook ws.1 (some a) hooks
      let k := w.heap.kind (some a)
      let c := ws.2.step k
      some ((w, c), findCont target opt c k)) w w' s r := by
  unfold findNext at e
  obtain ⟨⟨⟨w1, s1⟩, r1⟩, e1, e2⟩ := Option.map_eq_some_iff.1 e
  cases e2
  refine ⟨s1, hookRun o hh ?_ hM i hp e1⟩
  intro ws a w' s' b h
  simp only [Option.some.injEq, Prod.mk.injEq] at h
  exact h.1.1.symm

/-- The plain search, without hooks: nothing changes. -/
theorem findNext_conf (o : c.OK) {M : Nat} (hM : M ≤ c.F) {w w' : World} {p r : Ptr} {target : List Kind} {opt : FindOpt}
    (i : Inv c w) (hp : c.P M p) (e : findNext w p target opt [] = some (w', r)) : w' = w ∧ Conf c M [] w w' r := by
  have hw : w' = w := by
    unfold findNext at e
    obtain ⟨⟨⟨w1, s1⟩, r1⟩, e1, e2⟩ := Option.map_eq_some_iff.1 e
    cases e2
    refine loop_partial (fun (ws : World × Counts) _ => ws.1 = w) (fun ws _ => ws.1 = w) _ _ (fun _ h => h) ?_ _ _ _ _ _ rfl e1
    rintro ⟨w1, s1⟩ a ⟨w2, s2⟩ b h e
    simp only [Option.some.injEq, Prod.mk.injEq] at e
    have h2 : w2 = w := by rw [← e.1.1]; exact h
    exact ⟨fun _ => h2, fun _ => h2⟩
  obtain ⟨s, h⟩ := findNext_run o (hooks := []) H_nil hM i hp e
  subst hw
  exact ⟨rfl, h.inv, h.pos, fun _ _ => .refl _ _, fun _ => rfl⟩

/-- The counting loop of `skipNestNext`, with its hooks. -/
def nestFn (hooks : List Hook) (l r : Kind) (ws : World × Int) (a : Addr) : Option ((World × Int) × Bool) :=
  let w := handleHook ws.1 (some a) hooks
  let k := w.heap.kind (some a)
  if k = l then some ((w, ws.2 + 1), true)
  else if k = r then some ((w, ws.2 - 1), decide (ws.2 - 1 ≠ 0))
  else some ((w, ws.2), true)

theorem skipNestNext_conf (o : c.OK) {hooks : List Hook} (hh : c.H hooks) {M : Nat} (hM : M ≤ c.F) {w w' : World} {p q : Ptr}
    {l r : Kind} (hr : r ≠ .paramType) (i : Inv c w) (hp : c.P M p)
    (e : skipNestNext w p l r hooks = some (w', q)) :
    Conf c M hooks w w' q ∧ ∀ z, q = some z → w'.heap.kind (some z) = r := by
  unfold skipNestNext at e
  -- the start
  have h1 : ∀ w1 q1, (if w.heap.kind p = l then
      match findNext (handleHook w p hooks) p [l] {} hooks with
      | none => none
      | some (w, f) => some (w, w.heap.next f)
    else some (w, p)) = some (w1, q1) → Inv c w1 ∧ c.P M q1 ∧ (∀ b, q1 = some b → Low c b w.heap w1.heap) ∧
      (Hook.appendBuf ∉ hooks → w1.buf = w.buf) := by
    intro w1 q1 e1
    split at e1
    · have i1 := i.hook o (hp.mono hM) hooks hh
      cases ef : findNext (handleHook w p hooks) p [l] {} hooks with
      | none => rw [ef] at e1; cases e1
      | some x =>
        obtain ⟨w2, f⟩ := x
        rw [ef] at e1
        cases e1
        obtain ⟨s, hr⟩ := findNext_run o hh hM i1 hp ef
        refine ⟨hr.inv, hr.inv.good.next_P o hr.pos, ?_, ?_⟩
        · intro b hb
          cases f with
          | none => cases hb
          | some a =>
            have sa := (hr.pos a rfl).1
            have := (hr.inv.good.next_lt o sa b hb).2
            refine Below.trans ?_ ((hr.below a rfl).mono (by omega))
            cases p with
            | none => simp only [findNext, iterW, loop] at ef; cases ef
            | some x =>
              have := below_hook o hooks (hp x rfl).1 i.good
              refine this.mono ?_
              -- the node found is not before the start
              have fl : c.f a ≤ c.f x := by
                have := (findNext_run o hh (Nat.le_trans (hp x rfl).2 hM) i1 (.some (hp x rfl).1 (Nat.le_refl _)) ef)
                obtain ⟨_, h⟩ := this
                exact (h.pos a rfl).2
              omega
        · intro h
          exact (hr.buf h).trans (buf_handleHook _ _ h _)
    · cases e1
      exact ⟨i, hp, fun _ _ => .refl _ _, fun _ => rfl⟩
  split at e
  · cases e
  · rename_i w1 q1 es
    obtain ⟨i1, p1, l1, b1⟩ := h1 w1 q1 es
    obtain ⟨⟨⟨w2, n2⟩, r2⟩, e1, e2⟩ := Option.map_eq_some_iff.1 e
    simp only [Prod.mk.injEq] at e2
    obtain ⟨rfl, rfl⟩ := e2
    have e1 : iterW (nestFn hooks l r) w1 1 q1 = some ((w2, n2), r2) := e1
    have hr2 := hookRun o hh (fn := nestFn hooks l r) (by
      intro ws a w' s' b h
      simp only [nestFn] at h
      split at h
      · cases h; rfl
      · split at h <;> cases h <;> rfl) hM i1 p1 e1
    have kz : ∀ z, r2 = some z → w2.heap.kind (some z) = r := by
      intro z hz
      obtain ⟨w3, s3, e3, _, e4⟩ := hr2.stop z hz
      simp only [nestFn, ← e3] at e4
      split at e4
      · cases e4
      · split at e4
        · assumption
        · cases e4
    refine ⟨⟨hr2.inv, hr2.pos, ?_, fun h => (hr2.buf h).trans (b1 h)⟩, kz⟩
    intro z hz
    have fz : ∀ b, q1 = some b → c.f z ≤ c.f b := by
      intro b hb
      subst hb
      have := hookRun o hh (fn := nestFn hooks l r) (by
        intro ws a w' s' b h
        simp only [nestFn] at h
        split at h
        · cases h; rfl
        · split at h <;> cases h <;> rfl) (Nat.le_trans (p1 b rfl).2 hM) i1 (.some (p1 b rfl).1 (Nat.le_refl _)) e1
      exact (this.pos z hz).2
    have l2 := hr2.low z hz (by rw [kz z hz]; exact hr)
    cases q1 with
    | none => simp [iterW, loop] at e1; rw [← e1.2] at hz; cases hz
    | some b => exact ((l1 b rfl).mono (by have := fz b rfl; omega)).trans l2

/-! ## The mutually recursive resetters -/

theorem jumpLoop_none {σ : Type} (consume : Bool) (hooks : List Hook) (body : World → σ → Addr → Option (World × σ × Ctl))
    (w : World) (s : σ) : jumpLoop consume hooks body w s none = some (w, none) := by
  simp [jumpLoop, iterW, loop]

theorem Conf.nil {M : Nat} {hooks : List Hook} {w w' : World} (i : Inv c w') (h : Hook.appendBuf ∉ hooks → w'.buf = w.buf) :
    Conf c M hooks w w' none := ⟨i, .none, nofun, h⟩

theorem Conf.refl {M : Nat} {hooks : List Hook} {w : World} {r : Ptr} (i : Inv c w) (hp : c.P M r) :
    Conf c M hooks w w r := ⟨i, hp, fun _ _ => .refl _ _, fun _ => rfl⟩

/-- Start from a world that agrees on everything behind `a`. -/
theorem Conf.after {M : Nat} {hooks : List Hook} {w w1 w2 : World} {a b : Addr} {r : Ptr}
    (h : Conf c (c.f b) hooks w1 w2 r) (bl : Below c (c.f a) w.heap w1.heap) (ab : c.f b < c.f a) (am : c.f a ≤ M)
    (bf : Hook.appendBuf ∉ hooks → w1.buf = w.buf) : Conf c M hooks w w2 r := by
  refine ⟨h.inv, h.pos.mono (by omega), ?_, fun hh => (h.buf hh).trans (bf hh)⟩
  intro z hz
  have := (h.pos z hz).2
  exact (bl.mono (by omega)).trans (h.low z hz)

/-- Hook at the head, return its successor. -/
theorem Conf.step (o : c.OK) {M : Nat} {hooks : List Hook} (hh : c.H hooks) (hM : M ≤ c.F) {w : World} {head : Ptr} (i : Inv c w)
    (hp : c.P M head) : Conf c M hooks w (handleHook w head hooks) ((handleHook w head hooks).heap.next head) := by
  have i1 := i.hook o (hp.mono hM) hooks hh
  refine ⟨i1, i1.good.next_P o hp, ?_, fun h => buf_handleHook _ _ h w⟩
  intro z hz
  cases head with
  | none => cases hz
  | some a =>
    have sa := (hp a rfl).1
    have := (i1.good.next_lt o sa z hz).2
    exact (below_hook o hooks sa i.good).mono (by omega)

/-- Only comments lie between `p` and `q`. -/
inductive CommTo (h : Heap) : Ptr → Ptr → Prop
  | here (p : Ptr) : CommTo h p p
  | cons {a : Addr} {q : Ptr} : h.kind (some a) = .comment → CommTo h (h.next (some a)) q → CommTo h (some a) q

theorem CommTo.congr {h h' : Heap} {p q : Ptr} (t : CommTo h p q) (hn : ∀ p, h'.next p = h.next p)
    (hk : ∀ p, h.kind p = .comment → h'.kind p = .comment) : CommTo h' p q := by
  induction t with
  | here => exact .here _
  | cons k _ ih => exact .cons (hk _ k) (by rw [hn]; exact ih)

theorem CommTo.snoc {h : Heap} {p : Ptr} {a : Addr} (t : CommTo h p (some a)) (k : h.kind (some a) = .comment) :
    CommTo h p (h.next (some a)) := by
  generalize hq : some a = q at t
  induction t with
  | here => subst hq; exact .cons k (.here _)
  | cons k' _ ih => exact .cons k' (ih hq)

theorem findComment (o : c.OK) {hooks : List Hook} (hh : c.H hooks) {M : Nat} (hM : M ≤ c.F) {w w' : World} {p r : Ptr}
    (i : Inv c w) (hp : c.P M p) (e : findNext w p [.comment] { targetReverse := true } hooks = some (w', r)) :
    CommTo w'.heap p r ∧ (w'.heap.kind r ≠ .paramType → w'.heap = w.heap) := by
  unfold findNext at e
  obtain ⟨⟨⟨w1, s1⟩, r1⟩, e1, e2⟩ := Option.map_eq_some_iff.1 e
  simp only [Prod.mk.injEq] at e2
  obtain ⟨rfl, rfl⟩ := e2
  refine loop_partial (fun (ws : World × Counts) q => ws.1.heap = w.heap ∧ CommTo w.heap p q)
    (fun ws q => CommTo ws.1.heap p q ∧ (ws.1.heap.kind q ≠ .paramType → ws.1.heap = w.heap)) _ _ ?_ ?_ _ _ _ _ _
    ⟨rfl, .here _⟩ e1
  · rintro w1 ⟨h1, h2⟩
    exact ⟨by rw [h1]; exact h2, fun _ => h1⟩
  · rintro ⟨w1, s1⟩ a ⟨w2, s2⟩ b ⟨h1, h2⟩ e
    simp only [Option.some.injEq, Prod.mk.injEq] at e h1
    obtain ⟨⟨e1, _⟩, e3⟩ := e
    rw [e1] at e3
    subst e1
    have hc : findCont [.comment] { targetReverse := true } s2 ((handleHook w1 (some a) hooks).heap.kind (some a)) = true →
        (handleHook w1 (some a) hooks).heap.kind (some a) = .comment := by
      simp only [findCont]
      intro hh
      apply Classical.byContradiction
      intro hn
      have : (CharSet.new [Kind.comment]).contain ((handleHook w1 (some a) hooks).heap.kind (some a)) = false := by
        simp [CharSet.new, CharSet.contain, hn]
      simp [this] at hh
    have hraw : (handleHook w1 (some a) hooks).heap.kind (some a) ≠ .paramType → (handleHook w1 (some a) hooks).heap = w.heap :=
      fun h3 => (heap_handleHook_of_ne _ _ _ h3).trans h1
    refine ⟨?_, ?_⟩
    · rintro rfl
      refine ⟨h2.congr (fun p => by rw [next_handleHook, h1]) (fun p hp => ?_), hraw⟩
      rw [kind_handleHook _ _ _ _ (by rw [h1, hp]; decide), h1, hp]
    · rintro rfl
      have hk := hc e3
      have he := hraw (by rw [hk]; decide)
      refine ⟨he, ?_⟩
      show CommTo w.heap p ((handleHook w1 (some a) hooks).heap.next (some a))
      rw [he]
      refine h2.snoc ?_
      rw [← he]; exact hk

/-- The collecting loop does not stop above the first node that is no comment. -/
theorem collect_le (o : c.OK) {hooks : List Hook} (hh : c.H hooks) {M : Nat} (hM : M ≤ c.F) {w w' : World} {buf : List Ptr} {p r : Ptr}
    {found : Addr} (i : Inv c w) (hp : c.P M p) (t : CommTo w.heap p (some found)) (sf : c.S found)
    (e : iterW (collectFn hooks) w [] p = some ((w', buf), r)) {z : Addr} (hz : r = some z) :
    z = found ∨ c.f z < c.f found := by
  simp only [iterW] at e
  refine loop_partial (fun (ws : World × List Ptr) q => Inv c ws.1 ∧ c.P M q ∧
    (CommTo ws.1.heap q (some found) ∨ ∀ b, q = some b → c.f b < c.f found))
    (fun ws q => ∀ z, q = some z → z = found ∨ c.f z < c.f found) _ _ ?_ ?_ _ _ _ _ _ ⟨i, hp, .inl t⟩ e z hz
  · intro _ _ z hz; cases hz
  · rintro ⟨w1, s1⟩ a ⟨w2, s2⟩ b ⟨i1, p1, h⟩ e
    have sa := (p1 a rfl).1
    have i2 := i1.hook o (p1.mono hM) hooks hh
    have nx : ∀ b, (handleHook w1 (some a) hooks).heap.next (some a) = some b → c.f b < c.f a :=
      fun b hb => (i2.good.next_lt o sa b hb).2
    have hcase : (a = found ∨ c.f a < c.f found) ∨ (w1.heap.kind (some a) = .comment ∧ CommTo w1.heap (w1.heap.next (some a)) (some found)) := by
      rcases h with h | h
      · cases h with
        | here => exact .inl (.inl rfl)
        | cons k t => exact .inr ⟨k, t⟩
      · exact .inl (.inr (h a rfl))
    rcases hcase with hle | ⟨hk, ht⟩
    · have : w2 = handleHook w1 (some a) hooks := by
        rcases collect_cases hooks (w1, s1) a with e' | ⟨_, e'⟩ | ⟨_, e'⟩ <;> rw [e'] at e <;> cases e <;> rfl
      subst this
      refine ⟨fun _ z hz => (by cases hz; exact hle), fun _ => ⟨i2, i2.good.next_P o p1, .inr ?_⟩⟩
      intro b hb
      have := nx b hb
      rcases hle with rfl | hle <;> omega
    · have hk' : (handleHook w1 (some a) hooks).heap.kind (some a) = .comment := by
        rw [kind_handleHook _ _ _ _ (by rw [hk]; decide), hk]
      simp only [collectFn, hk'] at e
      cases e
      refine ⟨nofun, fun _ => ⟨i2, i2.good.next_P o p1, .inl ?_⟩⟩
      show CommTo _ ((handleHook w1 (some a) hooks).heap.next (some a)) _
      rw [next_handleHook]
      exact ht.congr (fun p => next_handleHook _ _ _ _) (fun p hp => by rw [kind_handleHook _ _ _ _ (by rw [hp]; decide), hp])

/-- All six functions at depth `d`. -/
structure Confs (c : RCtx) (d : Nat) : Prop where
  paren : ∀ M skip rec w head hooks w' r, M ≤ c.F → c.H hooks → Inv c w → c.P M head →
    parenRun d skip rec w head hooks = some (w', r) → Conf c M hooks w w' r
  single : ∀ M w head hooks w' r, M ≤ c.F → c.H hooks → Inv c w → c.P M head →
    singleReturn d w head hooks = some (w', r) → Conf c M hooks w w' r
  general : ∀ M w head rk hooks w' r, M ≤ c.F → c.H hooks → Inv c w → c.P M head → Kind.paramType ∉ rk →
    generalFunc d w head rk hooks = some (w', r) → Conf c M hooks w w' r
  param : ∀ M w head hooks w' r, M ≤ c.F → c.H hooks → Inv c w → c.P M head →
    parameterFunc d w head hooks = some (w', r) → Conf c M hooks w w' r
  func : ∀ M cfg w head hooks w' r, M ≤ c.F → c.H hooks → Inv c w → c.P M head →
    funcRun d cfg w head hooks = some (w', r) → Conf c M hooks w w' r
  pparam : ∀ M rec w head hooks w' r, M ≤ c.F → c.H hooks → Inv c w → c.P M head →
    parenParam d rec w head hooks = some (w', r) → Conf c M hooks w w' r

theorem toJump_some {σ : Type} {r : Option (World × Ptr)} {s s' : σ} {w' : World} {ctl : Ctl}
    (e : toJump r s = some (w', s', ctl)) : ∃ p, r = some (w', p) ∧ s' = s ∧ ctl = .jump p := by
  cases r with
  | none => cases e
  | some x => obtain ⟨w, p⟩ := x; cases e; exact ⟨p, rfl, rfl, rfl⟩

theorem confs (o : c.OK) : ∀ d, Confs c d := by
  intro d
  induction d with
  | zero =>
    refine ⟨?_, ?_, ?_, ?_, ?_, ?_⟩
    · intro M skip rec w head hooks w' r _ _ _ _ e; rw [parenRun] at e; cases e
    · intro M w head hooks w' r _ _ _ _ e; rw [singleReturn] at e; cases e
    · intro M w head rk hooks w' r _ _ _ _ _ e; rw [generalFunc] at e; cases e
    · intro M w head hooks w' r _ _ _ _ e; rw [parameterFunc] at e; cases e
    · intro M cfg w head hooks w' r _ _ _ _ e; rw [funcRun] at e; cases e
    · intro M rec w head hooks w' r _ _ _ _ e; rw [parenParam] at e; cases e
  | succ d ih =>
    refine ⟨?_, ?_, ?_, ?_, ?_, ?_⟩
    · -- parenRun
      intro M skip rec w head hooks w' r hM hh i hp e
      rw [parenRun] at e
      split at e
      · exact (skipNestNext_conf o hh hM (by decide) i hp e).1
      · split at e
        · cases e; exact .step o hh hM i hp
        · refine jumpLoop_conf o false hooks hh _ hM ?_ i hp e
          intro w s a w' s' ctl i sa fa e
          have ha : c.P M (some a) := .some sa fa
          split at e
          · rename_i hk; cases e; exact .stop' i (by rw [hk]; decide)
          · cases e; exact .cont' i
          · cases e; exact .cont' i
          · cases e; exact .cont' i
          · cases e; exact .cont' i
          · cases e; exact .cont' i
          · cases e; exact .cont' i
          · obtain ⟨p, e1, rfl, rfl⟩ := toJump_some e
            exact (ih.pparam M rec w (some a) hooks _ _ hM hh i ha e1).jump
    · -- singleReturn
      intro M w head hooks w' r hM hh i hp e
      rw [singleReturn] at e
      split at e
      · cases e; exact .step o hh hM i hp
      · have hp1 : c.P M (w.heap.next head) := i.good.next_P o hp
        simp only at e
        cases e1 : findNext w (w.heap.next head) [.comment] { targetReverse := true } hooks with
        | none => rw [e1] at e; cases e
        | some x =>
          obtain ⟨w1, found⟩ := x
          rw [e1] at e
          simp only at e
          obtain ⟨t, heq⟩ := findComment o hh hM i hp1 e1
          obtain ⟨_, hr⟩ := findNext_run o hh hM i hp1 e1
          have i1 := hr.inv
          have same : ∀ {w' : World} {r : Ptr}, w1.heap.kind found ≠ .paramType → Conf c M hooks w1 w' r → Conf c M hooks w w' r := by
            intro w' r hk cf
            exact ⟨cf.inv, cf.pos, fun z hz => (by rw [← heq hk]; exact cf.low z hz), fun h => (cf.buf h).trans (hr.buf h)⟩
          split at e
          · rename_i hk
            exact same (by rw [hk]; decide) (ih.paren M _ _ w1 _ hooks _ _ hM hh i1 hp1 e)
          · rename_i hk
            exact same (by rw [hk]; decide) (ih.param M w1 _ hooks _ _ hM hh i1 hp1 e)
          · obtain ⟨ws, r2, l, ec, co⟩ := collect_rule o hh i1 hM hp1
            obtain ⟨w2, buf⟩ := ws
            have ec' : iterW (fun (ws : World × List Ptr) a =>
                let w := handleHook ws.1 (some a) hooks
                match w.heap.kind (some a) with
                | .newLine | .space | .curlyL => some ((w, ws.2), false)
                | .comment => some ((w, ws.2), true)
                | _ => some ((w, appendUnrepeatable ws.2 [some a]), true)) w1 ([] : List Ptr) (w.heap.next head)
                = some ((w2, buf), r2) := ec
            obtain ⟨h', em, g'⟩ := collect_merge o hM co
            split at e
            · cases e
            · rename_i hn
              have hn := ec'.symm.trans hn
              cases hn
              simp only at em
              simp only [em] at e
              cases e
              have hr2 := hookRun o hh (fn := collectFn hooks) (by
                intro ws a w' s' b h
                rcases collect_cases hooks ws a with e' | ⟨_, e'⟩ | ⟨_, e'⟩ <;> rw [e'] at h <;> cases h <;> rfl) hM i1 hp1 ec
              refine ⟨co.inv.heap g', co.pos, ?_, fun h => (hr2.buf h).trans (hr.buf h)⟩
              intro z hz
              -- the kind of the stopping node
              have kz : w2.heap.kind (some z) = .newLine ∨ w2.heap.kind (some z) = .space ∨ w2.heap.kind (some z) = .curlyL := by
                obtain ⟨w3, s3, e3, _, e4⟩ := hr2.stop z hz
                simp only [collectFn, ← e3] at e4
                split at e4 <;> first | (cases e4; done) | simp_all
              have kz' : w2.heap.kind (some z) ≠ .paramType := by
                rcases kz with h | h | h <;> rw [h] <;> decide
              have l12 := hr2.low z hz kz'
              -- before the loop
              have l01 : Low c z w.heap w1.heap := by
                by_cases hk : w1.heap.kind found = .paramType
                · cases found with
                  | none => cases hk
                  | some fd =>
                    have le := collect_le o hh hM i1 hp1 t (hr.pos fd rfl).1 ec hz
                    have ne : z ≠ fd := by
                      rintro rfl
                      have := (l12 z (hr.pos z rfl).1 (by omega)).2.1
                      rw [this] at kz'
                      exact kz' hk
                    exact (hr.below fd rfl).mono (by have := le.resolve_left ne; omega)
                · rw [heq hk]; exact .refl _ _
              refine (l01.trans l12).trans ?_
              cases hb : nonComments w2.heap l with
              | nil =>
                have : buf = [] := by have := co.buf; simp only [hb, List.map_nil] at this; exact this
                subst this
                cases em
                exact .refl _ _
              | cons n rest =>
                obtain ⟨l₁, l₂, rfl, h1, h2, _⟩ := filter_eq_cons hb
                have pa := path_drop l₁ (n :: l₂) co.path
                have hbuf : buf = some n :: rest.map some := by have := co.buf; simp only [hb, List.map_cons] at this; exact this
                subst hbuf
                have rm : ∀ b ∈ rest, b ∈ l₂ := fun b hb => (List.mem_filter.1 (h2 ▸ hb)).1
                refine below_merge o co.inv.good (co.mem n (by simp)).1 ?_ (co.below z hz n (by simp)) ?_ ?_ em
                · intro q hq
                  obtain ⟨b, hb, rfl⟩ := List.mem_map.1 hq
                  exact .some (co.mem b (by simp [rm b hb])).1 (Nat.le_of_lt (path_lt co.inv.good l₂ n pa b (rm b hb)))
                · intro b hb
                  obtain ⟨b', hb, e⟩ := List.mem_map.1 hb
                  cases e
                  exact co.below z hz b (by simp [rm b hb])
                · intro q hq
                  obtain ⟨b, hb, rfl⟩ := List.mem_map.1 hq
                  simp
    · -- generalFunc
      intro M w head rk hooks w' r hM hh i hp hrk e
      rw [generalFunc] at e
      simp only at e
      have cspt : (if rk.length ≠ 0 then CharSet.new rk else CharSet.new [.newLine]).contain Kind.paramType = false := by
        split
        · rw [← Bool.not_eq_true, contain_new]; exact hrk
        · decide
      generalize (if rk.length ≠ 0 then CharSet.new rk else CharSet.new [.newLine]) = cs at e cspt
      have body : ∀ M, M ≤ c.F → ∀ (w : World) (s : Bool × Bool) (a : Addr) (w' : World) (s' : Bool × Bool) (ctl : Ctl),
          Inv c w → c.S a → c.f a ≤ M →
          (if cs.contain (w.heap.kind (some a)) = true then some (w, s, if s.2 = true then Ctl.stop else .cont)
            else match w.heap.kind (some a) with
            | .comment => some (w, s, .cont)
            | .raw =>
              if s.1 = false then
                some ({ w with heap := w.heap.setKind (some a) .funcName }, (true, s.2), .cont)
              else some (w, s, .cont)
            | .space =>
              if s.1 = true ∧ s.2 = true then toJump (singleReturn d w (some a) hooks) s
              else some (w, s, .cont)
            | .parenL => toJump (parenRun d false false w (some a) hooks) (s.1, true)
            | .curlyL => toJump (curlyRun w (some a) hooks) s
            | .squareL => toJump (squareRun w (some a) hooks) (s.1, true)
            | _ => some (w, s, .cont)) = some (w', s', ctl) → ConfB c a hooks w w' ctl := by
        intro M hM w s a w' s' ctl i sa fa e
        have ha : c.P M (some a) := .some sa fa
        split at e
        · rename_i hc
          cases e
          split
          · refine .stop' i ?_
            intro hk
            rw [hk, cspt] at hc; cases hc
          · exact .cont' i
        · split at e
          · cases e; exact .cont' i
          · rename_i hk
            split at e
            · cases e
              exact .set o i sa (i.setKind o sa (Nat.le_trans fa hM) (by rw [hk]; decide) (by decide))
            · cases e; exact .cont' i
          · split at e
            · obtain ⟨p, e1, rfl, rfl⟩ := toJump_some e
              exact (ih.single M w (some a) hooks _ _ hM hh i ha e1).jump
            · cases e; exact .cont' i
          · obtain ⟨p, e1, rfl, rfl⟩ := toJump_some e
            exact (ih.paren M _ _ w (some a) hooks _ _ hM hh i ha e1).jump
          · obtain ⟨p, e1, rfl, rfl⟩ := toJump_some e
            exact (skipNestNext_conf o hh hM (by decide) i ha e1).1.jump
          · obtain ⟨p, e1, rfl, rfl⟩ := toJump_some e
            exact (skipNestNext_conf o hh hM (by decide) i ha e1).1.jump
          · cases e; exact .cont' i
      by_cases hf : w.heap.kind head = .func_
      · simp only [hf, decide_true, if_true] at e
        cases head with
        | none => cases hf
        | some a =>
          have i1 := i.hook o (hp.mono hM) hooks hh
          have sa := (hp a rfl).1
          cases hn : (handleHook w (some a) hooks).heap.next (some a) with
          | none =>
            rw [hn, jumpLoop_none] at e
            cases e
            exact .nil i1 (fun h => buf_handleHook _ _ h w)
          | some b =>
            rw [hn] at e
            have nb := i1.good.next_lt o sa b hn
            have fa := (hp a rfl).2
            exact (jumpLoop_conf o false hooks hh _ (M := c.f b) (by omega) (body _ (by omega)) i1 (.some nb.1 (Nat.le_refl _)) e).after
              (below_hook o hooks sa i.good) nb.2 fa (fun h => buf_handleHook _ _ h w)
      · simp only [hf, decide_false, Bool.false_eq_true, if_false] at e
        exact jumpLoop_conf o false hooks hh _ hM (body _ hM) i hp e
    · -- parameterFunc
      intro M w head hooks w' r hM hh i hp e
      rw [parameterFunc] at e
      split at e
      · cases e
      · rename_i w1 n e1
        have cf := ih.general M w head _ hooks _ _ hM hh i hp (by decide) e1
        split at e
        · rename_i hk
          cases e
          cases n with
          | none => cases hk
          | some a =>
            have sa := (cf.pos a rfl).1
            have st := Conf.step o hh hM cf.inv cf.pos
            refine ⟨st.inv, st.pos, ?_, fun h => (st.buf h).trans (cf.buf h)⟩
            intro z hz
            have := (st.inv.good.next_lt o sa z hz).2
            exact ((cf.low a rfl).mono (by omega)).trans (st.low z hz)
        · cases e; exact cf
    · -- funcRun
      intro M r w head hooks w' q hM hh i hp e
      rw [funcRun] at e
      split at e
      · exact ih.param M w head hooks _ _ hM hh i hp e
      · split at e
        · exact ih.general M w head _ hooks _ _ hM hh i hp (by decide) e
        · split at e
          · cases e
          · exact ih.general M w head _ hooks _ _ hM hh i hp (by decide) e
          · split at e
            · cases e; exact .step o hh hM i hp
            · simp only at e
              have body : ∀ M head, M ≤ c.F → c.P M head → ∀ (w : World) (s : Bool × Bool) (a : Addr) (w' : World) (s' : Bool × Bool) (ctl : Ctl),
                  Inv c w → c.S a → c.f a ≤ M →
                  (if s.1 = false ∧ w.heap.kind (some a) ≠ .raw ∧ w.heap.kind (some a) ≠ .parenL then some (w, s, Ctl.cont)
                    else
                      if (if s.1 = false then decide (w.heap.kind (some a) = .parenL) else s.2) = true then
                        toJump (parenRun d false true w (some a) hooks) (true, false)
                      else if w.heap.kind (some a) = .newLine then some (w, (true, false), .stop)
                      else toJump (generalFunc d w head [.newLine] hooks) (true, false)) = some (w', s', ctl) → ConfB c a hooks w w' ctl := by
                intro M head hM hp w s a w' s' ctl i sa fa e
                have ha : c.P M (some a) := .some sa fa
                split at e
                · cases e; exact .cont' i
                · generalize (if s.1 = false then decide (w.heap.kind (some a) = .parenL) else s.2) = im at e
                  split at e
                  · obtain ⟨p, e1, rfl, rfl⟩ := toJump_some e
                    exact (ih.paren M _ _ w (some a) hooks _ _ hM hh i ha e1).jump
                  · split at e
                    · rename_i hk
                      cases e; exact .stop' i (by rw [hk]; decide)
                    · obtain ⟨p, e1, rfl, rfl⟩ := toJump_some e
                      exact (ih.general M w head _ hooks _ _ hM hh i hp (by decide) e1).jump
              by_cases hf : r.isFuncKeywordLeading = true
              · simp only [hf, if_true] at e
                cases head with
                | none =>
                  have : (handleHook w none hooks).heap.next none = none := rfl
                  rw [this, jumpLoop_none] at e
                  cases e
                  exact .nil (i.hook o .none hooks hh) (fun h => buf_handleHook _ _ h w)
                | some a =>
                  have i1 := i.hook o (hp.mono hM) hooks hh
                  have sa := (hp a rfl).1
                  cases hn : (handleHook w (some a) hooks).heap.next (some a) with
                  | none =>
                    rw [hn, jumpLoop_none] at e
                    cases e
                    exact .nil i1 (fun h => buf_handleHook _ _ h w)
                  | some b =>
                    rw [hn] at e
                    have nb := i1.good.next_lt o sa b hn
                    have fa := (hp a rfl).2
                    exact (jumpLoop_conf o false hooks hh _ (M := c.f b) (by omega)
                      (body _ _ (by omega) (.some nb.1 (Nat.le_refl _))) i1 (.some nb.1 (Nat.le_refl _)) e).after
                      (below_hook o hooks sa i.good) nb.2 fa (fun h => buf_handleHook _ _ h w)
              · simp only [hf, Bool.false_eq_true, if_false] at e
                exact jumpLoop_conf o false hooks hh _ hM (body _ _ hM hp) i hp e
    · -- parenParam
      intro M rec w head hooks w' r hM hh i hp e
      rw [parenParam] at e
      have t1 : IsResetKind (if rec = true then Kind.methodReceiverType else .paramType) := by split <;> decide
      have t2 : IsResetKind (if rec = true then Kind.methodReceiverName else .paramName) := by split <;> decide
      split at e
      · cases e
      · refine jumpLoop_conf o false hooks hh _ hM ?_ i hp e
        intro w s a w' s' ctl i sa fa e
        have ha : c.P M (some a) := .some sa fa
        have st : ∀ {k}, IsResetKind k → Settable (w.heap.kind (some a)) →
            ConfB c a hooks w { w with heap := w.heap.setKind (some a) k } .cont :=
          fun hk hs => .set o i sa (i.setKind o sa (Nat.le_trans fa hM) hs hk)
        split at e
        · rename_i hk; cases e; exact .stop' i (by rw [hk]; decide)
        · rename_i hk; cases e; exact .stop' i (by rw [hk]; decide)
        · obtain ⟨p, e1, rfl, rfl⟩ := toJump_some e
          exact (skipNestNext_conf o hh hM (by decide) i ha e1).1.jump
        · cases e; exact .cont' i
        · cases e; exact .cont' i
        · cases e; exact .cont' i
        · cases e; exact .cont' i
        · cases e; exact .cont' i
        · obtain ⟨p, e1, rfl, rfl⟩ := toJump_some e
          exact (ih.func M _ w (some a) hooks _ _ hM hh i ha e1).jump
        · rename_i hk
          split at e
          · cases e; exact st t1 (by rw [hk]; decide)
          · split at e
            · cases e; exact st t2 (by rw [hk]; decide)
            · cases e; exact st t1 (by rw [hk]; decide)
        · rename_i hk
          split at e
          · cases e; exact st t1 (by rw [hk]; decide)
          · split at e
            · cases e; exact st t2 (by rw [hk]; decide)
            · cases e; exact st t1 (by rw [hk]; decide)
        · rename_i hk
          split at e
          · cases e; exact st t1 (by rw [hk]; decide)
          · split at e
            · cases e; exact st t2 (by rw [hk]; decide)
            · cases e; exact st t1 (by rw [hk]; decide)
        · cases e; exact .cont' i

end Goast
