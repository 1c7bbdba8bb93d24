import Verif.Proofs.Conf
import Verif.Proofs.Ends
import Verif.Proofs.Reduct
import Verif.Spec.Alias
import Verif.Props.Reset

/-!
# A type declaration that meets no `(` while collecting an aliased type keeps its text
-/

set_option linter.unusedSimpArgs false
set_option linter.unusedVariables false

namespace Goast
open Heap

variable {c : RCtx}

/-- Of two nodes of the chain the one of lower rank is behind the other. -/
def Lin (c : RCtx) : Prop :=
  ∀ x y l, c.S x → c.S y → c.f y < c.f x → Fwd c.h0 (c.h0.next (some x)) l → y ∈ l

/-- From `p` on, in the heap at the start, the reading of the declaration in state `st` meets no `(` it must not meet. -/
def OkAt (c : RCtx) (st : TypeState) (p : Ptr) : Prop := ∃ l, Fwd c.h0 p l ∧ Ok st (kindsOf c.h0 l)

theorem OkAt.step {st : TypeState} {a : Addr} (h : OkAt c st (some a)) :
    ¬ (st = .alias ∧ c.h0.kind (some a) = .parenL) ∧
    ∃ l, Fwd c.h0 (c.h0.next (some a)) l ∧
      ∀ st' ∈ st.succ (c.h0.kind (some a)) (kindsOf c.h0 l), OkAt c st' (c.h0.next (some a)) := by
  obtain ⟨l, f, ok⟩ := h
  cases f with
  | @cons _ l la f => exact ⟨ok.1, l, f, fun st' hs => ⟨l, f, ok.2 st' hs⟩⟩

theorem OkAt.mk {st : TypeState} {a : Addr} (ha : a < c.h0.size) {l : List Addr} (f : Fwd c.h0 (c.h0.next (some a)) l)
    (h1 : ¬ (st = .alias ∧ c.h0.kind (some a) = .parenL))
    (h : ∀ st' ∈ st.succ (c.h0.kind (some a)) (kindsOf c.h0 l), OkAt c st' (c.h0.next (some a))) : OkAt c st (some a) := by
  refine ⟨a :: l, .cons ha f, h1, fun st' hs => ?_⟩
  obtain ⟨l', f', ok⟩ := h st' hs
  rw [Fwd.det f f']; exact ok

theorem ok_line {h : Heap} {st : TypeState} {z : Addr} {p : Ptr} {l : List Addr} (f : Fwd h p l) : Ok (.line st) (kindsOf h l) → z ∈ l →
    ∃ l₂, Fwd h (some z) (z :: l₂) ∧ Ok (.line st) (kindsOf h (z :: l₂)) := by
  induction f with
  | nil => intro _ hz; cases hz
  | @cons a l la f ih =>
    intro ok hz
    rcases List.mem_cons.1 hz with rfl | hz
    · exact ⟨l, .cons la f, ok⟩
    · refine ih (ok.2 (.line st) ?_) hz
      simp only [TypeState.succ]
      split <;> simp

/-- Waiting for a line end: it may be any later one. -/
theorem OkAt.line {st : TypeState} (ln : Lin c) {a z : Addr} (h : OkAt c (.line st) (c.h0.next (some a))) (sa : c.S a) (sz : c.S z)
    (lt : c.f z < c.f a) : OkAt c (.line st) (some z) := by
  obtain ⟨l, f, ok⟩ := h
  obtain ⟨l₂, f', ok'⟩ := ok_line f ok (ln a z l sa sz lt f)
  exact ⟨_, f', ok'⟩

theorem OkAt.line_end {st : TypeState} {z : Addr} (h : OkAt c (.line st) (some z)) (hk : c.h0.kind (some z) = .newLine) :
    OkAt c st (c.h0.next (some z)) := by
  obtain ⟨_, l, f, h⟩ := h.step
  exact h st (by simp [TypeState.succ, hk])

/-! ## The loop -/

/-- What a callback must do at a node reached in a safe state. -/
structure AutoB (c : RCtx) (a : Addr) (Q : Prop) (A : Ptr → Prop) (T : Addr → Prop) (w w' : World) (ctl : Ctl) : Prop where
  inv : Inv c w'
  stop : ctl = .stop → w'.heap = w.heap ∧ Q
  cont : ctl = .cont → Below c (c.f a) w.heap w'.heap ∧ w'.heap.next (some a) = w.heap.next (some a) ∧ A (c.h0.next (some a))
  jump : ∀ t, ctl = .jump (some t) → c.f t < c.f a → Low c t w.heap w'.heap ∧ T t

theorem AutoB.stop' {a : Addr} {Q : Prop} {A : Ptr → Prop} {T : Addr → Prop} {w : World} (i : Inv c w) (q : Q) :
    AutoB c a Q A T w w .stop := ⟨i, fun _ => ⟨rfl, q⟩, nofun, nofun⟩

theorem AutoB.cont' {a : Addr} {Q : Prop} {A : Ptr → Prop} {T : Addr → Prop} {w : World} (i : Inv c w)
    (q : A (c.h0.next (some a))) : AutoB c a Q A T w w .cont := ⟨i, nofun, fun _ => ⟨.refl _ _, rfl, q⟩, nofun⟩

theorem AutoB.set (o : c.OK) {a : Addr} {Q : Prop} {A : Ptr → Prop} {T : Addr → Prop} {w : World} (i : Inv c w) (sa : c.S a)
    {k : Kind} (i' : Inv c { w with heap := w.heap.setKind (some a) k })
    (q : A (c.h0.next (some a))) : AutoB c a Q A T w { w with heap := w.heap.setKind (some a) k } .cont :=
  ⟨i', nofun, fun _ => ⟨below_setKind o i.good sa k, by simp, q⟩, nofun⟩

structure AutoI {σ : Type} (c : RCtx) (M : Nat) (A : σ → Ptr → Prop) (T : σ → Addr → Prop) (ws : World × JState σ) (p : Ptr) : Prop where
  inv : Inv c ws.1
  pos : c.P M p
  act : ws.2.skipAll = false → ws.2.jumpTo = none → A ws.2.s p ∧ ∀ b, p = some b → Low c b c.h0 ws.1.heap
  jmp : ws.2.skipAll = false → ∀ t, ws.2.jumpTo = some t →
    (Low c t c.h0 ws.1.heap ∧ T ws.2.s t) ∨ ∀ b, p = some b → c.f b < c.f t

theorem jump_auto (o : c.OK) {σ : Type} (consume : Bool)
    (body : World → σ → Addr → Option (World × σ × Ctl)) {M : Nat} (hM : M ≤ c.F) (A : σ → Ptr → Prop) (T : σ → Addr → Prop) (Q : Addr → Prop)
    (hT : ∀ s t, c.S t → T s t → A s (if consume then c.h0.next (some t) else some t))
    (hbody : ∀ w s a w' s' ctl, Inv c w → c.S a → c.f a ≤ M → Low c a c.h0 w.heap → A s (some a) →
      body w s a = some (w', s', ctl) → AutoB c a (Q a) (A s') (T s') w w' ctl)
    {w w' : World} {s : σ} {p r : Ptr} (i : Inv c w) (hp : c.P M p) (ha : A s p) (hl : ∀ b, p = some b → Low c b c.h0 w.heap)
    (e : jumpLoop consume [] body w s p = some (w', r)) :
    Inv c w' ∧ c.P M r ∧ ∀ z, r = some z → Low c z c.h0 w'.heap ∧ Q z := by
  simp only [jumpLoop, iterW] at e
  obtain ⟨⟨⟨w2, j2⟩, r2⟩, e1, e2⟩ := Option.map_eq_some_iff.1 e
  simp only [Prod.mk.injEq] at e2
  obtain ⟨rfl, rfl⟩ := e2
  refine loop_partial (AutoI c M A T) (fun ws r => Inv c ws.1 ∧ c.P M r ∧ ∀ z, r = some z → Low c z c.h0 ws.1.heap ∧ Q z) _ _ ?_ ?_
    _ _ _ _ _ (show AutoI c M A T (w, ⟨false, none, s⟩) p from ⟨i, hp, fun _ _ => ⟨ha, hl⟩, fun _ t h => (by cases h)⟩) e1
  · intro w i
    exact ⟨i.inv, .none, nofun⟩
  · rintro ⟨w, j⟩ a ⟨w', j'⟩ b i e
    have sa := (i.pos a rfl).1
    have fa := (i.pos a rfl).2
    have i1 := i.inv
    have nxt : ∀ {w1 : World}, Inv c w1 → c.P M (w1.heap.next (some a)) := fun i1 => i1.good.next_P o i.pos
    simp only [jumpStep, handleHook, List.foldl_nil] at e
    by_cases c1 : j.skipAll = true
    · rw [if_pos c1] at e
      cases e
      refine ⟨nofun, fun _ => ⟨i1, nxt i1, fun h => (by simp [c1] at h), fun h => (by simp [c1] at h)⟩⟩
    · rw [if_neg c1] at e
      have c1 : j.skipAll = false := by simpa using c1
      by_cases c2 : j.jumpTo ≠ none ∧ j.jumpTo ≠ some a
      · rw [if_pos c2] at e
        cases e
        refine ⟨nofun, fun _ => ⟨i1, nxt i1, fun _ h => absurd h c2.1, ?_⟩⟩
        intro _ t ht
        rcases i.jmp c1 t ht with h1 | h1
        · exact .inl h1
        · right
          intro b hb
          have := (i1.good.next_lt o sa b hb).2
          have := h1 a rfl
          omega
      · rw [if_neg c2] at e
        by_cases c3 : j.jumpTo ≠ none ∧ consume = true
        · rw [if_pos c3] at e
          cases e
          obtain ⟨hj, rfl⟩ := c3
          have hj : j.jumpTo = some a := by
            apply Classical.byContradiction
            intro hn
            exact c2 ⟨hj, hn⟩
          rcases i.jmp c1 a hj with ⟨h1, h2⟩ | h1
          · refine ⟨nofun, fun _ => ⟨i1, nxt i1, fun _ _ => ⟨?_, ?_⟩, nofun⟩⟩
            · have : A j.s (c.h0.next (some a)) := hT j.s a sa h2
              rw [show w.heap.next (some a) = c.h0.next (some a) from (h1 a sa (by omega)).1]
              exact this
            · intro b hb
              have := (i1.good.next_lt o sa b hb).2
              exact h1.mono (by omega)
          · have := h1 a rfl; omega
        · rw [if_neg c3] at e
          -- `a` is active
          have la : Low c a c.h0 w.heap ∧ A j.s (some a) := by
            cases hj : j.jumpTo with
            | none => exact ⟨(i.act c1 hj).2 a rfl, (i.act c1 hj).1⟩
            | some t =>
              have : t = a := by
                apply Classical.byContradiction
                intro hn
                exact c2 ⟨by simp [hj], by simpa [hj] using hn⟩
              subst this
              have hc : consume = false := by
                cases hc : consume with
                | false => rfl
                | true => exact absurd ⟨by simp [hj], hc⟩ c3
              rcases i.jmp c1 t hj with ⟨h1, h2⟩ | h1
              · have := hT j.s t sa h2
                rw [hc] at this
                exact ⟨h1, this⟩
              · have := h1 t rfl; omega
          obtain ⟨la, aa⟩ := la
          cases hb : body w j.s a with
          | none => rw [hb] at e; cases e
          | some x =>
            obtain ⟨w1, s1, ctl⟩ := x
            rw [hb] at e
            have cb := hbody _ _ _ _ _ _ i1 sa fa la aa hb
            cases ctl with
            | stop =>
              simp only [applyCtl] at e
              cases e
              obtain ⟨h1, h2⟩ := cb.stop rfl
              refine ⟨fun _ => ⟨cb.inv, .some sa fa, ?_⟩, nofun⟩
              intro z hz; cases hz
              exact ⟨h1 ▸ la, h2⟩
            | cont =>
              simp only [applyCtl] at e
              cases e
              obtain ⟨h1, h2, h3⟩ := cb.cont rfl
              refine ⟨nofun, fun _ => ⟨cb.inv, nxt cb.inv, fun _ _ => ⟨?_, ?_⟩, nofun⟩⟩
              · show A _ (World.heap _ |>.next (some a))
                rw [h2, (la a sa (by omega)).1]; exact h3
              · intro b hb
                have := (cb.inv.good.next_lt o sa b hb).2
                exact (la.mono (by omega)).trans (h1.mono (by omega))
            | jump q =>
              simp only [applyCtl] at e
              cases e
              refine ⟨nofun, fun _ => ⟨cb.inv, nxt cb.inv, ?_, ?_⟩⟩
              · intro h1 h2
                simp only at h1 h2
                simp [h2] at h1
              · intro _ t ht
                simp only at ht
                by_cases lt : c.f t < c.f a
                · left
                  obtain ⟨h1, h2⟩ := cb.jump t (by rw [ht]) lt
                  exact ⟨(la.mono (by omega)).trans h1, h2⟩
                · right
                  intro b hb
                  have := (cb.inv.good.next_lt o sa b hb).2
                  omega

/-! ## Brackets -/

theorem ok_skip {h : Heap} {L R : Kind} (hLR : L ≠ R) {st : TypeState} : ∀ (l₁ : List Addr) (n : Nat) (b : Addr) (l₂ : List Addr),
    Ok (.skip L R n st) (kindsOf h (l₁ ++ b :: l₂)) → 
    countKind h R (l₁ ++ [b]) = countKind h L (l₁ ++ [b]) + n → (∀ p q, l₁ = p ++ q → countKind h R p < countKind h L p + n) →
    Ok st (kindsOf h l₂) := by
  intro l₁
  induction l₁ with
  | nil =>
    intro n b l₂ ok h1 h2
    have h0 := h2 [] [] rfl
    simp [countKind] at h1 h0
    simp only [List.nil_append, kindsOf, List.map_cons] at ok
    have hL : h.kind (some b) ≠ L := by
      intro hk; rw [hk] at h1; simp [hLR] at h1; omega
    have hR : h.kind (some b) = R := by
      apply Classical.byContradiction
      intro hn; simp [hL, hn] at h1; omega
    simp [hR, hLR.symm] at h1
    subst h1
    refine ok.2 st ?_
    simp [TypeState.succ, hR, hLR.symm]
  | cons a l₁ ih =>
    intro n b l₂ ok h1 h2
    simp only [List.cons_append, kindsOf, List.map_cons] at ok
    have cc : ∀ (k : Kind) (m : List Addr), countKind h k (a :: m) = countKind h k m + (if h.kind (some a) = k then 1 else 0) := by
      intro k m
      simp [countKind, List.countP_cons]
    have h0 := h2 [] (a :: l₁) rfl
    have h3 := h2 [a] l₁ rfl
    rw [cc, cc] at h3
    rw [List.cons_append, cc, cc] at h1
    simp only [countKind, List.countP_nil] at h0 h3
    by_cases hL : h.kind (some a) = L
    · refine ih (n + 1) b l₂ (ok.2 _ (by simp [TypeState.succ, hL])) ?_ ?_
      · simp [hL, hLR] at h1; omega
      · intro p q e
        have := h2 (a :: p) q (by rw [e]; rfl)
        rw [cc, cc] at this
        simp [hL, hLR] at this; omega
    · by_cases hR : h.kind (some a) = R
      · simp [hR, hLR.symm] at h3
        refine ih (n - 1) b l₂ (ok.2 _ ?_) ?_ ?_
        · have : n ≠ 1 := by omega
          simp [TypeState.succ, hR, hLR.symm, this]
        · simp [hR, hLR.symm] at h1; omega
        · intro p q e
          have := h2 (a :: p) q (by rw [e]; rfl)
          rw [cc, cc] at this
          simp [hR, hLR.symm] at this; omega
      · refine ih n b l₂ (ok.2 _ (by simp [TypeState.succ, hL, hR])) ?_ ?_
        · simp [hL, hR] at h1; exact h1
        · intro p q e
          have := h2 (a :: p) q (by rw [e]; rfl)
          rw [cc, cc] at this
          simp [hL, hR] at this; exact this

/-- Behind matching brackets. -/
theorem OkAt.closed {L R : Kind} (hLR : L ≠ R) {st : TypeState} {a b : Addr} {l : List Addr} (h : OkAt c (.skip L R 1 st) (c.h0.next (some a)))
    (f : Fwd c.h0 (c.h0.next (some a)) l) (hc : Closes c.h0 L R l b) : OkAt c st (c.h0.next (some b)) := by
  obtain ⟨l', f', ok⟩ := h
  cases Fwd.det f f'
  obtain ⟨l₁, l₂, rfl, h1, h2⟩ := hc
  exact ⟨l₂, (Fwd.cons_iff.1 (f.drop l₁)).2.2, ok_skip hLR l₁ 1 b l₂ ok h1 h2⟩

/-! ## The chain from an untouched node on is the original one -/

theorem low_chain {h : Heap} (o : c.OK) (g : Good c h) (rank0 : ∀ a b, c.h0.next (some a) = some b → c.S a → c.S b ∧ c.f b < c.f a)
    {p : Ptr} {l : List Addr} (f : Fwd c.h0 p l) : ∀ a, p = some a → c.S a → Low c a c.h0 h →
    Fwd h p l ∧ kindsOf h l = kindsOf c.h0 l ∧ ∀ x ∈ l, c.S x ∧ c.f x ≤ c.f a := by
  induction f with
  | nil => intro a e; cases e
  | @cons b l lb f ih =>
    intro a e sa la
    cases e
    have lb' := g.lt o sa
    have ha := la b sa (by omega)
    cases hn : c.h0.next (some b) with
    | none =>
      rw [hn] at f ih ha
      cases f
      refine ⟨.cons lb' (by rw [ha.1]; exact .nil), by simp [kindsOf, ha.2.1], ?_⟩
      intro x hx
      simp at hx; subst hx; exact ⟨sa, Nat.le_refl _⟩
    | some d =>
      have sd := rank0 b d hn sa
      obtain ⟨h1, h2, h3⟩ := ih d hn sd.1 (la.mono (by omega))
      rw [hn] at ha
      refine ⟨.cons lb' (by rw [ha.1, ← hn]; exact h1), by simp only [kindsOf, List.map_cons] at h2 ⊢; rw [h2, ha.2.1], ?_⟩
      intro x hx
      rcases List.mem_cons.1 hx with rfl | hx
      · exact ⟨sa, Nat.le_refl _⟩
      · have := h3 x hx; exact ⟨this.1, by omega⟩

/-- What is known of the heap at the start. -/
structure Start (c : RCtx) : Prop where
  rank : ∀ a b, c.h0.next (some a) = some b → c.S a → c.S b ∧ c.f b < c.f a
  lin : Lin c

theorem countKind_congr {h h' : Heap} {l : List Addr} (e : kindsOf h l = kindsOf h' l) (k : Kind) : countKind h k l = countKind h' k l := by
  have : ∀ h : Heap, countKind h k l = (kindsOf h l).countP (fun x => decide (x = k)) := by
    intro h; simp [countKind, kindsOf, List.countP_map, Function.comp_def]
  rw [this, this, e]

theorem closes_congr {h h' : Heap} {L R : Kind} {l : List Addr} {b : Addr} (e : kindsOf h l = kindsOf h' l)
    (hc : Closes h L R l b) : Closes h' L R l b := by
  obtain ⟨l₁, l₂, rfl, h1, h2⟩ := hc
  have e1 : kindsOf h (l₁ ++ [b]) = kindsOf h' (l₁ ++ [b]) := by
    have : l₁ ++ b :: l₂ = (l₁ ++ [b]) ++ l₂ := by simp
    rw [this] at e
    unfold kindsOf at e ⊢
    rw [List.map_append, List.map_append (l₁ := l₁ ++ [b])] at e
    exact (List.append_inj e (by simp)).1
  refine ⟨l₁, l₂, rfl, ?_, ?_⟩
  · rw [← countKind_congr e1, ← countKind_congr e1]; exact h1
  · rintro p q rfl
    have e2 : kindsOf h p = kindsOf h' p := by
      unfold kindsOf at e1 ⊢
      rw [List.append_assoc, List.map_append, List.map_append (l₁ := p)] at e1
      exact (List.append_inj e1 (by simp)).1
    rw [← countKind_congr e2, ← countKind_congr e2]
    exact h2 p q rfl

/-- Skipping a bracket group without hooks. -/
theorem skip_auto (o : c.OK) (st0 : Start c) {L R : Kind} (hLR : L ≠ R) {st : TypeState} {w w' : World} {a : Addr} {r : Ptr} (i : Inv c w)
    (sa : c.S a) (la : Low c a c.h0 w.heap) (hk : w.heap.kind (some a) = L)
    (ok : OkAt c (.skip L R 1 st) (c.h0.next (some a))) (e : skipNestNext w (some a) L R [] = some (w', r)) :
    w' = w ∧ ∀ t, r = some t → OkAt c st (c.h0.next (some t)) := by
  obtain ⟨l, f, ok'⟩ := ok
  have f0 : Fwd c.h0 (some a) (a :: l) := .cons (o.lt a sa) f
  obtain ⟨f1, k1, _⟩ := low_chain o i.good st0.rank f0 a rfl sa la
  obtain ⟨r', e', hc, _⟩ := C53_skip_group hLR f1 hk w.buf
  have e' : skipNestNext w (some a) L R [] = some (w, r') := e'
  rw [e'] at e
  cases e
  refine ⟨rfl, fun t ht => ?_⟩
  have hc := (hc t).1 ht
  exact OkAt.closed hLR ⟨l, f, ok'⟩ f (closes_congr (by
    simp only [kindsOf, List.map_cons, List.cons.injEq] at k1; exact k1.2) hc)

/-! ## Function types -/

theorem general_stop {d : Nat} {w w' : World} {head : Ptr} {z : Addr}
    (e : generalFunc d w head [.newLine] [] = some (w', some z)) : w'.heap.kind (some z) = .newLine := by
  cases d with
  | zero => rw [generalFunc] at e; cases e
  | succ d =>
    rw [generalFunc_eq] at e
    obtain ⟨w0, s0, s1, e1⟩ := (JR.of_jumpLoop e).stopped
    have := generalBody_stop e1
    rw [this.1]; exact this.2

theorem func_stop {d : Nat} {w w' : World} {a z : Addr} (hk : w.heap.kind (some a) = .func_)
    (e : funcRun d { isNotMethod := true } w (some a) [] = some (w', some z)) : w'.heap.kind (some z) = .newLine := by
  cases d with
  | zero => rw [funcRun] at e; cases e
  | succ d =>
    rw [funcRun] at e
    simp only [Bool.false_eq_true, if_false, false_and] at e
    split at e
    · cases e
    · exact general_stop e
    · obtain ⟨w0, s0, s1, e1⟩ := (JR.of_jumpLoop e).stopped
      split at e1
      · simp at e1
      · generalize (if s0.1 = false then decide (w0.heap.kind (some z) = .parenL) else s0.2) = im at e1
        cases im with
        | true => exact absurd e1 toJump_stop
        | false =>
          simp only [Bool.false_eq_true, if_false] at e1
          split at e1
          · rename_i hk; cases e1; exact hk
          · exact absurd e1 toJump_stop

theorem method_stop {d : Nat} {w w' : World} {a z : Addr}
    (e : funcRun d { isInterfaceDefinition := true } w (some a) [] = some (w', some z)) : w'.heap.kind (some z) = .newLine := by
  cases d with
  | zero => rw [funcRun] at e; cases e
  | succ d =>
    rw [funcRun] at e
    simp only [Bool.false_eq_true, if_false, if_true] at e
    exact general_stop e

/-! ## Interfaces -/

theorem find_curly (o : c.OK) (st0 : Start c) {st st' : TypeState} (hs : ∀ k ks, k ≠ .curlyL → st.succ k ks = [st])
    (hs' : ∀ ks, st.succ .curlyL ks = [st']) {w w' : World} {a : Addr} {r : Ptr} (i : Inv c w)
    (sa : c.S a) (la : Low c a c.h0 w.heap) (fa : c.f a ≤ c.F) (ok : OkAt c st (some a))
    (e : findNext w (some a) [.curlyL] {} [] = some (w', r)) :
    w' = w ∧ ∀ z, r = some z → c.S z ∧ c.f z ≤ c.f a ∧ w.heap.kind (some z) = .curlyL ∧ OkAt c st' (c.h0.next (some z)) := by
  obtain ⟨rfl, cf⟩ := findNext_conf o (M := c.f a) fa i (.some sa (Nat.le_refl _)) e
  refine ⟨rfl, ?_⟩
  unfold findNext at e
  obtain ⟨⟨⟨w1, s1⟩, r1⟩, e1, e2⟩ := Option.map_eq_some_iff.1 e
  simp only [Prod.mk.injEq] at e2
  obtain ⟨rfl, rfl⟩ := e2
  have := loop_partial (fun (ws : World × Counts) p => ws.1 = w1 ∧ OkAt c st p ∧ c.P (c.f a) p)
    (fun ws p => ∀ z, p = some z → c.S z ∧ c.f z ≤ c.f a ∧ w1.heap.kind (some z) = .curlyL ∧ OkAt c st' (c.h0.next (some z)))
    _ _ ?_ ?_ _ _ _ _ _ ⟨rfl, ok, .some sa (Nat.le_refl _)⟩ e1
  · exact this
  · intro _ _ z hz; cases hz
  · rintro ⟨w2, s2⟩ b ⟨w3, s3⟩ y ⟨h1, h2, h3⟩ e0
    simp only at h1
    subst h1
    simp only [handleHook, List.foldl_nil, Option.some.injEq, Prod.mk.injEq] at e0
    obtain ⟨⟨rfl, rfl⟩, rfl⟩ := e0
    have sb := (h3 b rfl).1
    have lb := la b sb (by have := (h3 b rfl).2; omega)
    have hc : ∀ cs k, findCont [.curlyL] {} cs k = !decide (k = .curlyL) := by
      intro cs k
      cases k <;> rfl
    obtain ⟨_, l, f, h4⟩ := h2.step
    rw [hc, lb.2.1]
    refine ⟨?_, ?_⟩
    · intro hk z hz
      cases hz
      have hk : c.h0.kind (some b) = .curlyL := by simpa using hk
      refine ⟨sb, (h3 b rfl).2, by rw [lb.2.1]; exact hk, h4 st' ?_⟩
      rw [hk, hs']; simp
    · intro hk
      have hk : c.h0.kind (some b) ≠ .curlyL := by simpa using hk
      refine ⟨rfl, ?_, i.good.next_P o h3⟩
      show OkAt c st (w2.heap.next (some b))
      rw [lb.1]
      exact h4 st (by rw [hs _ _ hk]; simp)

theorem lineFunc_eq (o : c.OK) (st0 : Start c) {w : World} {a : Addr} {l : List Addr} {b : Bool} (i : Inv c w)
    (sa : c.S a) (la : Low c a c.h0 w.heap) (f : Fwd c.h0 (some a) l) (e : isThisLineFunction w (some a) = some b) :
    b = lineHasParen (kindsOf c.h0 l) := by
  obtain ⟨f1, k1, _⟩ := low_chain o i.good st0.rank f a rfl sa la
  rw [← k1]
  clear k1 f la sa st0 o
  unfold isThisLineFunction at e
  obtain ⟨⟨⟨w1, s1⟩, r1⟩, e1, e2⟩ := Option.map_eq_some_iff.1 e
  simp only at e2
  subst e2
  refine loop_partial (fun (ws : World × Bool) p => ws.1 = w ∧ ws.2 = false ∧ ∃ l', Fwd w.heap p l' ∧
      lineHasParen (kindsOf w.heap l) = lineHasParen (kindsOf w.heap l'))
    (fun ws p => ws.2 = lineHasParen (kindsOf w.heap l)) _ _ ?_ ?_ _ _ _ _ _ ⟨rfl, rfl, l, f1, rfl⟩ e1
  · rintro ⟨w2, s2⟩ ⟨h1, h2, l', f', h3⟩
    cases f'
    rw [h3]; exact h2
  · rintro ⟨w2, s2⟩ b ⟨w3, s3⟩ y ⟨h1, h2, l', f', h3⟩ e
    simp only at h1 h2
    subst h1 h2
    cases f' with
    | @cons _ l' lb f' =>
      simp only [kindsOf, List.map_cons, lineHasParen] at h3
      split at e
      · rename_i hk
        cases e
        simp only at hk
        rw [hk] at h3
        simp at h3
        refine ⟨fun _ => ?_, nofun⟩
        exact h3.symm
      · rename_i hk
        cases e
        simp only at hk
        rw [hk] at h3
        simp at h3
        refine ⟨fun _ => ?_, nofun⟩
        exact h3.symm
      · rename_i hk1 hk2
        cases e
        refine ⟨nofun, fun _ => ⟨rfl, rfl, l', f', ?_⟩⟩
        rw [if_neg hk1, if_neg hk2] at h3
        exact h3

theorem ok_stmt : ∀ (ks : List Kind) (p c s : Int), Ok (.stmt p c s) ks → ∀ k rest, stmtEnd p c s ks = k :: rest →
    (k = .newLine ∧ Ok .ifc rest) ∨ (k = .curlyR ∧ Ok .typ rest)
  | [], _, _, _, _, _, _, e => by cases e
  | k :: ks, p, c, s, ok, k', rest, e => by
    simp only [stmtEnd] at e
    split at e
    · rename_i hc
      cases e
      have := ok.2
      simp only [TypeState.succ] at this
      rcases hc.2.2.2 with hk | hk
      · left
        rw [if_pos ⟨hc.1, hc.2.1, hc.2.2.1, hk⟩] at this
        exact ⟨hk, this _ (by simp)⟩
      · right
        rw [if_neg (by rw [hk]; simp), if_pos ⟨hc.1, hc.2.1, hc.2.2.1, hk⟩] at this
        exact ⟨hk, this _ (by simp)⟩
    · rename_i hc
      refine ok_stmt ks _ _ _ (ok.2 _ ?_) k' rest e
      simp only [TypeState.succ]
      rw [if_neg (fun h => hc ⟨h.1, h.2.1, h.2.2.1, .inl h.2.2.2⟩), if_neg (fun h => hc ⟨h.1, h.2.1, h.2.2.1, .inr h.2.2.2⟩)]
      simp

/-- Kinds at which an interface body waits for the next entry, or ends. -/
def ifcBlank (k : Kind) : Bool :=
  match k with
  | .curlyR | .tab | .comment | .newLine | .space | .curlyL => true
  | _ => false

theorem ifc_succ {k : Kind} (h : ifcBlank k = false) (ks : List Kind) : TypeState.succ .ifc k ks =
    if lineHasParen (k :: ks) = true then [.line .ifc]
    else [.stmt (delta .parenL .parenR k) (delta .curlyL .curlyR k) (delta .squareL .squareR k)] := by
  cases k <;> first | (simp [ifcBlank] at h; done) | rfl

theorem OkAt.ifc_blank {a : Addr} (ha : a < c.h0.size)
    (hk : c.h0.kind (some a) = .newLine) (h : OkAt c .ifc (c.h0.next (some a))) : OkAt c .ifc (some a) := by
  obtain ⟨l, f, ok⟩ := h
  refine .mk ha f (by simp) ?_
  intro st' hs
  rw [hk] at hs
  simp [TypeState.succ] at hs
  subst hs
  exact ⟨l, f, ok⟩

theorem Low.kind {a : Addr} {h h' : Heap} (l : Low c a h h') (sa : c.S a) : h'.kind (some a) = h.kind (some a) :=
  (l a sa (by omega)).2.1

theorem Low.next {a : Addr} {h h' : Heap} (l : Low c a h h') (sa : c.S a) : h'.next (some a) = h.next (some a) :=
  (l a sa (by omega)).1

/-- A jump to a line end behind a function type or method. -/
theorem Conf.toLine {M : Nat} {w w' : World} {a t : Addr} {hooks : List Hook} {st : TypeState} (st0 : Start c)
    (cf : Conf c M hooks w w' (some t)) (sa : c.S a) (la : Low c a c.h0 w.heap)
    (lt : c.f t < c.f a) (ok : OkAt c (.line st) (c.h0.next (some a))) :
    Low c t w.heap w'.heap ∧ OkAt c (.line st) (some t) ∧ c.S t ∧ w'.heap.kind (some t) = c.h0.kind (some t) := by
  have stt := (cf.pos t rfl).1
  exact ⟨cf.low t rfl, ok.line st0.lin sa stt lt, stt, ((cf.low t rfl).kind stt).trans (Low.kind (a := t) (la.mono (by omega)) stt)⟩

theorem interfaceRun_auto (o : c.OK) (st0 : Start c) {M d : Nat} (hM : M ≤ c.F) {w w' : World} {a : Addr} {r : Ptr} (i : Inv c w)
    (sa : c.S a) (fa : c.f a ≤ M) (la : Low c a c.h0 w.heap) (ok : OkAt c .ifc0 (some a))
    (e : interfaceRun d w (some a) = some (w', r)) :
    Inv c w' ∧ c.P M r ∧ ∀ z, r = some z → Low c z c.h0 w'.heap ∧ OkAt c .typ (c.h0.next (some z)) := by
  unfold interfaceRun at e
  split at e
  · cases e
  · rename_i w1 head ef
    obtain ⟨rfl, hz⟩ := find_curly o st0 (st' := .ifc) (fun k ks hk => by simp [TypeState.succ, hk]) (fun ks => by simp [TypeState.succ]) i sa la
      (Nat.le_trans fa hM) ok ef
    cases head with
    | none => rw [jumpLoop_none] at e; cases e; exact ⟨i, .none, nofun⟩
    | some b =>
      obtain ⟨sb, fb, kb, okb⟩ := hz b rfl
      have lb : Low c b c.h0 w1.heap := la.mono (by omega)
      have okb' : OkAt c .ifc (some b) := by
        obtain ⟨l, f, ok⟩ := okb
        refine .mk (o.lt b sb) f (by simp) ?_
        intro st' hs
        rw [← lb.kind sb, kb] at hs
        simp [TypeState.succ] at hs
        subst hs
        exact ⟨l, f, ok⟩
      refine jump_auto o false _ hM (fun _ p => OkAt c .ifc p) (fun _ t => OkAt c .ifc (some t))
        (fun z => OkAt c .typ (c.h0.next (some z))) (fun s t _ h => by simpa using h) ?_ i (.some sb (by omega)) okb' (fun x hx => by cases hx; exact lb) e
      clear e ef hz okb' okb kb lb fb sb b la sa fa ok i
      intro w s a w' s' ctl i sa fa la ok e
      have ha : c.P M (some a) := .some sa fa
      have kk : w.heap.kind (some a) = c.h0.kind (some a) := la.kind sa
      obtain ⟨_, l, f, step⟩ := ok.step
      rw [← kk] at step
      split at e
      · rename_i hk
        cases e
        exact .stop' i (step .typ (by rw [hk]; simp [TypeState.succ]))
      · rename_i hk; cases e; exact .cont' i (step .ifc (by rw [hk]; simp [TypeState.succ]))
      · rename_i hk; cases e; exact .cont' i (step .ifc (by rw [hk]; simp [TypeState.succ]))
      · rename_i hk; cases e; exact .cont' i (step .ifc (by rw [hk]; simp [TypeState.succ]))
      · rename_i hk; cases e; exact .cont' i (step .ifc (by rw [hk]; simp [TypeState.succ]))
      · rename_i hk; cases e; exact .cont' i (step .ifc (by rw [hk]; simp [TypeState.succ]))
      · rename_i h1 h2 h3 h4 h5 h6
        have hb : ifcBlank (w.heap.kind (some a)) = false := by
          cases hk : w.heap.kind (some a) <;> first | rfl | contradiction
        rw [ifc_succ hb] at step
        split at e
        · cases e
        · rename_i el
          have hl := lineFunc_eq o st0 i sa la (.cons (o.lt a sa) f) el
          have hl : _ = lineHasParen (c.h0.kind (some a) :: kindsOf c.h0 l) := hl
          rw [← kk] at hl
          obtain ⟨p, e1, rfl, rfl⟩ := toJump_some e
          have cf := (confs o d).func M _ w (some a) [] _ _ hM H_nil i ha e1
          refine ⟨cf.inv, nofun, nofun, ?_⟩
          intro t ht lt
          cases ht
          have okl := step (.line .ifc) (by rw [if_pos hl.symm]; simp)
          obtain ⟨c1, c2, c3, c4⟩ := cf.toLine st0 sa la lt okl
          have kt := method_stop e1
          rw [c4] at kt
          exact ⟨c1, .ifc_blank (o.lt t c3) kt (c2.line_end kt)⟩
        · rename_i el
          have hl := lineFunc_eq o st0 i sa la (.cons (o.lt a sa) f) el
          have hl : _ = lineHasParen (c.h0.kind (some a) :: kindsOf c.h0 l) := hl
          rw [← kk] at hl
          have oks := step (.stmt _ _ _) (by rw [if_neg (by rw [← hl]; simp)]; exact List.mem_singleton.2 rfl)
          -- the entry
          have i1 : Inv c (if w.heap.kind (some a) = .raw then { w with heap := w.heap.setKind (some a) .typeName } else w) := by
            split
            · rename_i hk; exact i.setKind o sa (Nat.le_trans fa hM) (by rw [hk]; decide) (by decide)
            · exact i
          have b1 : Below c (c.f a) w.heap (if w.heap.kind (some a) = .raw then { w with heap := w.heap.setKind (some a) .typeName } else w).heap := by
            split
            · exact below_setKind o i.good sa _
            · exact .refl _ _
          have n1 : (if w.heap.kind (some a) = .raw then { w with heap := w.heap.setKind (some a) .typeName } else w).heap.next (some a) = w.heap.next (some a) := by
            split <;> simp
          have d1 : ∀ L R, L ≠ .typeName → R ≠ .typeName → L ≠ .raw → R ≠ .raw →
              delta L R ((if w.heap.kind (some a) = .raw then { w with heap := w.heap.setKind (some a) .typeName } else w).heap.kind (some a)) =
              delta L R (w.heap.kind (some a)) := by
            intro L R x1 x2 x3 x4
            split
            · rename_i hk
              rw [kind_setKind _ _ _ _ (i.good.lt o sa), if_pos rfl, hk]
              simp [delta, x1.symm, x2.symm, x3.symm, x4.symm]
            · rfl
          have k1 : ∀ k, k ≠ .typeName → w.heap.kind (some a) ≠ k → (if w.heap.kind (some a) = .raw then { w with heap := w.heap.setKind (some a) .typeName } else w).heap.kind (some a) ≠ k := by
            intro k x1 x2
            split
            · rw [kind_setKind _ _ _ _ (i.good.lt o sa), if_pos rfl]; exact x1.symm
            · exact x2
          generalize (if w.heap.kind (some a) = .raw then { w with heap := w.heap.setKind (some a) .typeName } else w) = w1 at *
          obtain ⟨p, e1, rfl, rfl⟩ := toJump_some e
          have f0 := low_chain o i.good st0.rank (.cons (o.lt a sa) f) a rfl sa la
          -- the chain behind `a` in the new world
          have fl : Fwd w1.heap (w1.heap.next (some a)) l ∧ kindsOf w1.heap l = kindsOf c.h0 l := by
            rw [n1, la.next sa]
            cases hn : c.h0.next (some a) with
            | none => rw [hn] at f; cases f; exact ⟨.nil, rfl⟩
            | some b =>
              have sb := st0.rank a b hn sa
              rw [hn] at f
              have := low_chain o i1.good st0.rank f b rfl sb.1 ((la.mono (by omega) : Low c b _ _).trans (b1.mono (by omega)))
              exact ⟨this.1, this.2.1⟩
          have fw : Fwd w1.heap (some a) (a :: l) := .cons (i1.good.lt o sa) fl.1
          obtain ⟨r, l₁, l₂, e2, h7, h8, h9⟩ := findEnd w1.buf fw
          have e2 : findNext w1 (some a) [.newLine, .curlyR] outside [] = some (w1, r) := e2
          have e1 : findNext w1 (some a) [.newLine, .curlyR] outside [] = some (w', p) := e1
          rw [e2] at e1
          simp only [Option.some.injEq, Prod.mk.injEq] at e1
          obtain ⟨rfl, rfl⟩ := e1
          refine ⟨i1, nofun, nofun, ?_⟩
          intro t ht lt
          cases ht
          cases h8 with
          | @cons _ l₂ lt' h8 =>
            simp only [kindsOf, List.map_cons, stmtEnd] at h9
            rw [if_neg (by
              rintro ⟨_, _, _, hh⟩
              rcases hh with hh | hh
              · exact k1 .newLine (by decide) (by intro hk; rw [hk] at hb; cases hb) hh
              · exact k1 .curlyR (by decide) (by intro hk; rw [hk] at hb; cases hb) hh)] at h9
            rw [d1 _ _ (by decide) (by decide) (by decide) (by decide), d1 _ _ (by decide) (by decide) (by decide) (by decide),
              d1 _ _ (by decide) (by decide) (by decide) (by decide)] at h9
            have kl := fl.2
            simp only [kindsOf] at kl
            rw [kl, Int.zero_add, Int.zero_add, Int.zero_add] at h9
            obtain ⟨l', f', oks⟩ := oks
            cases Fwd.det f f'
            simp only [kindsOf] at oks
            have hm : t ∈ a :: l := by rw [h7]; simp
            have stt := (f0.2.2 t hm).1
            have lowt : Low c t w.heap w1.heap := b1.mono (by omega)
            have lt0 : Low c t c.h0 w.heap := la.mono (by omega)
            have lowt' : Low c t c.h0 w1.heap := lt0.trans lowt
            -- behind `t`
            have fz : Fwd c.h0 (c.h0.next (some t)) l₂ ∧ kindsOf w1.heap l₂ = kindsOf c.h0 l₂ := by
              have : ∃ m, Fwd c.h0 (some t) (t :: m) := by
                have f0' : Fwd c.h0 (some a) (a :: l) := .cons (o.lt a sa) f
                rw [h7] at f0'
                exact ⟨l₂, f0'.drop l₁⟩
              obtain ⟨m, fm⟩ := this
              obtain ⟨q1, q2, _⟩ := low_chain o i1.good st0.rank fm t rfl stt lowt'
              have q1 := (Fwd.cons_iff.1 q1).2.2
              cases Fwd.det q1 h8
              simp only [kindsOf, List.map_cons, List.cons.injEq] at q2
              exact ⟨(Fwd.cons_iff.1 fm).2.2, q2.2⟩
            have kz := fz.2
            simp only [kindsOf] at kz
            rw [kz] at h9
            have kt : w1.heap.kind (some t) = c.h0.kind (some t) := lowt'.kind stt
            rcases ok_stmt _ _ _ _ oks _ _ h9.symm with ⟨hk, hok⟩ | ⟨hk, hok⟩
            · exact ⟨lowt, .ifc_blank (o.lt t stt) (by rw [← kt]; exact hk) ⟨l₂, fz.1, hok⟩⟩
            · refine ⟨lowt, .mk (o.lt t stt) fz.1 (by simp) ?_⟩
              intro st' hs
              rw [← kt, hk] at hs
              simp [TypeState.succ] at hs
              subst hs
              exact ⟨l₂, fz.1, hok⟩

end Goast
