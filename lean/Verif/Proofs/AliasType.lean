import Verif.Proofs.AliasParam

/-!
# Type scopes keep their text if no `(` is met while collecting an aliased type
-/

set_option linter.unusedSimpArgs false
set_option linter.unusedVariables false

namespace Goast
open Heap

variable {c : RCtx}

theorem Low.sub {a t : Addr} {h0 h h' : Heap} (la : Low c a h0 h) (lt : Low c t h0 h') (hf : c.f t ≤ c.f a) : Low c t h h' := by
  intro x sx hx
  have h5 := lt x sx hx
  have h6 := la x sx (by omega)
  exact ⟨h5.1.trans h6.1.symm, h5.2.1.trans h6.2.1.symm, h5.2.2.trans h6.2.2.symm⟩

/-- Where the reading is, from the variables of `typeResetter.Run`. -/
def stateOf (s : Bool × Bool) : TypeState := if s.1 = false then .name else if s.2 = false then .sep else .typ

theorem typeRun_auto (o : c.OK) (st0 : Start c)
    (hx : ∀ (h : Heap) (n : Addr) (m rest : List Addr) (h' : Heap), Good c h → c.S n → h.kind (some n) ≠ .comment → Path h (n :: m) → rest.Sublist m →
      (∀ a ∈ m, a ∉ rest → h.kind (some a) = .comment) → deferCombine h (some n :: rest.map some) .paramType = some h' → c.X h')
    {M d : Nat} (hM : M ≤ c.F) (hT : M ≤ c.top) {w w' : World} {a : Addr} {r : Ptr} (i : Inv c w)
    (sa : c.S a) (fa : c.f a ≤ M) (la : Low c a c.h0 w.heap) (ok : OkAt c .name (some a))
    (e : typeRun d w (some a) = some (w', r)) : Inv c w' := by
  rw [typeRun_eq] at e
  split at e
  · cases e; exact i
  · refine (jump_auto o true _ hM (fun s p => (s.1 = false → s.2 = false) ∧ OkAt c (stateOf s) p)
      (fun s t => (s.1 = false → s.2 = false) ∧ OkAt c (stateOf s) (c.h0.next (some t)))
      (fun z => True) (fun s t _ h => by simpa using h) ?_ (s := (false, false)) i (.some sa fa) ⟨fun _ => rfl, ok⟩ (fun x hx => by cases hx; exact la) e).1
    rename_i hty
    clear e la sa fa ok i hty w w' a
    rintro w ⟨s1, s2⟩ a w' s' ctl i sa fa la ⟨hs, ok⟩ e
    have ha : c.P M (some a) := .some sa fa
    have kk : w.heap.kind (some a) = c.h0.kind (some a) := la.kind sa
    obtain ⟨_, l, f, step⟩ := ok.step
    rw [← kk] at step
    unfold typeBody at e
    simp only at e hs
    cases s1 with
    | false =>
      have hs := hs rfl
      subst hs
      simp only [if_true] at e
      have step : ∀ st' ∈ TypeState.succ .name (w.heap.kind (some a)) (kindsOf c.h0 l), OkAt c st' (c.h0.next (some a)) := step
      split at e
      · cases e; exact .stop' i trivial
      · cases e; exact .stop' i trivial
      · rename_i hk
        cases e
        refine .set o i sa (i.setKind o sa (Nat.le_trans fa hM) (by rw [hk]; decide) (by decide)) ⟨nofun, ?_⟩
        exact step .sep (by rw [hk]; simp [TypeState.succ])
      · rename_i h1 h2 h3
        cases e
        refine .cont' i ⟨fun _ => rfl, step .name ?_⟩
        simp only [TypeState.succ]
        rw [if_neg h3, if_neg (fun hh => hh.elim h2 h1)]; simp
    | true =>
      simp only [Bool.true_eq_false, if_false] at e
      cases s2 with
      | false =>
        simp only [if_true] at e
        have step : ∀ st' ∈ TypeState.succ .sep (w.heap.kind (some a)) (kindsOf c.h0 l), OkAt c st' (c.h0.next (some a)) := step
        split at e
        · rename_i hk
          cases e
          exact .cont' i ⟨nofun, step .typ (by rw [hk]; simp [TypeState.succ])⟩
        · rename_i hk
          obtain ⟨p, e1, rfl, rfl⟩ := toJump_some e
          obtain ⟨rfl, q⟩ := skip_auto o st0 (by decide) i sa la hk (step (.skip .squareL .squareR 1 .sep) (by rw [hk]; simp [TypeState.succ])) e1
          refine ⟨i, nofun, nofun, ?_⟩
          intro t ht lt
          cases ht
          exact ⟨.refl _ _, nofun, q t rfl⟩
        · rename_i h1 h2
          cases e
          exact .cont' i ⟨nofun, step .sep (by simp only [TypeState.succ]; rw [if_neg h1, if_neg h2]; simp)⟩
      | true =>
        simp only [Bool.true_eq_false, if_false] at e
        have ok : OkAt c .typ (some a) := ok
        have step : ∀ st' ∈ TypeState.succ .typ (w.heap.kind (some a)) (kindsOf c.h0 l), OkAt c st' (c.h0.next (some a)) := step
        have fin : ∀ {p : Ptr} {w' : World}, (Inv c w' ∧ c.P M p ∧ ∀ z, p = some z → Low c z c.h0 w'.heap ∧ OkAt c .typ (c.h0.next (some z))) →
            AutoB c a True (fun p => (true = false → true = false) ∧ OkAt c (stateOf (true, true)) p)
              (fun t => (true = false → true = false) ∧ OkAt c (stateOf (true, true)) (c.h0.next (some t))) w w' (.jump p) := by
          rintro p w' ⟨h1, h2, h3⟩
          refine ⟨h1, nofun, nofun, ?_⟩
          intro t ht lt
          cases ht
          obtain ⟨h4, h5⟩ := h3 t rfl
          exact ⟨la.sub h4 (by omega), nofun, h5⟩
        split at e
        · rename_i hk; cases e; exact .cont' i ⟨nofun, step .typ (by rw [hk]; simp [TypeState.succ])⟩
        · rename_i hk
          obtain ⟨p, e1, rfl, rfl⟩ := toJump_some e
          have ok1 : OkAt c .ifc0 (some a) := by
            refine .mk (o.lt a sa) f (by simp) ?_
            intro st' hs'
            rw [← kk, hk] at hs'
            simp [TypeState.succ] at hs'
            subst hs'
            exact step _ (by rw [hk]; simp [TypeState.succ])
          exact fin (interfaceRun_auto o st0 hM i sa fa la ok1 e1)
        · rename_i hk
          obtain ⟨p, e1, rfl, rfl⟩ := toJump_some e
          have ok1 : OkAt c .str0 (some a) := by
            refine .mk (o.lt a sa) f (by simp) ?_
            intro st' hs'
            rw [← kk, hk] at hs'
            simp [TypeState.succ] at hs'
            subst hs'
            exact step _ (by rw [hk]; simp [TypeState.succ])
          exact fin (structRun_auto o st0 hM i sa fa la ok1 e1)
        · rename_i hk
          obtain ⟨p, e1, rfl, rfl⟩ := toJump_some e
          have cf := (confs o d).func M _ w (some a) [] _ _ hM H_nil i ha e1
          refine ⟨cf.inv, nofun, nofun, ?_⟩
          intro t ht lt
          cases ht
          have okl := step (.line .typ) (by rw [hk]; simp [TypeState.succ])
          obtain ⟨c1, c2, c3, c4⟩ := cf.toLine st0 sa la lt okl
          have kt := func_stop hk e1
          rw [c4] at kt
          exact ⟨c1, nofun, c2.line_end kt⟩
        · rename_i hk
          obtain ⟨p, e1, rfl, rfl⟩ := toJump_some e
          exact fin (paramRun_auto o st0 hx hM hT i sa fa hk la ok e1)
        · rename_i hk
          obtain ⟨p, e1, rfl, rfl⟩ := toJump_some e
          obtain ⟨rfl, q⟩ := skip_auto o st0 (by decide) i sa la hk (step (.skip .squareL .squareR 1 .typ) (by rw [hk]; simp [TypeState.succ])) e1
          refine ⟨i, nofun, nofun, ?_⟩
          intro t ht lt
          cases ht
          exact ⟨.refl _ _, nofun, q t rfl⟩
        · rename_i h1 h2 h3 h4 h5 h6
          cases e
          refine .cont' i ⟨nofun, step .typ ?_⟩
          cases hk : w.heap.kind (some a) <;> first | (simp [TypeState.succ]; done) | contradiction

/-! ## `resetKind` -/

theorem behind_eq {h : Heap} (ac : Acyclic h) {a : Addr} (ha : a < h.size) {l : List Addr} (f : Fwd h (some a) l) :
    behind h ac a = l.length - 1 := by
  simp only [behind, ha, dif_pos]
  rw [Fwd.det (Classical.choose_spec (ac a ha)) f]

theorem start_rctx {h : Heap} (w : WF h) (ac : Acyclic h) {l : List Addr} (ch : Chain h l) (X : Heap → Prop) : Start (rctx h ac l X) where
  rank a b e sa := ⟨(chain_next_mem w ch e).1 sa, behind_next w ac a b e⟩
  lin := by
    intro x y m sx sy lt f
    have sx : x ∈ l := sx
    have sy : y ∈ l := sy
    replace lt : behind h ac y < behind h ac x := lt
    have f : Fwd h (h.next (some x)) m := f
    obtain ⟨l₁, l₂, rfl⟩ := List.append_of_mem sx
    have fx : Fwd h (some x) (x :: l₂) := ch.fwd.drop l₁
    have f2 := (Fwd.cons_iff.1 fx).2.2
    cases Fwd.det f f2
    have bx := behind_eq ac (ch.1 x sx) fx
    simp at bx
    rcases List.mem_append.1 sy with hy | hy
    · obtain ⟨m₁, m₂, rfl⟩ := List.append_of_mem hy
      have fy : Fwd h (some y) (y :: (m₂ ++ x :: m)) := by
        have := ch.fwd
        have e : m₁ ++ y :: m₂ ++ x :: m = m₁ ++ (y :: (m₂ ++ x :: m)) := by simp
        rw [e] at this
        exact this.drop m₁
      have by' := behind_eq ac (ch.1 y sy) fy
      simp at by'
      omega
    · rcases List.mem_cons.1 hy with rfl | hy
      · omega
      · exact hy

/-- A type scope that meets no `(` while collecting an aliased type keeps its text, comments aside. -/
theorem resetKind_red_type {h : Heap} (w : WF h) (ac : Acyclic h) {a : Addr} {l : List Addr} (ch : Chain h (a :: l))
    (hok : Ok .name (kindsOf h (a :: l))) (hk : h.kind (some a) = .type_) :
    ∃ h' r, resetKind h (some a) = some (h', r) ∧ Red h (a :: l) h' := by
  obtain ⟨h', r, e, _⟩ := resetKind_inv w ac ch (a := a) (by simp)
  refine ⟨h', r, e, ?_⟩
  unfold resetKind at e
  rw [hk] at e
  obtain ⟨⟨w', r'⟩, e1, e2⟩ := Option.map_eq_some_iff.1 e
  simp only [Prod.mk.injEq] at e2
  obtain ⟨rfl, rfl⟩ := e2
  have o := ok_red ac ch
  have sa : (rctx h ac (a :: l) (Red h (a :: l))).S a := by show a ∈ a :: l; simp
  have hlt : behind h ac a < h.size := behind_lt ac (ch.1 a (by simp))
  have := typeRun_auto o (start_rctx w ac ch _) (M := behind h ac a) (d := resetDepth h) ?_ (Nat.le_of_lt hlt) (Nat.le_of_lt hlt)
    (inv_start w ac ch (Red.start ch)) sa (Nat.le_refl _) (.refl _ _) ⟨a :: l, ch.fwd, hok⟩ e1
  · exact this.good.x
  · intro g n m rest g' gd sn nc path sub miss e
    obtain ⟨l', K, r⟩ := gd.x
    exact r.merge gd.wf gd.comm sn nc path sub miss e (by rw [show g.size = h.size from gd.size]; exact ch.1 n sn)

end Goast
