import Verif.Proofs.Alias

/-!
# Struct bodies read in a safe state
-/

set_option linter.unusedSimpArgs false
set_option linter.unusedVariables false

namespace Goast
open Heap

variable {c : RCtx}

theorem line_stay (st : TypeState) (k : Kind) (ks : List Kind) : TypeState.line st ∈ TypeState.succ (.line st) k ks := by
  simp only [TypeState.succ]; split <;> simp

theorem structRow_auto (o : c.OK) (st0 : Start c) {M d : Nat} (hM : M ≤ c.F) {w w' : World} {a : Addr} {r : Ptr} (i : Inv c w)
    (sa : c.S a) (fa : c.f a ≤ M) (la : Low c a c.h0 w.heap) (ok : OkAt c .row (some a))
    (e : structRow d w (some a) = some (w', r)) :
    Inv c w' ∧ c.P M r ∧ ∀ z, r = some z → Low c z c.h0 w'.heap ∧ (c.h0.kind (some z) = .newLine ∧ OkAt c .str (c.h0.next (some z))) := by
  unfold structRow at e
  split at e
  · cases e
  · refine jump_auto o false _ hM (fun _ p => OkAt c .row p ∨ OkAt c (.line .str) p) (fun _ t => OkAt c (.line .str) (some t))
      (fun z => c.h0.kind (some z) = .newLine ∧ OkAt c .str (c.h0.next (some z))) (fun s t _ h => by simpa using .inr h) ?_ i (.some sa fa)
      (.inl ok) (fun x hx => by cases hx; exact la) e
    clear e la sa fa ok i
    intro w s a w' s' ctl i sa fa la ok e
    have ha : c.P M (some a) := .some sa fa
    have kk : w.heap.kind (some a) = c.h0.kind (some a) := la.kind sa
    -- the state behind a node that is neither a line end nor `func`
    have stay : w.heap.kind (some a) ≠ .newLine → w.heap.kind (some a) ≠ .func_ →
        OkAt c .row (c.h0.next (some a)) ∨ OkAt c (.line .str) (c.h0.next (some a)) := by
      intro h1 h2
      rw [kk] at h1 h2
      rcases ok with ok | ok
      · obtain ⟨_, l, f, step⟩ := ok.step
        exact .inl (step .row (by simp [TypeState.succ, h1, h2]))
      · obtain ⟨_, l, f, step⟩ := ok.step
        exact .inr (step _ (line_stay _ _ _))
    have nl : w.heap.kind (some a) = .newLine → OkAt c .str (c.h0.next (some a)) := by
      intro h1
      rw [kk] at h1
      rcases ok with ok | ok
      · obtain ⟨_, l, f, step⟩ := ok.step
        exact step .str (by simp [TypeState.succ, h1])
      · exact ok.line_end h1
    split at e
    · rename_i hk; cases e; exact .stop' i ⟨kk ▸ hk, nl hk⟩
    · rename_i hk; cases e; exact .cont' i (stay (by rw [hk]; decide) (by rw [hk]; decide))
    · rename_i hk; cases e; exact .cont' i (stay (by rw [hk]; decide) (by rw [hk]; decide))
    · rename_i hk; cases e; exact .cont' i (stay (by rw [hk]; decide) (by rw [hk]; decide))
    · rename_i hk; cases e; exact .cont' i (stay (by rw [hk]; decide) (by rw [hk]; decide))
    · rename_i hk
      split at e
      · cases e
        exact .set o i sa (i.setKind o sa (Nat.le_trans fa hM) (by rw [hk]; decide) (by decide)) (stay (by rw [hk]; decide) (by rw [hk]; decide))
      · cases e
        exact .set o i sa (i.setKind o sa (Nat.le_trans fa hM) (by rw [hk]; decide) (by decide)) (stay (by rw [hk]; decide) (by rw [hk]; decide))
    · rename_i hk
      obtain ⟨p, e1, rfl, rfl⟩ := toJump_some e
      have cf := (confs o d).func M _ w (some a) [.rawToParamType] _ _ hM (by simp [RCtx.H]) i ha e1
      refine ⟨cf.inv, nofun, nofun, ?_⟩
      intro t ht lt
      cases ht
      have okl : OkAt c (.line .str) (c.h0.next (some a)) := by
        rcases ok with ok | ok
        · obtain ⟨_, l, f, step⟩ := ok.step
          exact step _ (by simp [TypeState.succ, ← kk, hk])
        · obtain ⟨_, l, f, step⟩ := ok.step
          exact step _ (line_stay _ _ _)
      obtain ⟨c1, c2, c3, c4⟩ := cf.toLine st0 sa la lt okl
      exact ⟨c1, c2⟩
    · rename_i h1 h2 h3 h4 h5 h6 h7
      cases e
      exact .cont' i (stay h1 h7)

theorem structRun_auto (o : c.OK) (st0 : Start c) {M d : Nat} (hM : M ≤ c.F) {w w' : World} {a : Addr} {r : Ptr} (i : Inv c w)
    (sa : c.S a) (fa : c.f a ≤ M) (la : Low c a c.h0 w.heap) (ok : OkAt c .str0 (some a))
    (e : structRun d w (some a) = some (w', r)) :
    Inv c w' ∧ c.P M r ∧ ∀ z, r = some z → Low c z c.h0 w'.heap ∧ OkAt c .typ (c.h0.next (some z)) := by
  unfold structRun at e
  split at e
  · cases e
  · rename_i w1 f ef
    obtain ⟨rfl, hz⟩ := find_curly o st0 (st' := .str) (fun k ks hk => by simp [TypeState.succ, hk]) (fun ks => by simp [TypeState.succ]) i sa la
      (Nat.le_trans fa hM) ok ef
    cases f with
    | none =>
      have : w1.heap.next none = none := rfl
      rw [this, jumpLoop_none] at e; cases e; exact ⟨i, .none, nofun⟩
    | some b =>
      obtain ⟨sb, fb, kb, okb⟩ := hz b rfl
      have lb : Low c b c.h0 w1.heap := la.mono (by omega)
      have hp : c.P M (w1.heap.next (some b)) := i.good.next_P o (.some sb (by omega))
      rw [← lb.next sb] at okb
      refine jump_auto o false _ hM (fun _ p => OkAt c .str p) (fun _ t => OkAt c .str (some t))
        (fun z => OkAt c .typ (c.h0.next (some z))) (fun s t _ h => by simpa using h) ?_ i hp okb (fun x hx => by
          have := (i.good.next_lt o sb x hx).2
          exact lb.mono (by omega)) e
      clear e ef hz hp okb kb lb fb sb b la sa fa ok i
      intro w s a w' s' ctl i sa fa la ok e
      have ha : c.P M (some a) := .some sa fa
      have kk : w.heap.kind (some a) = c.h0.kind (some a) := la.kind sa
      obtain ⟨_, l, f, step⟩ := ok.step
      rw [← kk] at step
      split at e
      · rename_i hk; cases e; exact .stop' i (step .typ (by rw [hk]; simp [TypeState.succ]))
      · rename_i hk; cases e; exact .cont' i (step .str (by rw [hk]; simp [TypeState.succ]))
      · rename_i hk; cases e; exact .cont' i (step .str (by rw [hk]; simp [TypeState.succ]))
      · rename_i hk; cases e; exact .cont' i (step .str (by rw [hk]; simp [TypeState.succ]))
      · rename_i h1 h2 h3 h4
        obtain ⟨p, e1, rfl, rfl⟩ := toJump_some e
        have okr : OkAt c .row (some a) := by
          refine .mk (o.lt a sa) f (by simp) ?_
          intro st' hs
          refine step st' ?_
          rw [← kk] at hs
          revert hs
          cases hk : w.heap.kind (some a) <;> first | (simp [TypeState.succ]; done) | contradiction
        obtain ⟨i1, p1, q1⟩ := structRow_auto o st0 hM i sa fa la okr e1
        refine ⟨i1, nofun, nofun, ?_⟩
        intro t ht lt
        cases ht
        obtain ⟨l1, k1, ok1⟩ := q1 t rfl
        have stt := (p1 t rfl).1
        refine ⟨?_, ?_⟩
        · intro x sx hx
          have h5 := l1 x sx hx
          have h6 := la x sx (by omega)
          exact ⟨h5.1.trans h6.1.symm, h5.2.1.trans h6.2.1.symm, h5.2.2.trans h6.2.2.symm⟩
        · obtain ⟨l', f', ok'⟩ := ok1
          refine .mk (o.lt t stt) f' (by simp) ?_
          intro st' hs
          rw [k1] at hs
          simp [TypeState.succ] at hs
          subst hs
          exact ⟨l', f', ok'⟩

end Goast
