import Verif.Proofs.AlikeParse
import Verif.Proofs.ParseExec
import Verif.Proofs.StepsCareful
import Verif.Spec.Links

/-! # Proofs: what follows for code that does not depend on addresses -/

set_option linter.unusedSimpArgs false
set_option linter.unusedVariables false

namespace Goast

variable {α β γ δ : Type} {ρ : Corr}

/-! ## Such code is careful -/

/-- The nodes of a set, each corresponding to itself. -/
def Corr.Diag (ρ : Corr) (own : Nat → Prop) : Prop := ∀ a b, ρ.rel a b ↔ a = b ∧ own a

theorem PtrRel.to {ρ : Corr} {own : Nat → Prop} (d : ρ.Diag own) {n m : Ptr} (h : PtrRel ρ n m) : PtrTo own n := by
  rintro a rfl
  cases m with
  | none => exact h.elim
  | some b => exact ((d a b).1 h).2

theorem PtrRel.of {ρ : Corr} {own : Nat → Prop} (d : ρ.Diag own) {n : Ptr} (h : PtrTo own n) : PtrRel ρ n n := by
  cases n with
  | none => trivial
  | some a => exact (d a a).2 ⟨rfl, h a rfl⟩

theorem ValRel.of {ρ : Corr} {own : Nat → Prop} (d : ρ.Diag own) {f : NodeField} {v : f.Val} (h : ValTo own f v) : ValRel ρ f v v := by
  cases f
  case prev => exact PtrRel.of d h
  case next => exact PtrRel.of d h
  all_goals rfl

theorem ValRel.to {ρ : Corr} {own : Nat → Prop} (d : ρ.Diag own) {f : NodeField} {v w : f.Val} (h : ValRel ρ f v w) : ValTo own f v := by
  cases f
  case prev => exact PtrRel.to d h
  case next => exact PtrRel.to d h
  all_goals trivial

theorem Alike.careful {Q : Corr → α → α → Prop} {shared : Nat → Prop} {ρ : Corr} {p q : Code α} (h : Alike Q ρ p q) :
    p = q → ∀ own, ρ.Diag own → Careful shared p own fun o x => ∃ ρ' : Corr, ρ'.Diag o ∧ Q ρ' x x := by
  induction h with
  | panic q => intro _ _ _; trivial
  | ret h => intro e own d; cases e; exact ⟨_, d, h⟩
  | @read ρ a b f k k' h hk ih =>
    intro e own d
    injection e with e1 e2 e3
    cases e3
    exact .inl ⟨((d a b).1 h).2, fun v hv => ih v v (ValRel.of d hv) rfl own d⟩
  | @write ρ a b f v w k k' h hv hk ih =>
    intro e own d
    injection e with e1 e2 e3 e4
    exact ⟨((d a b).1 h).2, ValRel.to d hv, ih e4 own d⟩
  | @alloc ρ r r' k k' hr hk ih =>
    intro e own d
    injection e with e1 e2
    subst e2
    refine ⟨ValRel.to d (hr .prev), ValRel.to d (hr .next), fun a ha hs => ?_⟩
    refine ih a a (fun b h => ha ((d _ _).1 h).2) (fun b h => ha (by have := (d _ _).1 h; rw [← this.1]; exact this.2)) rfl _ ?_
    intro x y
    simp only [Corr.add, d x y]
    constructor
    · rintro (⟨h1, h2⟩ | ⟨rfl, rfl⟩)
      · exact ⟨h1, .inl h2⟩
      · exact ⟨rfl, .inr rfl⟩
    · rintro ⟨rfl, h | rfl⟩
      · exact .inl ⟨rfl, h⟩
      · exact .inr ⟨rfl, rfl⟩

/-! ## Corresponding memories -/

/-- Corresponding nodes exist, and so do their fields correspond. -/
def MemRel (ρ : Corr) (h : Heap) (m : Mem) : Prop :=
  ∀ a b, ρ.rel a b → ∃ r r', h.cells[a]? = some r ∧ m b = some r' ∧ ∀ f, ValRel ρ f (r.get f) (r'.get f)

theorem ValRel.mono {ρ ρ' : Corr} (h : ρ.le ρ') {f : NodeField} {v w : f.Val} (e : ValRel ρ f v w) : ValRel ρ' f v w := by
  cases f
  case prev => exact PtrRel.mono h e
  case next => exact PtrRel.mono h e
  all_goals exact e

theorem get_put_self (r : NodeRec) (f : NodeField) (v : f.Val) : (r.put f v).get f = v := by cases f <;> rfl

theorem get_put_other (r : NodeRec) {f g : NodeField} (v : f.Val) (h : g ≠ f) : (r.put f v).get g = r.get g := by
  cases f <;> cases g <;> first | rfl | exact absurd rfl h

theorem MemRel.write {h : Heap} {m : Mem} (i : MemRel ρ h m) {a b : Nat} (hab : ρ.rel a b) {f : NodeField} {v w : f.Val} (hv : ValRel ρ f v w)
    {r' : NodeRec} (hr' : m b = some r') : MemRel ρ (h.modify a (·.put f v)) (m.set b (r'.put f w)) := by
  intro x y hxy
  obtain ⟨s, s', hs, hs', hf⟩ := i x y hxy
  by_cases e : x = a
  · subst e
    have ey := ρ.fn _ _ _ hxy hab
    subst ey
    rw [hs'] at hr'; cases hr'
    refine ⟨s.put f v, r'.put f w, by simp [Heap.modify, List.getElem?_modify, hs], by simp [Mem.set], fun g => ?_⟩
    by_cases eg : g = f
    · subst eg; rw [get_put_self, get_put_self]; exact hv
    · rw [get_put_other _ _ eg, get_put_other _ _ eg]; exact hf g
  · have ey : y ≠ b := fun ey => e (ρ.inj _ _ _ hxy (ey ▸ hab))
    exact ⟨s, s', by simp [Heap.modify, List.getElem?_modify, hs, Ne.symm e], by simp [Mem.set, ey, hs'], hf⟩

theorem MemRel.fresh {h : Heap} {m : Mem} (i : MemRel ρ h m) : ∀ b, ¬ ρ.rel h.size b := by
  intro b hb
  obtain ⟨r, _, hr, _⟩ := i _ _ hb
  simp [Heap.size] at hr

theorem MemRel.fresh' {h : Heap} {m : Mem} (i : MemRel ρ h m) {c : Nat} (hc : m c = none) : ∀ a, ¬ ρ.rel a c := by
  intro a ha
  obtain ⟨_, r, _, hr, _⟩ := i _ _ ha
  rw [hc] at hr; cases hr

theorem MemRel.alloc {h : Heap} {m : Mem} (i : MemRel ρ h m) {r r' : NodeRec} (hr : ∀ f, ValRel ρ f (r.get f) (r'.get f)) {c : Nat} (hc : m c = none) :
    MemRel (ρ.add h.size c i.fresh (i.fresh' hc)) (h.alloc r).1 (m.set c r') := by
  rintro x y (hxy | ⟨rfl, rfl⟩)
  · obtain ⟨s, s', hs, hs', hf⟩ := i x y hxy
    have hx : x < h.cells.length := (List.getElem?_eq_some_iff.1 hs).1
    have hy : y ≠ c := fun e => i.fresh' hc x (e ▸ hxy)
    exact ⟨s, s', by simp only [Heap.alloc, List.getElem?_append, hx, if_true, hs], by simp [Mem.set, hy, hs'], fun f => (hf f).mono (Corr.le_add _)⟩
  · exact ⟨r, r', by simp [Heap.alloc, Heap.size], by simp [Mem.set], fun f => (hr f).mono (Corr.le_add _)⟩

theorem fieldD_eq {h : Heap} {a : Nat} {r : NodeRec} (hr : h.cells[a]? = some r) (f : NodeField) : h.fieldD a f = r.get f := by
  cases f <;> simp [Heap.fieldD, Heap.line, Heap.kind, Heap.text, Heap.prev, Heap.next, NodeRec.get, hr] <;> rfl

/-! ## One run tells how all others go -/

/-- The number of steps. -/
def Code.count {α : Type} (h : Heap) : Code α → Nat
  | .ret _ => 0
  | .panic => 0
  | .read a f k => (k (h.fieldD a f)).count h + 1
  | .write a f v k => k.count (h.modify a (·.put f v)) + 1
  | .alloc r k => (k (h.alloc r).2).count (h.alloc r).1 + 1

theorem sim_step {Q : Corr → α → β → Prop} {ρ : Corr} {p : Code α} {q : Code β} (hp : Alike Q ρ p q) {h h' : Heap} {m : Mem} {x : α}
    (i : MemRel ρ h m) (e : p.execT h = some (h', x)) {c : Nat} {m' : Mem} {q' : Code β} (st : q.step m c = some (m', q')) :
    ∃ ρ' h₁ p', ρ.le ρ' ∧ Alike Q ρ' p' q' ∧ MemRel ρ' h₁ m' ∧ p'.execT h₁ = some (h', x) ∧ p'.count h₁ + 1 = p.count h ∧
      ∀ a b, ρ'.rel a b → ρ.rel a b ∨ m b = none := by
  cases hp with
  | panic q => simp [Code.execT] at e
  | ret h => simp [Code.step] at st
  | @read _ a b f k k' hab hk =>
    obtain ⟨r, r', hr, hr', hf⟩ := i a b hab
    simp only [Code.step, hr', Option.map_some, Option.some.injEq, Prod.mk.injEq] at st
    obtain ⟨rfl, rfl⟩ := st
    simp only [Code.execT, fieldD_eq hr] at e
    exact ⟨ρ, h, _, Corr.le_refl _, hk _ _ (hf f), i, e, by simp [Code.count, fieldD_eq hr], fun _ _ h => .inl h⟩
  | @write _ a b f v w k k' hab hv hk =>
    obtain ⟨r, r', hr, hr', hf⟩ := i a b hab
    simp only [Code.step, hr', Option.map_some, Option.some.injEq, Prod.mk.injEq] at st
    obtain ⟨rfl, rfl⟩ := st
    exact ⟨ρ, _, _, Corr.le_refl _, hk, i.write hab hv hr', e, rfl, fun _ _ h => .inl h⟩
  | @alloc _ r r' k k' hr hk =>
    simp only [Code.step] at st
    split at st
    · rename_i hc
      simp only [Option.some.injEq, Prod.mk.injEq] at st
      obtain ⟨rfl, rfl⟩ := st
      exact ⟨_, _, _, Corr.le_add _, hk h.size c i.fresh (i.fresh' hc), i.alloc hr hc, e, rfl, by rintro x y (h | ⟨_, rfl⟩) <;> first | exact .inl h | exact .inr hc⟩
    · cases st

theorem sim_alone {Q : Corr → α → β → Prop} : ∀ (cs : List Nat) {ρ : Corr} {p : Code α} {q : Code β} (hp : Alike Q ρ p q) {h h' : Heap} {m : Mem} {x : α}
    (i : MemRel ρ h m) (e : p.execT h = some (h', x)) {m' : Mem} {q' : Code β} (st : q.alone m cs = some (m', q')),
    ∃ ρ' h₁ p', ρ.le ρ' ∧ Alike Q ρ' p' q' ∧ MemRel ρ' h₁ m' ∧ p'.execT h₁ = some (h', x) ∧ p'.count h₁ + cs.length = p.count h ∧
      ∀ a b, ρ'.rel a b → ρ.rel a b ∨ m b = none
  | [], ρ, p, q, hp, h, h', m, x, i, e, m', q', st => by
    simp only [Code.alone, Option.some.injEq, Prod.mk.injEq] at st
    obtain ⟨rfl, rfl⟩ := st
    exact ⟨ρ, h, p, Corr.le_refl _, hp, i, e, rfl, fun _ _ h => .inl h⟩
  | c :: cs, ρ, p, q, hp, h, h', m, x, i, e, m', q', st => by
    simp only [Code.alone] at st
    split at st
    · cases st
    · rename_i m₁ q₁ st₁
      obtain ⟨ρ₁, h₁, p₁, l₁, a₁, i₁, e₁, c₁, f₁⟩ := sim_step hp i e st₁
      obtain ⟨ρ₂, h₂, p₂, l₂, a₂, i₂, e₂, c₂, f₂⟩ := sim_alone cs a₁ i₁ e₁ st
      refine ⟨ρ₂, h₂, p₂, Corr.le_trans l₁ l₂, a₂, i₂, e₂, by simp only [List.length_cons]; omega, fun a b h => ?_⟩
      rcases f₂ a b h with h | h
      · exact f₁ a b h
      · exact .inr (Classical.byContradiction fun hb => step_mono st₁ b hb h)

/-- Where a run of `q` may be: at its end, with a result that corresponds, or before a step. -/
theorem sim_where {Q : Corr → α → β → Prop} {ρ : Corr} {p : Code α} {q : Code β} (hp : Alike Q ρ p q) {h h' : Heap} {m : Mem} {x : α}
    (i : MemRel ρ h m) (e : p.execT h = some (h', x)) :
    (∃ y, q = .ret y ∧ Q ρ x y ∧ MemRel ρ h' m ∧ p.count h = 0) ∨
    (q.returned = false ∧ q.panicked = false ∧ p.count h ≠ 0 ∧ ∀ c, m c = none → ∃ r, q.step m c = some r) := by
  cases hp with
  | panic q => simp [Code.execT] at e
  | ret hq =>
    simp only [Code.execT, Option.some.injEq, Prod.mk.injEq] at e
    obtain ⟨rfl, rfl⟩ := e
    exact .inl ⟨_, rfl, hq, i, rfl⟩
  | @read _ a b f k k' hab hk =>
    obtain ⟨r, r', hr, hr', hf⟩ := i a b hab
    exact .inr ⟨rfl, rfl, by simp [Code.count], fun c _ => by simp [Code.step, hr']⟩
  | @write _ a b f v w k k' hab hv hk =>
    obtain ⟨r, r', hr, hr', hf⟩ := i a b hab
    exact .inr ⟨rfl, rfl, by simp [Code.count], fun c _ => by simp [Code.step, hr']⟩
  | @alloc _ r r' k k' hr hk => exact .inr ⟨rfl, rfl, by simp [Code.count], fun c hc => by simp [Code.step, hc]⟩

/-! ## The only goroutine -/

theorem mem_modify_set {h : Heap} {a : Nat} {r : NodeRec} (hr : h.cells[a]? = some r) (g : NodeRec → NodeRec) : (h.modify a g).mem = h.mem.set a (g r) := by
  funext b
  by_cases e : b = a
  · subst e; simp [Heap.mem, Heap.modify, Mem.set, List.getElem?_modify, hr]
  · simp [Heap.mem, Heap.modify, Mem.set, List.getElem?_modify, e, Ne.symm e]

theorem mem_alloc_set (h : Heap) (r : NodeRec) : (h.alloc r).1.mem = h.mem.set h.size r := by
  funext b
  by_cases e : b = h.size
  · subst e; simp [Heap.mem, Heap.alloc, Mem.set, Heap.size]
  · simp only [Heap.mem, Heap.alloc, Mem.set, e, if_false]
    simp only [Heap.size] at e
    rw [List.getElem?_append]
    split
    · rfl
    · rw [List.getElem?_eq_none (by simp; omega), List.getElem?_eq_none (by omega)]

/-- Each node corresponds to itself only. -/
def Corr.Id (ρ : Corr) : Prop := ∀ a b, ρ.rel a b → a = b

theorem PtrRel.eq {ρ : Corr} (d : ρ.Id) {n m : Ptr} (h : PtrRel ρ n m) : n = m := by
  cases n <;> cases m <;> simp_all [PtrRel]
  exact d _ _ h

theorem ValRel.eq {ρ : Corr} (d : ρ.Id) {f : NodeField} {v w : f.Val} (h : ValRel ρ f v w) : v = w := by
  cases f
  case prev => exact PtrRel.eq d h
  case next => exact PtrRel.eq d h
  all_goals exact h

theorem Alike.exec {Q : Corr → α → β → Prop} {ρ : Corr} {p : Code α} {q : Code β} (hp : Alike Q ρ p q) :
    ∀ {h h' : Heap} {x : α}, ρ.Id → MemRel ρ h h.mem → p.execT h = some (h', x) →
    ∃ ρ' : Corr, ∃ y, ρ'.Id ∧ q.exec h = some (h', y) ∧ Q ρ' x y := by
  induction hp with
  | panic q => intro h h' x _ _ e; simp [Code.execT] at e
  | ret hq =>
    intro h h' x d _ e
    simp only [Code.execT, Option.some.injEq, Prod.mk.injEq] at e
    obtain ⟨rfl, rfl⟩ := e
    exact ⟨_, _, d, rfl, hq⟩
  | @read ρ a b f k k' hab hk ih =>
    intro h h' x d i e
    obtain ⟨r, r', hr, hr', hf⟩ := i a b hab
    simp only [Code.execT, fieldD_eq hr] at e
    obtain ⟨ρ', y, h1, h2, h3⟩ := ih _ _ (hf f) d i e
    have hr'' : h.cells[b]? = some r' := hr'
    exact ⟨ρ', y, h1, by simp only [Code.exec, hr'']; exact h2, h3⟩
  | @write ρ a b f v w k k' hab hv hk ih =>
    intro h h' x d i e
    obtain ⟨r, r', hr, hr', hf⟩ := i a b hab
    have := d a b hab
    subst this
    have hr'' : h.cells[a]? = some r' := hr'
    have ew := ValRel.eq d hv
    subst ew
    have i' := i.write hab hv hr'
    rw [← mem_modify_set hr'' (·.put f v)] at i'
    obtain ⟨ρ', y, h1, h2, h3⟩ := ih d i' e
    have hb : a < h.size := (List.getElem?_eq_some_iff.1 hr).1
    exact ⟨ρ', y, h1, by simp only [Code.exec, hb, if_true]; exact h2, h3⟩
  | @alloc ρ r r' k k' hr hk ih =>
    intro h h' x d i e
    have hc : h.mem h.size = none := by simp [Heap.mem, Heap.size]
    have er : r = r' := by
      have g : ∀ f, r.get f = r'.get f := fun f => ValRel.eq d (hr f)
      cases r; cases r'
      simpa using ⟨g .line, g .kind, g .text, g .prev, g .next⟩
    subst er
    have i' := i.alloc hr hc
    rw [← mem_alloc_set] at i'
    refine ih h.size h.size i.fresh (i.fresh' hc) ?_ i' e
    rintro x y (hxy | ⟨rfl, rfl⟩)
    · exact d _ _ hxy
    · rfl

/-- No nodes correspond to each other. -/
def Corr.empty : Corr := ⟨fun _ _ => False, fun _ _ _ h => h.elim, fun _ _ _ h => h.elim⟩

theorem memRel_empty (h : Heap) (m : Mem) : MemRel Corr.empty h m := fun _ _ e => e.elim

theorem ScopesRel.eq {ρ : Corr} (d : ρ.Id) : ∀ {xs ys : List ScopeRec}, ScopesRel ρ xs ys → xs = ys
  | [], [], _ => rfl
  | [], _ :: _, h => h.elim
  | _ :: _, [], h => h.elim
  | ⟨l, k, n⟩ :: xs, ⟨l', k', n'⟩ :: ys, h => by
    obtain ⟨⟨h1, h2, h3⟩, h4⟩ := h
    dsimp only at h1 h2 h3
    rw [h1, h2, PtrRel.eq d h3, ScopesRel.eq d h4]

theorem exec_parseScope {ord : Nat → List (Bytes × Ext)} {h h' : Heap} {sl : Int} {text : Bytes} {scs : List ScopeRec}
    (e : parseScopeOrd ord h sl text = some (h', scs)) {F : Nat} (hF : h'.size < F) :
    (Code.parseScope ord F sl text).exec h = some (h', scs) := by
  obtain ⟨ρ', y, d, hy, hr⟩ := Alike.exec (alike_parseScope (ρ := Corr.empty) hF ord sl text) (fun _ _ h => h.elim) (memRel_empty h _)
    (execT_parseScope e)
  rw [hy, ScopesRel.eq d hr]

end Goast
