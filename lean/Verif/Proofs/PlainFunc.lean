import Verif.Proofs.NoReceiver
import Verif.Proofs.FuncReset

/-!
# A function without a receiver gets no receiver label
-/

namespace Goast
open Heap

variable {K : Ptr → Kind → Prop}

theorem JR_free (o : Foreign K) {σ : Type} {consume : Bool} {hooks : List Hook} {body : World → σ → Addr → Option (World × σ × Ctl)}
    (hf : ∀ w s a w' s' c, Free K w → body w s a = some (w', s', c) → Free K w') {w : World} {j : JState σ} {p : Ptr} {w' : World} {r : Ptr}
    (f : Free K w) (e : JR consume hooks body w j p w' r) : Free K w' := by
  obtain ⟨j', fuel, e⟩ := e
  refine loop_inv (fun ws : World × JState σ => Free K ws.1) (fun w a w' b f e => ?_) (w := (w, j)) (w' := (w', j')) f e
  unfold jumpStep at e
  have f' := Free.hooks o (some a) hooks f
  simp only at e
  split at e
  · cases e; exact f'
  split at e
  · cases e; exact f'
  split at e
  · cases e; exact f'
  split at e
  · cases e
  · rename_i w2 s2 c2 eb
    have := hf _ _ _ _ _ _ f' eb
    cases c2 <;> (simp only [applyCtl, Option.some.injEq, Prod.mk.injEq] at e; obtain ⟨rfl, _⟩ := e; exact this)

theorem generalBody_free (o : Foreign K) {d : Nat} {cs : CharSet Kind} {hooks : List Hook} {w w' : World} {s s' : Bool × Bool} {a : Addr} {c : Ctl}
    (f : Free K w) (e : generalBody d cs hooks w s a = some (w', s', c)) : Free K w' := by
  have ih := freeFns o d
  unfold generalBody at e
  simp only at e
  have same : ∀ {t : Bool × Bool} {k : Ctl}, some (w, t, k) = some (w', s', c) → Free K w' := by
    intro t k e
    simp only [Option.some.injEq, Prod.mk.injEq] at e
    obtain ⟨rfl, _⟩ := e
    exact f
  split at e
  · exact same e
  split at e
  · exact same e
  · split at e
    · simp only [Option.some.injEq, Prod.mk.injEq] at e
      obtain ⟨rfl, _⟩ := e
      exact f.setKind _ o.name
    · exact same e
  · split at e
    · obtain ⟨p, e⟩ := toJump_ret e
      exact ih.single f e
    · exact same e
  · obtain ⟨p, e⟩ := toJump_ret e
    exact ih.paren f e
  · obtain ⟨p, e⟩ := toJump_ret e
    exact skipNest_free o f e
  · obtain ⟨p, e⟩ := toJump_ret e
    exact skipNest_free o f e
  · exact same e

/-- `func NAME…`: every node that is labelled as a receiver after the reset was labelled so before. -/
theorem resetKind_no_receiver {h h' : Heap} {r : Ptr} {a b n : Addr} {l : List Addr}
    (ch : Chain h (a :: b :: n :: l)) (ka : h.kind (some a) = .func_) (kb : h.kind (some b) = .space)
    (kn : h.kind (some n) = .raw) (e : resetKind h (some a) = some (h', r)) {p : Ptr} {k : Kind}
    (hk : k = .methodReceiverName ∨ k = .methodReceiverType) (hp : h.kind p ≠ k) : h'.kind p ≠ k := by
  obtain ⟨d, w1, r1, hd, run, rfl⟩ := func_runs ch ka kb kn e
  let K : Ptr → Kind → Prop := fun q x => q = p ∧ x = k
  have o : Foreign K := by
    constructor <;> (intro q hq; have := hq.2; rcases hk with rfl | rfl <;> cases this)
  have f : Free K ⟨h, []⟩ := fun q hq => by
    obtain ⟨rfl, hq⟩ := hq
    exact hp hq
  have := JR_free o (fun w s a w' s' c f e => generalBody_free o f e) f run
  exact fun hq => this p ⟨rfl, hq⟩

end Goast
