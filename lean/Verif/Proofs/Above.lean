import Verif.Proofs.Reduct

/-!
# A resetter started at a node changes nothing before that node
-/

set_option linter.unusedSimpArgs false
set_option linter.unusedVariables false

namespace Goast
open Heap

variable {c : RCtx}

/-- Nodes of rank above `F` are the same in both heaps. -/
def Above (f : Addr → Nat) (F : Nat) (h1 h : Heap) : Prop :=
  ∀ x, F < f x → h.next (some x) = h1.next (some x) ∧ h.kind (some x) = h1.kind (some x) ∧ h.text (some x) = h1.text (some x)

theorem Above.refl (f : Addr → Nat) (F : Nat) (h : Heap) : Above f F h h := fun _ _ => ⟨rfl, rfl, rfl⟩

theorem Above.trans {f : Addr → Nat} {F : Nat} {h1 h2 h3 : Heap} (a : Above f F h1 h2) (b : Above f F h2 h3) :
    Above f F h1 h3 :=
  fun x hx => ⟨(b x hx).1.trans (a x hx).1, (b x hx).2.1.trans (a x hx).2.1, (b x hx).2.2.trans (a x hx).2.2⟩

theorem Above.mono {f : Addr → Nat} {F F' : Nat} {h1 h2 : Heap} (a : Above f F h1 h2) (hF : F ≤ F') : Above f F' h1 h2 :=
  fun x hx => a x (Nat.lt_of_le_of_lt hF hx)

/-- The context that also records that nodes of rank above `F` do not change. -/
def RCtx.below (c : RCtx) (F : Nat) (ne : Bool) (h1 : Heap) : RCtx :=
  { c with F, ne, X := fun h => c.X h ∧ Above c.f F h1 h }

theorem Good.below {h h1 : Heap} (g : Good c h) (F : Nat) (ne : Bool) (a : Above c.f F h1 h) : Good (c.below F ne h1) h :=
  ⟨g.1, g.2, g.3, g.4, g.5, g.6, g.7, g.8, g.9, a⟩

theorem Good.of_below {h h1 : Heap} {F : Nat} {ne : Bool} (g : Good (c.below F ne h1) h) : Good c h :=
  ⟨g.1, g.2, g.3, g.4, g.5, g.6, g.7, g.8, g.9.1⟩

theorem Good.above {h h1 : Heap} {F : Nat} {ne : Bool} (g : Good (c.below F ne h1) h) : Above c.f F h1 h := g.9.2

theorem Path.pred {h : Heap} : ∀ (m : List Addr) (n z : Addr), Path h (n :: m) → z ∈ m → ∃ y ∈ n :: m, h.next (some y) = some z
  | [], _, _, _, hz => by cases hz
  | b :: m, n, z, p, hz => by
    rcases List.mem_cons.1 hz with rfl | hz
    · exact ⟨n, by simp, p.1⟩
    · obtain ⟨y, hy, e⟩ := Path.pred m b z p.2 hz
      exact ⟨y, by simp only [List.mem_cons] at hy ⊢; exact .inr hy, e⟩

/-- A contiguous merge changes nothing above its first node. -/
theorem above_merge (o : c.OK) {h h' : Heap} (g : Good c h) {n : Addr} {m rest : List Addr} {k : Kind} (sn : c.S n)
    (path : Path h (n :: m)) (sub : ∀ z ∈ rest, z ∈ m)
    (e : deferCombine h (some n :: rest.map some) k = some h') : Above c.f (c.f n) h h' := by
  have hlt : n < h.size := g.lt o sn
  by_cases hr : rest = []
  · subst hr
    obtain ⟨h1, e1, w1, s1, k1, t1, n1⟩ := deferCombine_one g.wf hlt k
    simp only [List.map_nil] at e
    rw [e] at e1; cases e1
    intro x hx
    refine ⟨n1 _, ?_, t1 _⟩
    rw [k1, if_neg]
    rintro hh; cases hh; omega
  · have below : ∀ z ∈ rest, c.f z < c.f n := fun z hz => path_lt g m n path z (sub z hz)
    obtain ⟨x, hx⟩ : ∃ x, rest.getLast? = some x := ⟨rest.getLast hr, List.getLast?_eq_some_getLast hr⟩
    have hxm : x ∈ rest := List.mem_of_getLast? hx
    have Sm : ∀ z ∈ m, c.S z := by
      have : ∀ (m : List Addr) (n : Addr), c.S n → Path h (n :: m) → ∀ z ∈ m, c.S z := by
        intro m
        induction m with
        | nil => intro _ _ _ z hz; cases hz
        | cons b m ih =>
          intro n sn p z hz
          have sb := g.next_S o sn p.1
          rcases List.mem_cons.1 hz with rfl | hz
          · exact sb
          · exact ih b sb p.2 z hz
      exact this m n sn path
    obtain ⟨h1, e1, w1, s1, k1, t1, n1⟩ := deferCombine_links g.wf hlt (rest := rest)
      (fun z hz => g.lt o (Sm z (sub z hz))) (fun hn => by have := below n hn; omega) hx
      (fun hh => by have := g.rank _ _ hh; have := below x hxm; omega) k
    rw [e] at e1; cases e1
    intro y hy
    have yn : y ≠ n := by rintro rfl; omega
    have yn' : some y ≠ some n := by simpa using yn
    refine ⟨?_, by rw [k1, if_neg yn'], by rw [t1, if_neg yn']⟩
    rw [n1, if_neg yn, if_neg]
    rintro (hh | ⟨z, hz, hh⟩)
    · have := below y hh; omega
    · obtain ⟨y', hy', e'⟩ := Path.pred m n z path (sub z hz)
      have : y = y' := by
        have h1 := (g.wf.inverse _ _).1 hh
        rw [(g.wf.inverse _ _).1 e'] at h1
        cases h1; rfl
      subst this
      rcases List.mem_cons.1 hy' with rfl | hy'
      · exact yn rfl
      · have := path_lt g m n path y hy'; omega

theorem above_setKind (o : c.OK) {h : Heap} (g : Good c h) {a : Addr} (s : c.S a) (k : Kind) :
    Above c.f (c.f a) h (h.setKind (some a) k) := by
  intro x hx
  refine ⟨by simp, ?_, by simp⟩
  rw [kind_setKind h a k (some x) (g.lt o s), if_neg]
  rintro hh; cases hh; omega

theorem RCtx.OK.below (o : c.OK) {F : Nat} (hF : F ≤ c.F) (ne : Bool) (h1 : Heap) : (c.below F ne h1).OK where
  lt := o.lt
  bound := o.bound
  xKind h a k g s fa st hk := ⟨o.xKind h a k g.of_below s (Nat.le_trans fa hF) st hk,
    g.above.trans ((above_setKind o g.of_below s k).mono fa)⟩
  xMerge h n m h' g s fa nc p e := ⟨o.xMerge h n m h' g.of_below s (Nat.le_trans fa hF) nc p e,
    g.above.trans ((above_merge o g.of_below s p (fun z hz => (nonComments_sublist h m).mem hz) e).mono fa)⟩

theorem Inv.below {w : World} {F : Nat} {ne : Bool} (i : Inv (c.at F ne) w) : Inv (c.below F ne w.heap) w :=
  ⟨(i.good.of_at).below F ne (.refl _ _ _), i.buf, i.ne⟩

end Goast
