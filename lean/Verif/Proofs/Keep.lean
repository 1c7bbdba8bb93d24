import Verif.Proofs.Runs

/-!
# What a resetter keeps above a given rank, whatever it merges
-/

set_option linter.unusedSimpArgs false
set_option linter.unusedVariables false

namespace Goast
open Heap

variable {c : RCtx}

/-- Nodes of rank above `F` keep their kind and text, and the links between them stay. -/
def Keep (f : Addr → Nat) (F : Nat) (h1 h : Heap) : Prop :=
  ∀ x, F < f x → h.kind (some x) = h1.kind (some x) ∧ h.text (some x) = h1.text (some x) ∧
    ∀ y, F < f y → h1.next (some x) = some y → h.next (some x) = some y

theorem Keep.refl (f : Addr → Nat) (F : Nat) (h : Heap) : Keep f F h h := fun _ _ => ⟨rfl, rfl, fun _ _ e => e⟩

theorem Keep.trans {f : Addr → Nat} {F : Nat} {h1 h2 h3 : Heap} (a : Keep f F h1 h2) (b : Keep f F h2 h3) :
    Keep f F h1 h3 :=
  fun x hx => ⟨(b x hx).1.trans (a x hx).1, (b x hx).2.1.trans (a x hx).2.1,
    fun y hy e => (b x hx).2.2 y hy ((a x hx).2.2 y hy e)⟩

theorem Keep.mono {f : Addr → Nat} {F F' : Nat} {h1 h2 : Heap} (a : Keep f F h1 h2) (hF : F ≤ F') : Keep f F' h1 h2 :=
  fun x hx => ⟨(a x (Nat.lt_of_le_of_lt hF hx)).1, (a x (Nat.lt_of_le_of_lt hF hx)).2.1,
    fun y hy => (a x (Nat.lt_of_le_of_lt hF hx)).2.2 y (Nat.lt_of_le_of_lt hF hy)⟩

theorem keep_setKind (o : c.OK) {h : Heap} (g : Good c h) {a : Addr} (s : c.S a) (k : Kind) :
    Keep c.f (c.f a) h (h.setKind (some a) k) := by
  intro x hx
  refine ⟨?_, by simp, fun y _ e => by simpa using e⟩
  rw [kind_setKind h a k (some x) (g.lt o s), if_neg]
  rintro hh; cases hh; omega

/-- Any merge into a node keeps everything above that node. -/
theorem keep_merge (o : c.OK) {h h' : Heap} (g : Good c h) {a : Addr} {rest : List Ptr} (s : c.S a)
    (hr : ∀ q ∈ rest, c.P (c.f a) q) {k : Kind} (e : deferCombine h (some a :: rest) k = some h') :
    Keep c.f (c.f a) h h' := by
  obtain ⟨t, e'⟩ := deferCombine_some (h := h) (a := a) (rest := rest) (k := k)
  rw [e] at e'
  have e' := Option.some.inj e'
  have pa : c.P (c.f a) (some a) := .some s (Nat.le_refl _)
  have la := g.lt o s
  have hlast : c.P (c.f a) ((some a :: rest).getLast (by simp)) := by
    have := List.getLast_mem (l := some a :: rest) (by simp)
    rcases List.mem_cons.1 this with h1 | h1
    · rw [h1]; exact pa
    · exact hr _ h1
  have hnx : ∀ b, h.next ((some a :: rest).getLast (by simp)) = some b → c.S b ∧ c.f b < c.f a := by
    intro b eb
    cases hl : (some a :: rest).getLast (by simp) with
    | none => rw [hl] at eb; cases eb
    | some l =>
      rw [hl] at eb hlast
      have := g.next_lt o (hlast l rfl).1 b eb
      have := (hlast l rfl).2
      exact ⟨by simp_all, by omega⟩
  generalize h.next ((some a :: rest).getLast (by simp)) = nx at *
  have w1 := Heap.wf_setKind g.wf (some a) k
  have hreal : ∀ m ∈ Heap.realNodes (some a) rest, c.P (c.f a) m := fun m hm => hr m (List.mem_filter.1 hm).1
  have hne : ∀ m ∈ Heap.realNodes (some a) rest, m ≠ none := by
    intro m hm
    have := (List.mem_filter.1 hm).2
    simp at this; exact this.1
  have v1 : ∀ m ∈ Heap.realNodes (some a) rest, Valid (h.setKind (some a) k) m :=
    fun m hm => Heap.valid_setKind.2 (g.valid o (hreal m hm))
  have w2 := Heap.wf_isolateAll _ w1 v1
  have sd2 := Heap.sameData_isolateAll (Heap.realNodes (some a) rest) (h.setKind (some a) k)
  have l2 := Heap.isolateAll_links _ w1 v1 hne
  generalize hh2 : (h.setKind (some a) k).isolateAll (Heap.realNodes (some a) rest) = h2 at *
  have s2 : h2.size = c.h0.size := by rw [sd2.1, Heap.size_setKind, g.size]
  have va2 : Valid h2 (some a) := by intro b hb; cases hb; rw [s2, ← g.size]; exact la
  have w3 := Heap.wf_setText w2 (some a) t
  have va3 : Valid (h2.setText (some a) t) (some a) := by intro b hb; rw [Heap.size_setText]; exact va2 b hb
  have vn3 : Valid (h2.setText (some a) t) nx := by
    intro b hb; rw [Heap.size_setText, s2]; exact o.lt b (hnx b hb).1
  have sd4 := Heap.sameData_replaceNext (h2.setText (some a) t) (some a) nx
  have kk := Heap.kind_setKind h a k
  rw [e']
  intro x hx
  have xa : some x ≠ some a := by rintro hh; cases hh; omega
  refine ⟨?_, ?_, ?_⟩
  · rw [(sd4.2 _).2.1, Heap.kind_setText, (sd2.2 _).2.1, kk _ la, if_neg xa]
  · rw [(sd4.2 _).2.2, Heap.text_setText _ _ _ _ (va2 a rfl), if_neg xa, (sd2.2 _).2.2, Heap.text_setKind]
  · intro y hy exy
    have n2 : h2.next (some x) = some y := by
      rw [(l2 x).1, if_neg]
      · simpa using exy
      · rintro (hh | hh)
        · have := (hreal _ hh x rfl).2; omega
        · rw [Heap.next_setKind, exy] at hh
          have := (hreal _ hh y rfl).2; omega
    by_cases hc : some a = nx ∨ (h2.setText (some a) t).next (some a) = nx
    · rw [Heap.replaceNext, if_pos hc]
      simpa using n2
    · have e4 := Heap.replaceNext_links w3 va3 vn3 (fun hh => hc (.inl hh)) (fun hh => hc (.inr hh)) x
      rw [e4.1, if_neg xa, if_neg]
      · simpa using n2
      · intro hh
        cases hn : nx with
        | none => rw [hn] at hh; simp [Heap.prev] at hh
        | some z =>
          rw [hn] at hh
          have := (w3.inverse x z).2 hh.symm
          rw [Heap.next_setText, n2] at this
          cases this
          have := (hnx y hn).2; omega

/-- The context that also records what is kept above `F`, for a world with an empty `buf`. -/
def RCtx.under (c : RCtx) (F : Nat) (h1 : Heap) : RCtx :=
  { c with F, top := F, ne := false, X := fun h => c.X h ∧ Keep c.f F h1 h }

theorem Good.under {h h1 : Heap} (g : Good c h) (F : Nat) (a : Keep c.f F h1 h) : Good (c.under F h1) h :=
  ⟨g.1, g.2, g.3, g.4, g.5, g.6, g.7, g.8, g.9, a⟩

theorem Good.of_under {h h1 : Heap} {F : Nat} (g : Good (c.under F h1) h) : Good c h :=
  ⟨g.1, g.2, g.3, g.4, g.5, g.6, g.7, g.8, g.9.1⟩

theorem Good.keep {h h1 : Heap} {F : Nat} (g : Good (c.under F h1) h) : Keep c.f F h1 h := g.9.2

theorem RCtx.OK.under (o : c.OK) {F : Nat} (hF : F ≤ c.F) (h1 : Heap) : (c.under F h1).OK where
  lt := o.lt
  bound := o.bound
  xKind h a k g s fa st hk := ⟨o.xKind h a k g.of_under s (Nat.le_trans fa hF) st hk,
    g.keep.trans ((keep_setKind o g.of_under s k).mono fa)⟩
  xMerge h n m h' g s fa nc p e := ⟨o.xMerge h n m h' g.of_under s (Nat.le_trans fa hF) nc p e,
    g.keep.trans ((keep_merge o g.of_under s (by
      intro q hq
      obtain ⟨b, hb, rfl⟩ := List.mem_map.1 hq
      have hb := (List.mem_filter.1 hb).1
      have Sm : ∀ (m : List Addr) (n : Addr), c.S n → Path h (n :: m) → ∀ z ∈ m, c.S z := by
        intro m
        induction m with
        | nil => intro _ _ _ z hz; cases hz
        | cons b m ih =>
          intro n sn p z hz
          have sb := g.of_under.next_S o sn p.1
          rcases List.mem_cons.1 hz with rfl | hz
          · exact sb
          · exact ih b sb p.2 z hz
      exact .some (Sm m n s p b hb) (Nat.le_of_lt (path_lt g.of_under m n p b hb))) e).mono fa)⟩

theorem Inv.under {h : Heap} (g : Good c h) (F : Nat) : Inv (c.under F h) ⟨h, []⟩ :=
  ⟨g.under F (.refl _ _ _), by simp, by simp [RCtx.under]⟩

end Goast
