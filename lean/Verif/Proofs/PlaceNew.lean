import Verif.Proofs.Place
import Verif.Proofs.NewNodes
import Verif.Props.Pure

/-!
# Calls that make nodes, in a larger heap
-/

set_option linter.unusedSimpArgs false
set_option linter.unusedVariables false

namespace Goast
open Heap

/-- From `(h, k)` to `(h', k')`, new nodes being placed by `g'`: what was placed stays in its place, new nodes are placed behind
all of `k`, and of the old nodes of `k` only those placed by `g` may differ. -/
structure Grow (g : Addr → Addr) (D : Addr → Prop) (k : Heap) (g' : Addr → Addr) (D' : Addr → Prop) (h' k' : Heap) : Prop where
  pl : Pl g' D' h' k'
  sub : ∀ {a}, D a → D' a
  old : ∀ {a}, D a → g' a = g a
  new : ∀ {a}, D' a → ¬ D a → k.size ≤ g' a
  fr : Fr g D k k'

namespace Grow

variable {g g' g'' : Addr → Addr} {D D' D'' : Addr → Prop} {h h' h'' k k' k'' : Heap}

theorem refl (P : Pl g D h k) : Grow g D k g D h k := ⟨P, id, fun _ => rfl, fun a b => absurd a b, .refl⟩

theorem of_keeps (K : Pl.Keeps g D k h' k') : Grow g D k g D h' k' := ⟨K.1, id, fun _ => rfl, fun a b => absurd a b, K.2⟩

theorem keeps (G : Grow g D k g' D' h' k') : Pl.Keeps g' D' k' h' k' := ⟨G.pl, .refl⟩

theorem trans (A : Grow g D k g' D' h' k') (B : Grow g' D' k' g'' D'' h'' k'') : Grow g D k g'' D'' h'' k'' where
  pl := B.pl
  sub ha := B.sub (A.sub ha)
  old ha := (B.old (A.sub ha)).trans (A.old ha)
  new {a} ha hn := by
    by_cases hd : D' a
    · rw [B.old hd]; exact A.new hd hn
    · exact Nat.le_trans A.fr.size (B.new ha hd)
  fr := ⟨Nat.le_trans A.fr.size B.fr.size, fun b hb hd => by
    rw [B.fr.frame b (Nat.lt_of_lt_of_le hb A.fr.size) ?_, A.fr.frame b hb hd]
    intro a ha e
    by_cases h1 : D a
    · exact hd a h1 ((A.old h1).symm.trans e)
    · have := A.new ha h1; omega⟩

theorem in_ (A : Grow g D k g' D' h' k') {p : Ptr} (hp : In D p) : In D' p := fun a e => A.sub (hp a e)

theorem map (A : Grow g D k g' D' h' k') {p : Ptr} (hp : In D p) : p.map g' = p.map g := by
  cases p with
  | none => rfl
  | some a => simp [A.old (hp a rfl)]

end Grow

theorem NodeRec.at_congr {g g' : Addr → Addr} {r : NodeRec} (hn : ∀ a, r.next = some a → g' a = g a) (hp : ∀ a, r.prev = some a → g' a = g a) : r.at g' = r.at g := by
  unfold NodeRec.at
  congr 1
  · cases e : r.prev with
    | none => rfl
    | some a => simp [hp a e]
  · cases e : r.next with
    | none => rfl
    | some a => simp [hn a e]

/-- A block of new nodes that are linked with each other only. -/
theorem Pl.beside {g : Addr → Addr} {D : Addr → Prop} {h k : Heap} (P : Pl g D h k) {b : Heap} (w : WF b) :
    Grow g D k (fun a => if a < h.size then g a else a - h.size + k.size) (fun a => D a ∨ (h.size ≤ a ∧ a < h.size + b.size))
      (h.beside b) (k.beside b) := by
  have cl : ∀ {x : Nat} {y}, b.next (some x) = some y ∨ b.prev (some x) = some y → y < b.size := by
    intro x y e
    rcases e with e | e
    · have := (w.inverse x y).1 e
      by_cases hb' : y < b.size
      · exact hb'
      · simp [Heap.prev, List.getElem?_eq_none (show b.cells.length ≤ y by simpa [Heap.size] using hb')] at this
    · have := (w.inverse y x).2 e
      by_cases hb' : y < b.size
      · exact hb'
      · simp [Heap.next, List.getElem?_eq_none (show b.cells.length ≤ y by simpa [Heap.size] using hb')] at this
  have c1 : ∀ {o : Heap} {a : Addr}, a < o.size → (o.beside b).cells[a]? = o.cells[a]? := by
    intro o a ha
    exact List.getElem?_append_left (by simpa [Heap.size] using ha)
  have c2 : ∀ {o : Heap} {a : Addr}, o.size ≤ a → (o.beside b).cells[a]? = (b.cells[a - o.size]?).map (NodeRec.moved o.size) := by
    intro o a ha
    have := Reloc.cell (o := o) b (a - o.size)
    rwa [show a - o.size + o.size = a by omega] at this
  refine ⟨⟨by rw [Reloc.size, Reloc.size]; have := P.le; omega, ?_, ?_, ?_, ?_, ?_⟩, fun ha => .inl ha, fun ha => by simp [P.lt ha], ?_, ?_⟩
  · intro a ha
    rw [Reloc.size]
    rcases ha with ha | ha
    · have := P.lt ha; omega
    · exact ha.2
  · intro a c ha hc e
    rcases ha with ha | ha <;> rcases hc with hc | hc
    · simp only [P.lt ha, P.lt hc, if_true] at e
      exact P.inj ha hc e
    · have := P.lt' ha
      simp only [P.lt ha, if_true, show ¬ c < h.size by omega, if_false] at e
      omega
    · have := P.lt' hc
      simp only [P.lt hc, if_true, show ¬ a < h.size by omega, if_false] at e
      omega
    · simp only [show ¬ a < h.size by omega, show ¬ c < h.size by omega, if_false] at e
      omega
  · intro a ha
    rcases ha with ha | ha
    · have l := P.lt ha
      simp only [l, if_true]
      rw [c1 (P.lt' ha), c1 l, P.cell ha]
      cases e : h.cells[a]? with
      | none => rfl
      | some r =>
        simp only [Option.map_some, Option.some.injEq]
        exact (NodeRec.at_congr (fun c hc => by simp [P.lt (P.nextC ha e c hc)]) (fun c hc => by simp [P.lt (P.prevC ha e c hc)])).symm
    · have l : ¬ a < h.size := by omega
      simp only [l, if_false]
      rw [c2 (by omega), c2 ha.1, show a - h.size + k.size - k.size = a - h.size by omega]
      cases b.cells[a - h.size]? with
      | none => rfl
      | some r =>
        simp only [Option.map_some, Option.some.injEq, NodeRec.at, NodeRec.moved, NodeRec.mk.injEq, true_and]
        constructor
        · cases r.prev with
          | none => rfl
          | some v => simp [moved, show ¬ v + h.size < h.size by omega]
        · cases r.next with
          | none => rfl
          | some v => simp [moved, show ¬ v + h.size < h.size by omega]
  · intro a r ha e
    rcases ha with ha | ha
    · rw [c1 (P.lt ha)] at e
      exact fun c hc => .inl (P.nextC ha e c hc)
    · rw [c2 ha.1] at e
      obtain ⟨r', e1, rfl⟩ := Option.map_eq_some_iff.1 e
      intro c hc
      simp only [NodeRec.moved] at hc
      obtain ⟨c', hc', rfl⟩ := Option.map_eq_some_iff.1 hc
      have := cl (x := a - h.size) (y := c') (.inl (by simp [Heap.next, e1, hc']))
      exact .inr ⟨by omega, by omega⟩
  · intro a r ha e
    rcases ha with ha | ha
    · rw [c1 (P.lt ha)] at e
      exact fun c hc => .inl (P.prevC ha e c hc)
    · rw [c2 ha.1] at e
      obtain ⟨r', e1, rfl⟩ := Option.map_eq_some_iff.1 e
      intro c hc
      simp only [NodeRec.moved] at hc
      obtain ⟨c', hc', rfl⟩ := Option.map_eq_some_iff.1 hc
      have := cl (x := a - h.size) (y := c') (.inr (by simp [Heap.prev, e1, hc']))
      exact .inr ⟨by omega, by omega⟩
  · intro a ha hn
    rcases ha with ha | ha
    · exact absurd ha hn
    · simp only [show ¬ a < h.size by omega, if_false]
      omega
  · refine ⟨by rw [Reloc.size]; omega, fun c hc _ => c1 hc⟩

/-- One new node. -/
theorem Pl.alloc {g : Addr → Addr} {D : Addr → Prop} {h k : Heap} (P : Pl g D h k) {r : NodeRec} (hn : r.next = none) (hp : r.prev = none) :
    ∃ g' D', Grow g D k g' D' (h.alloc r).1 (k.alloc r).1 ∧ D' h.size ∧ g' h.size = k.size := by
  have w : WF (⟨[r]⟩ : Heap) := by
    constructor
    · intro a b
      rcases a with _ | a <;> rcases b with _ | b <;> simp [Heap.next, Heap.prev, hn, hp]
    · intro a
      rcases a with _ | a <;> simp [Heap.next, hn]
  have e : ∀ o : Heap, (o.alloc r).1 = o.beside ⟨[r]⟩ := by
    intro o
    cases r
    simp only at hn hp
    subst hn hp
    simp [Heap.alloc, Heap.beside, NodeRec.moved, moved]
  rw [e, e]
  exact ⟨_, _, P.beside w, .inr ⟨Nat.le_refl _, by simp [Heap.size]⟩, by simp⟩

theorem Pl.newNode {g : Addr → Addr} {D : Addr → Prop} {h k : Heap} (P : Pl g D h k) (l : Int) (t : Bytes) (ks : List Kind) :
    ∃ g' D', Grow g D k g' D' (h.newNode l t ks).1 (k.newNode l t ks).1 ∧ D' (h.newNode l t ks).2 ∧ g' (h.newNode l t ks).2 = (k.newNode l t ks).2 := by
  cases ks with
  | nil => exact P.alloc rfl rfl
  | cons kd _ => exact P.alloc rfl rfl

theorem Pl.newNodesLoop {g : Addr → Addr} : ∀ {ts : List Bytes} {g : Addr → Addr} {D : Addr → Prop} {h k : Heap} (P : Pl g D h k) {c : Addr} (hc : D c) (l : Int),
    ∃ g' D', Grow g D k g' D' (Heap.newNodesLoop h c l ts) (Heap.newNodesLoop k (g c) l ts)
  | [], g, D, h, k, P, c, hc, l => ⟨g, D, .refl P⟩
  | t :: ts, g, D, h, k, P, c, hc, l => by
    obtain ⟨g1, D1, G1, d1, e1⟩ := P.newNode l t []
    have hc1 := G1.sub hc
    obtain ⟨K2, _⟩ := Pl.insertNext G1.keeps (n := some c) (m := some (h.newNode l t).2) (by simpa using hc1) (by simpa using d1)
    have G2 := G1.trans (Grow.of_keeps K2)
    have n2 := K2.1.next (p := some c) (by simpa using hc1)
    have i2 := K2.1.in_next (p := some c) (by simpa using hc1)
    simp only [Option.map_some, e1, G1.old hc] at n2 G2
    simp only [Heap.newNodesLoop, n2]
    cases e : ((h.newNode l t).1.insertNext (some c) (some (h.newNode l t).2)).1.next (some c) with
    | none => exact ⟨g1, D1, G2⟩
    | some c' =>
      obtain ⟨g3, D3, G3⟩ := Pl.newNodesLoop (g := g1) (ts := ts) G2.pl (i2 c' e) (l + countNL t)
      exact ⟨g3, D3, G2.trans G3⟩

theorem Pl.newNodes {g : Addr → Addr} {D : Addr → Prop} {h k : Heap} (P : Pl g D h k) (l : Int) (ts : List Bytes) :
    ∃ g' D', Grow g D k g' D' (h.newNodes l ts).1 (k.newNodes l ts).1 ∧ In D' (h.newNodes l ts).2 ∧ (k.newNodes l ts).2 = (h.newNodes l ts).2.map g' := by
  cases ts with
  | nil => exact ⟨g, D, .refl P, by simp [Heap.newNodes], rfl⟩
  | cons t ts =>
    obtain ⟨g1, D1, G1, d1, e1⟩ := P.newNode l t []
    obtain ⟨g2, D2, G2⟩ := Pl.newNodesLoop (g := g1) (ts := ts) G1.pl d1 l
    refine ⟨g2, D2, ?_, ?_, ?_⟩
    · have := G1.trans G2
      rw [e1] at this
      exact this
    · simpa [Heap.newNodes] using G2.sub d1
    · simp only [Heap.newNodes, Option.map_some, Option.some.injEq]
      rw [G2.old d1, e1]

/-- The copies of the nodes before. -/
def preCopy (fuel : Nat) (h : Heap) (a : Addr) (pre nn : Ptr) : Option (Heap × Ptr) :=
  match pre with
  | none => Heap.deepCopy fuel h (h.prev (some a)) none nn
  | some p => some (h, some p)

/-- The copies of the nodes behind. -/
def nxtCopy (fuel : Nat) (h : Heap) (a : Addr) (nxt nn : Ptr) : Option (Heap × Ptr) :=
  match nxt with
  | none => Heap.deepCopy fuel h (h.next (some a)) nn none
  | some p => some (h, some p)

theorem deepCopy_succ (fuel : Nat) (h : Heap) (a : Addr) (pre nxt : Ptr) :
    Heap.deepCopy (fuel + 1) h (some a) pre nxt =
      (preCopy fuel (h.alloc ⟨h.line (some a), h.kind (some a), h.text (some a), none, none⟩).1 a pre (some h.size)).bind fun x =>
        (nxtCopy fuel x.1 a nxt (some h.size)).bind fun y =>
          some (y.1.modify h.size (fun c => { c with prev := x.2, next := y.2 }), some h.size) := by
  rw [Heap.deepCopy.eq_def]
  simp only [preCopy, nxtCopy, Heap.alloc, Heap.size]
  cases pre <;> cases nxt <;> simp only [Option.bind_some]
  · cases Heap.deepCopy fuel ⟨h.cells ++ [⟨h.line (some a), h.kind (some a), h.text (some a), none, none⟩]⟩
      (Heap.prev ⟨h.cells ++ [⟨h.line (some a), h.kind (some a), h.text (some a), none, none⟩]⟩ (some a)) none (some h.cells.length) with
    | none => rfl
    | some x =>
      simp only [Option.bind_some]
      cases Heap.deepCopy fuel x.1 (x.1.next (some a)) (some h.cells.length) none <;> rfl
  · cases Heap.deepCopy fuel ⟨h.cells ++ [⟨h.line (some a), h.kind (some a), h.text (some a), none, none⟩]⟩
      (Heap.prev ⟨h.cells ++ [⟨h.line (some a), h.kind (some a), h.text (some a), none, none⟩]⟩ (some a)) none (some h.cells.length) with
    | none => rfl
    | some x => simp only [Option.bind_some]
  · cases Heap.deepCopy fuel ⟨h.cells ++ [⟨h.line (some a), h.kind (some a), h.text (some a), none, none⟩]⟩
      (Heap.next ⟨h.cells ++ [⟨h.line (some a), h.kind (some a), h.text (some a), none, none⟩]⟩ (some a)) (some h.cells.length) none <;> rfl

theorem Pl.deepCopy : ∀ {fuel fuel' : Nat}, fuel ≤ fuel' → ∀ {g : Addr → Addr} {D : Addr → Prop} {h k : Heap} (P : Pl g D h k) {p pre nxt : Ptr} (hp : In D p)
    (hpre : In D pre) (hnxt : In D nxt) {h' : Heap} {r : Ptr}, Heap.deepCopy fuel h p pre nxt = some (h', r) →
    ∃ g' D' k', Heap.deepCopy fuel' k (p.map g) (pre.map g) (nxt.map g) = some (k', r.map g') ∧ Grow g D k g' D' h' k' ∧ In D' r := by
  intro fuel
  induction fuel with
  | zero =>
    intro fuel' hle g D h k P p pre nxt hp hpre hnxt h' r e
    cases p with
    | none =>
      simp only [Heap.deepCopy, Option.some.injEq, Prod.mk.injEq] at e
      obtain ⟨rfl, rfl⟩ := e
      exact ⟨g, D, k, by simp [Heap.deepCopy], .refl P, by simp⟩
    | some a => simp [Heap.deepCopy] at e
  | succ fuel ih =>
    intro fuel' hle g D h k P p pre nxt hp hpre hnxt h' r e
    cases p with
    | none =>
      simp only [Heap.deepCopy, Option.some.injEq, Prod.mk.injEq] at e
      obtain ⟨rfl, rfl⟩ := e
      exact ⟨g, D, k, by simp [Heap.deepCopy], .refl P, by simp⟩
    | some a =>
      obtain ⟨fuel', rfl⟩ : ∃ x, fuel' = x + 1 := ⟨fuel' - 1, by omega⟩
      have hle' : fuel ≤ fuel' := by omega
      have ha := hp a rfl
      have tl := P.line hp
      have tk := P.kind hp
      have tt := P.text hp
      simp only [Option.map_some] at tl tk tt
      obtain ⟨g1, D1, G1, d1, e1⟩ := P.alloc (r := ⟨h.line (some a), h.kind (some a), h.text (some a), none, none⟩) rfl rfl
      have hnn : In D1 (some h.size) := by simpa using d1
      rw [deepCopy_succ, Option.bind_eq_some_iff] at e
      obtain ⟨⟨hA, preA⟩, eA, e⟩ := e
      rw [Option.bind_eq_some_iff] at e
      obtain ⟨⟨hB, nxtB⟩, eB, e⟩ := e
      simp only [Option.some.injEq, Prod.mk.injEq] at e eB
      obtain ⟨rfl, rfl⟩ := e
      -- the nodes before
      obtain ⟨gA, DA, kA, e2, G2, i2⟩ : ∃ gA DA kA,
          preCopy fuel' (k.alloc ⟨h.line (some a), h.kind (some a), h.text (some a), none, none⟩).1 (g a) (pre.map g) (some k.size) = some (kA, preA.map gA) ∧
            Grow g1 D1 (k.alloc ⟨h.line (some a), h.kind (some a), h.text (some a), none, none⟩).1 gA DA hA kA ∧ In DA preA := by
        cases pre with
        | none =>
          simp only [preCopy, Option.map_none] at eA ⊢
          have ip := G1.pl.in_prev (p := some a) (by simpa using G1.sub ha)
          have np := G1.pl.prev (p := some a) (by simpa using G1.sub ha)
          obtain ⟨gA, DA, kA, e2, G2, i2⟩ := ih hle' G1.pl ip (by simp) hnn eA
          rw [← np] at e2
          simp only [Option.map_some, G1.old ha, e1, Option.map_none] at e2
          exact ⟨gA, DA, kA, e2, G2, i2⟩
        | some q =>
          simp only [preCopy, Option.some.injEq, Prod.mk.injEq] at eA
          obtain ⟨rfl, rfl⟩ := eA
          exact ⟨g1, D1, _, by simp [preCopy, G1.old (hpre q rfl)], .refl G1.pl, G1.in_ hpre⟩
      have G12 := G1.trans G2
      have haA := G12.sub ha
      have hnA : In DA (some h.size) := G2.in_ hnn
      have egA : gA h.size = k.size := (G2.old d1).trans e1
      -- the nodes behind
      obtain ⟨gB, DB, kB, e3, G3, i3⟩ : ∃ gB DB kB, nxtCopy fuel' kA (g a) (nxt.map g) (some k.size) = some (kB, nxtB.map gB) ∧ Grow gA DA kA gB DB hB kB ∧ In DB nxtB := by
        cases nxt with
        | none =>
          simp only [nxtCopy, Option.map_none] at eB ⊢
          have ip := G2.pl.in_next (p := some a) (by simpa using haA)
          have np := G2.pl.next (p := some a) (by simpa using haA)
          obtain ⟨gB, DB, kB, e3, G3, i3⟩ := ih hle' G2.pl ip hnA (by simp) eB
          rw [← np] at e3
          simp only [Option.map_some, G12.old ha, egA, Option.map_none] at e3
          exact ⟨gB, DB, kB, e3, G3, i3⟩
        | some q =>
          simp only [nxtCopy, Option.some.injEq, Prod.mk.injEq] at eB
          obtain ⟨rfl, rfl⟩ := eB
          exact ⟨gA, DA, _, by simp [nxtCopy, G12.old (hnxt q rfl)], .refl G2.pl, G12.in_ hnxt⟩
      have G := G12.trans G3
      have dB : DB h.size := G3.sub (hnA _ rfl)
      have gB' : gB h.size = k.size := (G3.old (hnA _ rfl)).trans egA
      have i2B := G3.in_ i2
      have m := G.pl.modify dB (f := fun c => { c with prev := preA, next := nxtB })
        (f' := fun c => { c with prev := preA.map gB, next := nxtB.map gB }) (fun _ => rfl) (fun _ _ => i3) (fun _ _ => i2B)
      rw [G3.map i2, gB'] at m
      refine ⟨gB, DB, kB.modify k.size (fun c => { c with prev := preA.map gA, next := nxtB.map gB }), ?_, G.trans (Grow.of_keeps m), by simpa using dB⟩
      rw [Option.map_some, deepCopy_succ, tl, tk, tt, e2, Option.bind_some, e3, Option.bind_some, Option.map_some, gB']

theorem Pl.copy {g : Addr → Addr} {D : Addr → Prop} {h k : Heap} (P : Pl g D h k) {p : Ptr} (hp : In D p) (b : Bool) {h' : Heap} {r : Ptr}
    (e : h.copy p b = some (h', r)) :
    ∃ g' D' k', k.copy (p.map g) b = some (k', r.map g') ∧ Grow g D k g' D' h' k' ∧ In D' r := by
  cases p with
  | none =>
    simp only [Heap.copy, Option.some.injEq, Prod.mk.injEq] at e
    obtain ⟨rfl, rfl⟩ := e
    exact ⟨g, D, k, rfl, .refl P, by simp⟩
  | some a =>
    cases b with
    | true =>
      simp only [Heap.copy, if_true, Option.map_some] at e ⊢
      exact Pl.deepCopy (by have := P.le; omega) P hp (by simp) (by simp) e
    | false =>
      have tl := P.line hp
      have tk := P.kind hp
      have tt := P.text hp
      simp only [Option.map_some] at tl tk tt
      simp only [Heap.copy, Bool.false_eq_true, if_false, Option.map_some, Option.some.injEq, Prod.mk.injEq, tl, tk, tt] at e ⊢
      obtain ⟨rfl, rfl⟩ := e
      obtain ⟨g1, D1, G1, d1, e1⟩ := P.alloc (r := ⟨h.line (some a), h.kind (some a), h.text (some a), none, none⟩) rfl rfl
      refine ⟨g1, D1, _, ⟨rfl, ?_⟩, G1, fun x hx => by cases hx; exact d1⟩
      simp only [Option.map_some, Option.some.injEq]
      exact e1.symm

end Goast
