import Verif.Proofs.RelocateType
import Verif.Proofs.Loop
import Verif.Spec.View

/-!
# What the API shows does not depend on the addresses
-/

set_option linter.unusedSimpArgs false
set_option linter.unusedVariables false

namespace Goast
open Heap

/-- The nodes of `h` in `R` are those of `h'` at the addresses `g`, lines aside. -/
structure Emb0 (g : Addr → Addr) (R : Addr → Prop) (h h' : Heap) : Prop where
  nextC : ∀ {a b}, R a → h.next (some a) = some b → R b
  prevC : ∀ {a b}, R a → h.prev (some a) = some b → R b
  size : ∀ {a}, R a → a < h.size → g a < h'.size
  next : ∀ {a}, R a → h'.next (some (g a)) = (h.next (some a)).map g
  prev : ∀ {a}, R a → h'.prev (some (g a)) = (h.prev (some a)).map g
  kind : ∀ {a}, R a → h'.kind (some (g a)) = h.kind (some a)
  text : ∀ {a}, R a → h'.text (some (g a)) = h.text (some a)

/-- The nodes of `h` in `R` are those of `h'` at the addresses `g`. -/
structure Emb (g : Addr → Addr) (R : Addr → Prop) (h h' : Heap) : Prop extends Emb0 g R h h' where
  line : ∀ {a}, R a → h'.line (some (g a)) = h.line (some a)

/-- A scope at its new place. -/
def ScopeRec.at (g : Addr → Addr) (sc : ScopeRec) : ScopeRec := { sc with node := sc.node.map g }

namespace Emb0

variable {g : Addr → Addr} {R : Addr → Prop} {h h' : Heap}

theorem fwd (E : Emb0 g R h h') {p : Ptr} {l : List Addr} (f : Fwd h p l) (hp : ∀ a, p = some a → R a) :
    Fwd h' (p.map g) (l.map g) ∧ ∀ a ∈ l, R a := by
  induction f with
  | nil => exact ⟨.nil, by simp⟩
  | @cons a l ha f ih =>
    have ra := hp a rfl
    obtain ⟨h1, h2⟩ := ih (fun b hb => E.nextC ra hb)
    refine ⟨.cons (E.size ra ha) ?_, ?_⟩
    · rw [E.next ra]; exact h1
    · intro b hb
      rcases List.mem_cons.1 hb with rfl | hb
      · exact ra
      · exact h2 b hb

theorem walk {σ : Type} {fn fn' : σ → Addr → σ × Bool} : ∀ {l : List Addr} (s : σ), (∀ s, ∀ a ∈ l, fn' s (g a) = fn s a) →
    Goast.walk fn' s (l.map g) = ((Goast.walk fn s l).1, (Goast.walk fn s l).2.map g)
  | [], s, _ => rfl
  | a :: l, s, hf => by
    simp only [List.map_cons, Goast.walk, hf s a (by simp)]
    rcases fn s a with ⟨s', _ | _⟩
    · rfl
    · exact walk s' (fun s b hb => hf s b (by simp [hb]))

theorem walk_mem {σ : Type} (fn : σ → Addr → σ × Bool) : ∀ (l : List Addr) (s : σ) (a : Addr), (Goast.walk fn s l).2 = some a → a ∈ l
  | [], s, a, e => by simp [Goast.walk] at e
  | b :: l, s, a, e => by
    simp only [Goast.walk] at e
    split at e
    · exact List.mem_cons_of_mem _ (walk_mem fn l _ a e)
    · simp only [Option.some.injEq] at e; simp [e]

theorem iter_eq (E : Emb0 g R h h') {σ : Type} {fn fn' : σ → Addr → σ × Bool} {p : Ptr} {l : List Addr} (f : Fwd h p l)
    (hp : ∀ a, p = some a → R a) (hf : ∀ s a, R a → fn' s (g a) = fn s a) (s : σ) :
    ∃ s' q, h.iterNext fn s p = some (s', q) ∧ h'.iterNext fn' s (p.map g) = some (s', q.map g) ∧ (∀ a, q = some a → R a) := by
  obtain ⟨f', hl⟩ := E.fwd f hp
  refine ⟨(Goast.walk fn s l).1, (Goast.walk fn s l).2, iterNext_eq h fn f s, ?_, ?_⟩
  · rw [iterNext_eq h' fn' f', walk s (fun s a ha => hf s a (hl a ha))]
  · exact fun a ha => hl a (walk_mem fn l s a ha)

theorem textP (E : Emb0 g R h h') (p : Ptr) (hp : ∀ a, p = some a → R a) : h'.text (p.map g) = h.text p := by
  cases p with
  | none => rfl
  | some a => exact E.text (hp a rfl)

theorem findKind (E : Emb0 g R h h') {p : Ptr} {l : List Addr} (f : Fwd h p l) (hp : ∀ a, p = some a → R a) (k : Kind) :
    ∃ r, findKindName h p k = some r ∧ findKindName h' (p.map g) k = some r := by
  obtain ⟨s', q, e1, e2, _⟩ := E.iter_eq f hp (fn := fun (_ : Bytes × Bool) a =>
      let found := decide (h.kind (some a) = k)
      ((h.text (some a), found), !found)) (fn' := fun (_ : Bytes × Bool) a =>
      let found := decide (h'.kind (some a) = k)
      ((h'.text (some a), found), !found)) (fun s a ra => by simp [E.kind ra, E.text ra]) ([], false)
  exact ⟨s', by rw [findKindName, e1]; rfl, by rw [findKindName, e2]; rfl⟩

theorem funcName (E : Emb0 g R h h') {sc : ScopeRec} {l : List Addr} (f : Fwd h sc.node l) (hp : ∀ a, sc.node = some a → R a) :
    ∃ r, sc.getFuncName h = some r ∧ (sc.at g).getFuncName h' = some r := by
  unfold ScopeRec.getFuncName
  simp only [show (sc.at g).kind = sc.kind from rfl]
  split
  · exact ⟨_, rfl, rfl⟩
  · obtain ⟨s', q, e1, e2, _⟩ := E.iter_eq f hp (fn := fun (s : Bytes × Bool) a =>
      if h.kind (some a) = .funcName then ((h.text (some a), true), false) else (s, true)) (fn' := fun (s : Bytes × Bool) a =>
      if h'.kind (some a) = .funcName then ((h'.text (some a), true), false) else (s, true)) (fun s a ra => by simp [E.kind ra, E.text ra]) ([], false)
    exact ⟨s', by rw [e1]; rfl, by
      show Option.map _ (h'.iterNext _ _ (sc.node.map g)) = _
      rw [e2]; rfl⟩

theorem typeName (E : Emb0 g R h h') {sc : ScopeRec} {l : List Addr} (f : Fwd h sc.node l) (hp : ∀ a, sc.node = some a → R a) :
    ∃ r, sc.getTypeName h = some r ∧ (sc.at g).getTypeName h' = some r := by
  unfold ScopeRec.getTypeName
  simp only [show (sc.at g).kind = sc.kind from rfl]
  split
  · exact ⟨_, rfl, rfl⟩
  · exact E.findKind f hp _

theorem isKind (E : Emb0 g R h h') {p : Ptr} {l : List Addr} (f : Fwd h p l) (hp : ∀ a, p = some a → R a) (k : Kind) :
    ∃ r q, h.iterNext (fun (_ : Bool) a => let b := decide (h.kind (some a) = k); (b, !b)) false p = some (r, q) ∧
      h'.iterNext (fun (_ : Bool) a => let b := decide (h'.kind (some a) = k); (b, !b)) false (p.map g) = some (r, q.map g) :=
  (E.iter_eq f hp (fn := fun (_ : Bool) a => let b := decide (h.kind (some a) = k); (b, !b))
    (fn' := fun (_ : Bool) a => let b := decide (h'.kind (some a) = k); (b, !b)) (fun s a ra => by simp [E.kind ra]) false).imp
    fun r ⟨q, h1, h2, _⟩ => ⟨q, h1, h2⟩

theorem structName (E : Emb0 g R h h') {sc : ScopeRec} {l : List Addr} (f : Fwd h sc.node l) (hp : ∀ a, sc.node = some a → R a) :
    ∃ r, sc.getStructName h = some r ∧ (sc.at g).getStructName h' = some r := by
  unfold ScopeRec.getStructName
  simp only [show (sc.at g).kind = sc.kind from rfl, show (sc.at g).node = sc.node.map g from rfl]
  split
  · exact ⟨_, rfl, rfl⟩
  · obtain ⟨r, q, e1, e2⟩ := E.isKind f hp .struct_
    obtain ⟨t, e3, e4⟩ := E.typeName f hp
    rw [e1, e2, e3, e4]
    exact ⟨_, rfl, rfl⟩

theorem interfaceName (E : Emb0 g R h h') {sc : ScopeRec} {l : List Addr} (f : Fwd h sc.node l) (hp : ∀ a, sc.node = some a → R a) :
    ∃ r, sc.getInterfaceName h = some r ∧ (sc.at g).getInterfaceName h' = some r := by
  unfold ScopeRec.getInterfaceName
  simp only [show (sc.at g).kind = sc.kind from rfl, show (sc.at g).node = sc.node.map g from rfl]
  split
  · exact ⟨_, rfl, rfl⟩
  · obtain ⟨r, q, e1, e2⟩ := E.isKind f hp .interface_
    obtain ⟨t, e3, e4⟩ := E.typeName f hp
    rw [e1, e2, e3, e4]
    exact ⟨_, rfl, rfl⟩

theorem methodReceiver (E : Emb0 g R h h') {sc : ScopeRec} {l : List Addr} (f : Fwd h sc.node l) (hp : ∀ a, sc.node = some a → R a) :
    ∃ r, sc.getMethodReceiver h = some r ∧ (sc.at g).getMethodReceiver h' = some r := by
  unfold ScopeRec.getMethodReceiver
  simp only [show (sc.at g).kind = sc.kind from rfl]
  split
  · exact ⟨_, rfl, rfl⟩
  · exact E.findKind f hp _

theorem methodName (E : Emb0 g R h h') {sc : ScopeRec} {l : List Addr} (f : Fwd h sc.node l) (hp : ∀ a, sc.node = some a → R a) :
    ∃ r, sc.getMethodName h = some r ∧ (sc.at g).getMethodName h' = some r := by
  unfold ScopeRec.getMethodName
  simp only [show (sc.at g).kind = sc.kind from rfl]
  split
  · exact ⟨_, rfl, rfl⟩
  · obtain ⟨r, e1, e2⟩ := E.methodReceiver f hp
    rw [e1, e2]
    obtain ⟨t, b⟩ := r
    cases b
    · exact ⟨_, rfl, rfl⟩
    · exact E.findKind f hp _

theorem scopesText (E : Emb0 g R h h') : ∀ {scs : List ScopeRec}, (∀ sc ∈ scs, ∃ l, Fwd h sc.node l ∧ ∀ a, sc.node = some a → R a) →
    ∃ t, Goast.scopesText h scs = some t ∧ Goast.scopesText h' (scs.map (ScopeRec.at g)) = some t
  | [], _ => ⟨_, rfl, rfl⟩
  | sc :: scs, hl => by
    obtain ⟨l, f, hp⟩ := hl sc (by simp)
    obtain ⟨t, e1, e2⟩ := scopesText E (scs := scs) (fun sc hs => hl sc (by simp [hs]))
    obtain ⟨s, q, a1, b1, hq⟩ := E.iter_eq f hp (fn := fun (buf : Bytes) a => (buf ++ h.text (some a), true))
      (fn' := fun (buf : Bytes) a => (buf ++ h'.text (some a), true)) (fun s a ra => by simp [E.kind ra, E.text ra]) []
    refine ⟨s ++ t, ?_, ?_⟩
    · simp [Goast.scopesText, chainText, a1, e1]
    · simp only [Goast.scopesText, chainText, List.map_cons, show (sc.at g).node = sc.node.map g from rfl, b1, e2]
      rfl

theorem package (E : Emb0 g R h h') {scs : List ScopeRec} (hl : ∀ sc ∈ scs, ∃ l, Fwd h sc.node l ∧ ∀ a, sc.node = some a → R a) :
    ∃ t, findPackageName h scs = some t ∧ findPackageName h' (scs.map (ScopeRec.at g)) = some t := by
  unfold findPackageName
  rw [List.find?_map]
  simp only [show ((fun sc : ScopeRec => decide (sc.kind = ScopeKind.package_)) ∘ ScopeRec.at g) = fun sc => decide (sc.kind = ScopeKind.package_) from rfl]
  cases hf : scs.find? (fun sc => decide (sc.kind = ScopeKind.package_)) with
  | none => exact ⟨_, rfl, rfl⟩
  | some sc =>
    obtain ⟨l, f, hp⟩ := hl sc (List.mem_of_find?_eq_some hf)
    simp only [Option.map_some]
    obtain ⟨s, q, a1, b1, hq⟩ := E.iter_eq f hp (fn := fun (appeared : Bool) a =>
      if appeared && decide (h.kind (some a) = .raw) then (appeared, false)
      else if h.kind (some a) = .package_ then (true, true)
      else (appeared, true)) (fn' := fun (appeared : Bool) a =>
      if appeared && decide (h'.kind (some a) = .raw) then (appeared, false)
      else if h'.kind (some a) = .package_ then (true, true)
      else (appeared, true)) (fun s a ra => by simp [E.kind ra, E.text ra]) false
    refine ⟨.ok (h.text q), ?_, ?_⟩
    · rw [findPackageNode, a1]; rfl
    · rw [findPackageNode, show (sc.at g).node = sc.node.map g from rfl, b1]
      simp only [Option.map_some]
      rw [E.textP q hq]

end Emb0

namespace Emb

variable {g : Addr → Addr} {R : Addr → Prop} {h h' : Heap}

theorem describe (E : Emb g R h h') (p : Ptr) (hp : ∀ a, p = some a → R a) : h'.describe (p.map g) = h.describe p := by
  cases p with
  | none => rfl
  | some a => simp [Heap.describe, E.line (hp a rfl), E.kind (hp a rfl), E.text (hp a rfl)]

theorem nodeView (E : Emb g R h h') (p : Ptr) (hp : ∀ a, p = some a → R a) : h'.nodeView (p.map g) = h.nodeView p := by
  have hd := E.describe p hp
  cases p with
  | none => rfl
  | some a => simpa [Heap.nodeView, E.line (hp a rfl), E.kind (hp a rfl), E.text (hp a rfl)] using hd

theorem view (E : Emb g R h h') {sc : ScopeRec} {l : List Addr} (f : Fwd h sc.node l) (hp : ∀ a, sc.node = some a → R a) :
    (sc.at g).view h' = sc.view h ∧ (sc.view h).Answered := by
  obtain ⟨r1, a1, b1⟩ := E.funcName f hp
  obtain ⟨r2, a2, b2⟩ := E.typeName f hp
  obtain ⟨r3, a3, b3⟩ := E.structName f hp
  obtain ⟨r4, a4, b4⟩ := E.interfaceName f hp
  obtain ⟨r5, a5, b5⟩ := E.methodReceiver f hp
  obtain ⟨r6, a6, b6⟩ := E.methodName f hp
  obtain ⟨s, q, a7, b7, _⟩ := E.iter_eq f hp (fn := fun (l : List (NodeView × NodeView)) a =>
      (l ++ [(h.nodeView (some a), h.nodeView (h.prev (some a)))], true)) (fn' := fun (l : List (NodeView × NodeView)) a =>
      (l ++ [(h'.nodeView (some a), h'.nodeView (h'.prev (some a)))], true))
      (fun s a ra => by rw [E.prev ra, E.nodeView _ (fun b hb => E.prevC ra hb), show h'.nodeView (some (g a)) = _ from E.nodeView (some a) (by simpa using ra)]) []
  refine ⟨?_, ?_⟩
  · simp only [ScopeRec.view, a1, a2, a3, a4, a5, a6, b1, b2, b3, b4, b5, b6, a7]
    rw [show (sc.at g).node = sc.node.map g from rfl, b7]
    rfl
  · constructor <;> simp [ScopeRec.view, a1, a2, a3, a4, a5, a6, a7]

theorem astDescription (E : Emb g R h h') : ∀ {scs : List ScopeRec}, (∀ sc ∈ scs, ∃ l, Fwd h sc.node l ∧ ∀ a, sc.node = some a → R a) →
    ∃ t, Goast.astDescription h scs = some t ∧ Goast.astDescription h' (scs.map (ScopeRec.at g)) = some t
  | [], _ => ⟨_, rfl, rfl⟩
  | sc :: scs, hl => by
    obtain ⟨l, f, hp⟩ := hl sc (by simp)
    obtain ⟨t, e1, e2⟩ := astDescription E (scs := scs) (fun sc hs => hl sc (by simp [hs]))
    obtain ⟨s, q, a1, b1, hq⟩ := E.iter_eq f hp (fn := fun (buf : Bytes) a => (buf ++ h.describe (some a), true))
      (fn' := fun (buf : Bytes) a => (buf ++ h'.describe (some a), true))
      (fun s a ra => by rw [show h'.describe (some (g a)) = _ from E.describe (some a) (by simpa using ra)]) []
    refine ⟨sc.describe ++ s ++ t, ?_, ?_⟩
    · simp [Goast.astDescription, a1, e1]
    · simp only [Goast.astDescription, List.map_cons, show (sc.at g).node = sc.node.map g from rfl, b1, e2]
      rfl

theorem scopesView (E : Emb g R h h') {scs : List ScopeRec} (hl : ∀ sc ∈ scs, ∃ l, Fwd h sc.node l ∧ ∀ a, sc.node = some a → R a) :
    Goast.scopesView h' (scs.map (ScopeRec.at g)) = Goast.scopesView h scs ∧ (Goast.scopesView h scs).Answered := by
  obtain ⟨t1, a1, b1⟩ := E.scopesText hl
  obtain ⟨t2, a2, b2⟩ := E.astDescription hl
  obtain ⟨t3, a3, b3⟩ := E.package hl
  refine ⟨?_, ?_⟩
  · simp only [Goast.scopesView, a1, a2, a3, b1, b2, b3, ParseView.mk.injEq, and_true, List.map_map]
    refine List.map_congr_left (fun sc hsc => ?_)
    obtain ⟨l, f, hp⟩ := hl sc hsc
    exact (E.view f hp).1
  · refine ⟨?_, by simp [Goast.scopesView, a1], by simp [Goast.scopesView, a2], by simp [Goast.scopesView, a3]⟩
    intro s hs
    obtain ⟨sc, hsc, rfl⟩ := List.mem_map.1 hs
    obtain ⟨l, f, hp⟩ := hl sc hsc
    exact (E.view f hp).2

end Emb

/-- Moved nodes. -/
theorem Emb.beside (o h : Heap) : Emb (· + o.size) (fun _ => True) h (o.beside h) where
  nextC _ _ := trivial
  prevC _ _ := trivial
  size {a} _ ha := by rw [Reloc.size]; omega
  next _ := Reloc.next h (some _)
  prev _ := Reloc.prev h (some _)
  kind _ := Reloc.kind h (some _)
  text _ := Reloc.text h (some _)
  line _ := Reloc.line h (some _)

/-- Nodes that stay where they are while others are made. -/
theorem Emb.of_extends {h h' : Heap} (w : WF h) (ex : Extends h h') : Emb id (· < h.size) h h' where
  nextC {a b} ha hb := by
    have := (w.inverse a b).1 hb
    by_cases hb' : b < h.size
    · exact hb'
    · simp [Heap.prev, List.getElem?_eq_none (show h.cells.length ≤ b by simpa [Heap.size] using hb')] at this
  prevC {a b} ha hb := by
    have := (w.inverse b a).2 hb
    by_cases hb' : b < h.size
    · exact hb'
    · simp [Heap.next, List.getElem?_eq_none (show h.cells.length ≤ b by simpa [Heap.size] using hb')] at this
  size {a} ha _ := Nat.lt_of_lt_of_le ha ex.1
  next {a} ha := by rw [Option.map_id_fun]; exact (ex.2 a ha).1
  prev {a} ha := by rw [Option.map_id_fun]; exact (ex.2 a ha).2.1
  kind {a} ha := by have := (ex.2 a ha).2.2; simp only [data, Prod.mk.injEq] at this; exact this.2.1
  text {a} ha := by have := (ex.2 a ha).2.2; simp only [data, Prod.mk.injEq] at this; exact this.2.2
  line {a} ha := by have := (ex.2 a ha).2.2; simp only [data, Prod.mk.injEq] at this; exact this.1

theorem extends_beside (o h : Heap) : Extends o (o.beside h) := by
  refine ⟨by rw [Reloc.size]; omega, fun a ha => ?_⟩
  have : (o.beside h).cells[a]? = o.cells[a]? := List.getElem?_append_left (by simpa [Heap.size] using ha)
  simp [Heap.next, Heap.prev, data, Heap.line, Heap.kind, Heap.text, this]

theorem beside_assoc (o h k : Heap) : (o.beside h).beside k = o.beside (h.beside k) := by
  have e : ∀ r : NodeRec, r.moved (o.beside h).size = (r.moved h.size).moved o.size := by
    intro r
    simp only [NodeRec.moved, Reloc.size, NodeRec.mk.injEq, true_and]
    constructor
    · cases r.prev <;> simp <;> omega
    · cases r.next <;> simp <;> omega
  show Heap.mk _ = Heap.mk _
  congr 1
  simp only [Heap.beside, List.map_append, List.map_map, List.append_assoc]
  congr 2
  exact List.map_congr_left (fun r _ => e r)

end Goast
