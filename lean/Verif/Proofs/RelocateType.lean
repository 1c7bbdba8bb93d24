import Verif.Proofs.RelocateReset

/-!
# The type resetters, the splitting and the whole parse are independent of the addresses
-/

set_option linter.unusedSimpArgs false
set_option linter.unusedVariables false

namespace Goast
open Heap

namespace Reloc

variable {o : Heap}

theorem wd_app (w : World) (a : Addr) :
    ({ heap := (wd o w).heap, buf := appendUnrepeatable (wd o w).buf [some (a + o.size)] } : World)
      = wd o { w with buf := appendUnrepeatable w.buf [some a] } := by
  have := appendUnrep (o := o) w.buf (some a)
  simp only [wd]
  rw [← this]
  rfl

theorem paramRun {d d' : Nat} (S : Sim o d d') {w w' : World} {p q : Ptr}
    (e : Goast.paramRun d w p = some (w', q)) :
    Goast.paramRun d' (wd o w) (moved o.size p) = some (wd o w', moved o.size q) := by
  unfold Goast.paramRun at e ⊢
  split at e
  · cases e
  · rename_i w1 r hj
    have h0 : ({ heap := (wd o w).heap, buf := [] } : World) = wd o { heap := w.heap, buf := [] } := rfl
    rw [h0, jumpLoop (o := o) (fun w s a w' s' c e => ?_) hj]
    · split at e
      · cases e
      · rename_i h1 hd
        simp only [Option.some.injEq, Prod.mk.injEq] at e
        obtain ⟨rfl, rfl⟩ := e
        have := deferCombine (o := o) hd
        simp only [wd] at this ⊢
        rw [this]
    · simp only [wd_heap, kindA] at e ⊢
      split at e <;> first
        | fin e
        | exact toJump (fun w q e => skipNestNext (p := some a) e) e
        | exact toJump (fun w q e => S.paren (p := some a) e) e
        | exact toJump (fun w q e => S.func (p := some a) e) e
        | (refine Eq.trans ?_ (fin_eq e)
           rw [← wd_app]
           rfl)

theorem isThisLineFunction {w : World} {p : Ptr} {b : Bool} (e : Goast.isThisLineFunction w p = some b) :
    Goast.isThisLineFunction (wd o w) (moved o.size p) = some b := by
  obtain ⟨⟨⟨w1, c⟩, q1⟩, e1, rfl⟩ := Option.map_eq_some_iff.1 e
  unfold Goast.isThisLineFunction
  rw [iterW (o := o) (fun w s a w' s' b e => ?_) e1]
  · rfl
  · simp only [wd_heap, kindA] at e ⊢
    split at e <;>
      (simp only [Option.some.injEq, Prod.mk.injEq] at e ⊢
       obtain ⟨⟨rfl, rfl⟩, rfl⟩ := e
       exact ⟨⟨rfl, rfl⟩, rfl⟩)

theorem getRowNameCount {w : World} {p : Ptr} {b : Nat} (e : Goast.getRowNameCount w p = some b) :
    Goast.getRowNameCount (wd o w) (moved o.size p) = some b := by
  obtain ⟨⟨⟨w1, c⟩, q1⟩, e1, rfl⟩ := Option.map_eq_some_iff.1 e
  unfold Goast.getRowNameCount
  rw [iterW (o := o) (fun w s a w' s' b e => ?_) e1]
  · rfl
  · simp only [wd_heap, kindA] at e ⊢
    simp only [Option.some.injEq, Prod.mk.injEq] at e ⊢
    obtain ⟨⟨rfl, rfl⟩, rfl⟩ := e
    exact ⟨⟨rfl, rfl⟩, rfl⟩

theorem interfaceRun {d d' : Nat} (S : Sim o d d') {w w' : World} {p q : Ptr}
    (e : Goast.interfaceRun d w p = some (w', q)) :
    Goast.interfaceRun d' (wd o w) (moved o.size p) = some (wd o w', moved o.size q) := by
  unfold Goast.interfaceRun at e ⊢
  split at e
  · cases e
  · rename_i w1 f hf
    rw [findNext (o := o) hf]
    refine jumpLoop (fun w s a w' s' c e => ?_) e
    simp only [wd_heap, kindA] at e ⊢
    split at e
    · fin e
    · fin e
    · fin e
    · fin e
    · fin e
    · fin e
    · split at e
      · cases e
      · rename_i hl
        rw [show Goast.isThisLineFunction (wd o w) (some (a + o.size)) = _ from isThisLineFunction (o := o) hl]
        exact toJump (fun w q e => S.func (p := some a) e) e
      · rename_i hl
        rw [show Goast.isThisLineFunction (wd o w) (some (a + o.size)) = _ from isThisLineFunction (o := o) hl]
        split at e
        · rename_i hk
          simp only [hk, if_true, wd_setKind] at e ⊢
          exact toJump (fun w q e => findNext (p := some a) e) e
        · rename_i hk
          simp only [hk, if_false] at e ⊢
          exact toJump (fun w q e => findNext (p := some a) e) e

theorem structRow {d d' : Nat} (S : Sim o d d') {w w' : World} {p q : Ptr}
    (e : Goast.structRow d w p = some (w', q)) :
    Goast.structRow d' (wd o w) (moved o.size p) = some (wd o w', moved o.size q) := by
  unfold Goast.structRow at e ⊢
  split at e
  · cases e
  · rename_i n hn
    rw [getRowNameCount (o := o) hn]
    refine jumpLoop (fun w s a w' s' c e => ?_) e
    simp only [wd_heap, kindA] at e ⊢
    split at e <;> first
      | fin e
      | exact toJump (fun w q e => S.func (p := some a) e) e
      | (split at e
         · rename_i h1; rw [if_pos h1]; fin e
         · rename_i h1; rw [if_neg h1]; fin e)

theorem structRun {d d' : Nat} (S : Sim o d d') {w w' : World} {p q : Ptr}
    (e : Goast.structRun d w p = some (w', q)) :
    Goast.structRun d' (wd o w) (moved o.size p) = some (wd o w', moved o.size q) := by
  unfold Goast.structRun at e ⊢
  split at e
  · cases e
  · rename_i w1 f hf
    rw [findNext (o := o) hf]
    simp only [wd_heap, next]
    refine jumpLoop (fun w s a w' s' c e => ?_) e
    simp only [wd_heap, kindA] at e ⊢
    split at e <;> first
      | fin e
      | exact toJump (fun w q e => structRow S (p := some a) e) e

theorem typeRun {d d' : Nat} (S : Sim o d d') {w w' : World} {p q : Ptr}
    (e : Goast.typeRun d w p = some (w', q)) :
    Goast.typeRun d' (wd o w) (moved o.size p) = some (wd o w', moved o.size q) := by
  unfold Goast.typeRun at e ⊢
  simp only [wd_heap, kind, next] at e ⊢
  split at e
  · rename_i h1
    rw [if_pos h1]
    simp only [Option.some.injEq, Prod.mk.injEq] at e ⊢
    obtain ⟨rfl, rfl⟩ := e
    exact ⟨rfl, rfl⟩
  · rename_i h1
    rw [if_neg h1]
    refine jumpLoop (fun w s a w' s' c e => ?_) e
    simp only [wd_heap, kindA] at e ⊢
    split at e
    · rename_i h2
      rw [if_pos h2]
      split at e <;> fin e
    · rename_i h2
      rw [if_neg h2]
      split at e
      · rename_i h3
        rw [if_pos h3]
        split at e <;> first
          | fin e
          | exact toJump (fun w q e => skipNestNext (p := some a) e) e
      · rename_i h3
        rw [if_neg h3]
        split at e <;> first
          | fin e
          | exact toJump (fun w q e => interfaceRun S (p := some a) e) e
          | exact toJump (fun w q e => structRun S (p := some a) e) e
          | exact toJump (fun w q e => S.func (p := some a) e) e
          | exact toJump (fun w q e => paramRun S (p := some a) e) e
          | exact toJump (fun w q e => skipNestNext (p := some a) e) e

theorem resetKind {h h' : Heap} {p q : Ptr} (e : Goast.resetKind h p = some (h', q)) :
    Goast.resetKind (o.beside h) (moved o.size p) = some (o.beside h', moved o.size q) := by
  have S := sim o (resetDepth h) (resetDepth (o.beside h)) (by simp only [resetDepth, size]; omega)
  have hw : (⟨o.beside h, []⟩ : World) = wd o ⟨h, []⟩ := rfl
  unfold Goast.resetKind at e ⊢
  simp only [kind]
  rw [hw]
  split at e
  · obtain ⟨⟨w1, q1⟩, e1, e2⟩ := Option.map_eq_some_iff.1 e
    simp only [Prod.mk.injEq] at e2
    obtain ⟨rfl, rfl⟩ := e2
    rw [S.func e1]
    rfl
  · obtain ⟨⟨w1, q1⟩, e1, e2⟩ := Option.map_eq_some_iff.1 e
    simp only [Prod.mk.injEq] at e2
    obtain ⟨rfl, rfl⟩ := e2
    rw [typeRun S e1]
    rfl
  · simp only [Option.some.injEq, Prod.mk.injEq] at e ⊢
    obtain ⟨rfl, rfl⟩ := e
    exact ⟨rfl, rfl⟩

theorem resetAll : ∀ {h h' : Heap} {scs : List ScopeRec}, Goast.resetAll h scs = some h' →
    Goast.resetAll (o.beside h) (scs.map (ScopeRec.moved o.size)) = some (o.beside h')
  | h, h', [], e => by
    simp only [Goast.resetAll, Option.some.injEq] at e
    subst e
    rfl
  | h, h', sc :: scs, e => by
    simp only [Goast.resetAll, List.map_cons] at e ⊢
    split at e
    · cases e
    · rename_i h1 q1 hr
      rw [show Goast.resetKind (o.beside h) (sc.moved o.size).node = _ from resetKind (o := o) hr]
      exact resetAll e

/-- The state of `ParseScope`, moved. -/
def ps (o : Heap) (s : ParseSt) : ParseSt :=
  { heap := o.beside s.heap, scs := s.scs.map (ScopeRec.moved o.size), head := moved o.size s.head, k := s.k, line := s.line }

theorem tryAppend (s : ParseSt) : tryAppendScope (ps o s) = ps o (tryAppendScope s) := by
  unfold tryAppendScope
  by_cases h1 : s.k = .unknown
  · by_cases h2 : s.heap.prev s.head = none <;>
      simp [ps, h1, h2, removePrev]
  · by_cases h2 : s.heap.prev s.head = none <;>
      simp [ps, h1, h2, removePrev, newScope, ScopeRec.moved]

theorem step {s s' : ParseSt} {a : Addr} {b : Bool} (e : parseStep s a = some (s', b)) :
    parseStep (ps o s) (a + o.size) = some (ps o s', b) := by
  unfold parseStep at e ⊢
  simp only [show (ps o s).heap = o.beside s.heap from rfl, lineA, textA, show (ps o s).line = s.line from rfl] at e ⊢
  split at e
  · rename_i h1
    rw [if_pos h1]
    simp only [Option.some.injEq, Prod.mk.injEq] at e ⊢
    obtain ⟨rfl, rfl⟩ := e
    exact ⟨rfl, rfl⟩
  · rename_i h1
    rw [if_neg h1]
    split at e
    · rename_i h2
      rw [if_pos h2]
      simp only [Option.some.injEq, Prod.mk.injEq] at e ⊢
      obtain ⟨rfl, rfl⟩ := e
      exact ⟨rfl, rfl⟩
    · rename_i h2
      rw [if_neg h2]
      simp only [Option.some.injEq, Prod.mk.injEq] at e ⊢
      obtain ⟨rfl, rfl⟩ := e
      refine ⟨?_, rfl⟩
      have := tryAppend (o := o) ⟨s.heap, s.scs, s.head, s.k, s.heap.line (some a)⟩
      simp only [ps] at this ⊢
      rw [this]
      rfl

theorem splitScopes {h : Heap} {sl : Int} {p : Ptr} {s : ParseSt} (e : Goast.splitScopes h sl p = some s) :
    Goast.splitScopes (o.beside h) sl (moved o.size p) = some (ps o s) := by
  obtain ⟨⟨s1, q1⟩, e1, rfl⟩ := Option.map_eq_some_iff.1 e
  unfold Goast.splitScopes
  have := loop_sim (ps o) o.size (iter := fun s a => s.heap.next (some a)) (iter' := fun s a => s.heap.next (some a))
    (fn := parseStep) (fn' := parseStep) (fun s a => nextA _ _) (fun s a s' b e => step e)
    _ ((o.beside h).size + 1) _ _ _ _ (by rw [size]; omega) e1
  rw [← tryAppend, show (⟨o.beside h, [], moved o.size p, .unknown, sl - 1⟩ : ParseSt) = ps o ⟨h, [], p, .unknown, sl - 1⟩ from rfl, this]
  rfl

theorem parseScopeOrd {ord : Nat → List (Bytes × Ext)} {h h' : Heap} {sl : Int} {txt : Bytes} {scs : List ScopeRec}
    (e : Goast.parseScopeOrd ord h sl txt = some (h', scs)) :
    Goast.parseScopeOrd ord (o.beside h) sl txt = some (o.beside h', scs.map (ScopeRec.moved o.size)) := by
  unfold Goast.parseScopeOrd at e ⊢
  split at e
  · cases e
  · rename_i h1 p1 he
    rw [extract (o := o) he]
    simp only
    split at e
    · cases e
    · rename_i s hs
      rw [splitScopes (o := o) hs]
      simp only
      split at e
      · cases e
      · rename_i h2 hr
        simp only [Option.some.injEq, Prod.mk.injEq] at e
        obtain ⟨rfl, rfl⟩ := e
        rw [show Goast.resetAll (ps o s).heap (ps o s).scs = _ from resetAll (o := o) hr]
        rfl

@[simp] theorem beside_empty (o : Heap) : o.beside (⟨[]⟩ : Heap) = o := by
  cases o
  simp [Heap.beside]

end Reloc
end Goast
