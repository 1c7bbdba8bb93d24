import Verif.Proofs.ResetAll
import Verif.Props.Extract

/-!
# What merging does to texts and links
-/

set_option linter.unusedSimpArgs false
set_option linter.unusedVariables false

namespace Goast
open Heap

theorem realNodes_some {a : Addr} {rest : List Addr} (hn : a ∉ rest) :
    realNodes (some a) (rest.map some) = rest.map some := by
  unfold realNodes
  rw [List.filter_eq_self]
  intro m hm
  simp only [List.mem_map] at hm
  obtain ⟨x, hx, rfl⟩ := hm
  simp only [ne_eq, reduceCtorEq, not_false_eq_true, Option.some.injEq, true_and, decide_eq_true_eq]
  rintro rfl; exact hn hx

theorem deferCombine_eq (h : Heap) (a : Addr) (rest : List Ptr) (k : Kind) (ha : a < h.size) :
    ∃ h', deferCombine h (some a :: rest) k = some h' ∧
      h' = ((((h.setKind (some a) k).isolateAll (realNodes (some a) rest)).setText (some a)
        (h.text (some a) ++ ((realNodes (some a) rest).map h.text).flatten)).replaceNext
        (some a) (h.next ((some a :: rest).getLast (by simp)))).1 := by
  unfold deferCombine
  have : h.combineNext (some a) k rest = some ((((h.setKind (some a) k).isolateAll (realNodes (some a) rest)).setText (some a)
        (h.text (some a) ++ ((realNodes (some a) rest).map h.text).flatten)), some a) := by
    rcases rest with _ | ⟨m, ms⟩
    · simp only [combineNext, realNodes, List.filter_nil, isolateAll, List.foldl_nil, List.map_nil, List.flatten_nil,
        List.append_nil, Option.some.injEq, Prod.mk.injEq, and_true]
      have := text_setKind h (some a) k (some a)
      rw [← this]
      generalize h.setKind (some a) k = h1
      obtain ⟨ns⟩ := h1
      simp only [setText, text, Heap.modify, Heap.mk.injEq]
      apply List.ext_getElem?
      intro i
      rw [List.getElem?_modify]
      by_cases hi : a = i
      · subst hi
        cases e : ns[a]? <;> simp
      · simp [hi]
    · simp only [combineNext, combineLoop_eq, text_setKind, Option.some.injEq, Prod.mk.injEq, and_true]
      congr 1
      have : (h.setKind (some a) k).text = h.text := funext fun p => text_setKind h (some a) k p
      simp [this]
  simp only [this]
  exact ⟨_, rfl, rfl⟩

/-- A merge of real, distinct nodes. -/
theorem deferCombine_links {h : Heap} (w : WF h) {a : Addr} (ha : a < h.size) {rest : List Addr}
    (hr : ∀ x ∈ rest, x < h.size) (hn : a ∉ rest) {x : Addr} (hl : rest.getLast? = some x)
    (hx : h.next (some x) ≠ some a) (k : Kind) :
    ∃ h', deferCombine h (some a :: rest.map some) k = some h' ∧ WF h' ∧ h'.size = h.size ∧
      (∀ p, h'.kind p = if p = some a then k else h.kind p) ∧
      (∀ p, h'.text p = if p = some a then h.text (some a) ++ textOf h rest else h.text p) ∧
      ∀ y, h'.next (some y) = if y = a then h.next (some x)
        else if y ∈ rest ∨ ∃ z ∈ rest, h.next (some y) = some z then none else h.next (some y) := by
  obtain ⟨h', e, eh⟩ := deferCombine_eq h a (rest.map some) k ha
  refine ⟨h', e, ?_⟩
  rw [realNodes_some hn] at eh
  have hlast : (some a :: rest.map some).getLast (by simp) = some x := by
    have : (some a :: rest.map some).getLast? = some (some x) := by
      rw [List.getLast?_cons]
      simp [List.getLast?_map, hl]
    rw [List.getLast?_eq_some_getLast (by simp)] at this
    exact Option.some.inj this
  rw [hlast] at eh
  have hxm : x ∈ rest := List.mem_of_getLast? hl
  have w1 := wf_setKind w (some a) k
  have v1 : ∀ m ∈ rest.map some, Valid (h.setKind (some a) k) m := by
    intro m hm
    simp only [List.mem_map] at hm
    obtain ⟨y, hy, rfl⟩ := hm
    exact valid_setKind.2 (valid_some (hr y hy))
  have ne1 : ∀ m ∈ rest.map some, m ≠ none := by
    intro m hm
    simp only [List.mem_map] at hm
    obtain ⟨y, hy, rfl⟩ := hm
    simp
  have l2 := isolateAll_links (rest.map some) w1 v1 ne1
  have w2 := wf_isolateAll _ w1 v1
  have sd2 := sameData_isolateAll (rest.map some) (h.setKind (some a) k)
  generalize hh2 : (h.setKind (some a) k).isolateAll (rest.map some) = h2 at *
  have s2 : h2.size = h.size := by rw [sd2.1, size_setKind]
  have ft : (rest.map some).map h.text = rest.map fun a => h.text (some a) := by simp
  rw [ft] at eh
  change h' = ((h2.setText (some a) (h.text (some a) ++ textOf h rest)).replaceNext (some a) (h.next (some x))).1 at eh
  generalize hh3 : h2.setText (some a) (h.text (some a) ++ textOf h rest) = h3 at eh
  have w3 : WF h3 := by rw [← hh3]; exact wf_setText w2 _ _
  have s3 : h3.size = h.size := by rw [← hh3, size_setText, s2]
  have n3 : ∀ y, h3.next (some y) = if y ∈ rest ∨ ∃ z ∈ rest, h.next (some y) = some z then none else h.next (some y) := by
    intro y
    rw [← hh3, next_setText, (l2 y).1]
    simp only [next_setKind, List.mem_map, Option.some.injEq, exists_eq_right]
    congr 1
    simp [eq_comm]
  have p3 : ∀ y, h3.prev (some y) = if y ∈ rest ∨ ∃ z ∈ rest, h.prev (some y) = some z then none else h.prev (some y) := by
    intro y
    rw [← hh3, prev_setText, (l2 y).2]
    simp only [prev_setKind, List.mem_map, Option.some.injEq, exists_eq_right]
    congr 1
    simp [eq_comm]
  have va : Valid h3 (some a) := valid_some (by omega)
  have vx : Valid h3 (h.next (some x)) := by
    intro b hb; rw [s3]; exact w.valid_next _ _ hb
  have sd4 := sameData_replaceNext h3 (some a) (h.next (some x))
  have pn : h3.prev (h.next (some x)) = none := by
    cases hb : h.next (some x) with
    | none => rfl
    | some b =>
      rw [p3, if_pos]
      exact .inr ⟨x, hxm, (w.inverse _ _).1 hb⟩
  have w4 : WF h' := by rw [eh]; exact wf_replaceNext w3 va vx
  refine ⟨w4, by rw [eh, sd4.1, s3], ?_, ?_, ?_⟩
  · intro p
    rw [eh, (sd4.2 p).2.1, ← hh3, kind_setText, (sd2.2 p).2.1, kind_setKind h a k p ha]
  · intro p
    rw [eh, (sd4.2 p).2.2, ← hh3, text_setText _ _ _ _ (by omega), (sd2.2 p).2.2, text_setKind]
  · intro y
    rw [eh]
    by_cases hc : h3.next (some a) = h.next (some x)
    · have e1 : (h3.replaceNext (some a) (h.next (some x))).1 = h3 := by
        rw [replaceNext, if_pos (.inr hc)]
      rw [e1]
      by_cases hy : y = a
      · subst hy; rw [if_pos rfl, hc]
      · rw [if_neg hy, n3]
    · rw [(replaceNext_links w3 va vx (fun hh => hx hh.symm) hc y).1, pn]
      by_cases hy : y = a
      · subst hy; simp
      · simp only [Option.some.injEq, hy, if_false, reduceCtorEq]
        rw [n3]

/-- A merge of one node with nothing. -/
theorem deferCombine_one {h : Heap} (w : WF h) {a : Addr} (ha : a < h.size) (k : Kind) :
    ∃ h', deferCombine h [some a] k = some h' ∧ WF h' ∧ h'.size = h.size ∧
      (∀ p, h'.kind p = if p = some a then k else h.kind p) ∧ (∀ p, h'.text p = h.text p) ∧ (∀ p, h'.next p = h.next p) := by
  have e1 : deferCombine h [some a] k = some ((h.setKind (some a) k).replaceNext (some a) (h.next (some a))).1 := rfl
  have e2 : ((h.setKind (some a) k).replaceNext (some a) (h.next (some a))).1 = h.setKind (some a) k := by
    rw [replaceNext, if_pos (.inr (by simp))]
  rw [e2] at e1
  exact ⟨_, e1, wf_setKind w _ _, by simp, fun p => kind_setKind h a k p ha, by simp, by simp⟩

/-- In any merge, texts only grow, at the end. -/
theorem deferCombine_prefix {h h' : Heap} {a : Addr} {rest : List Ptr} {k : Kind} (ha : a < h.size)
    (e : deferCombine h (some a :: rest) k = some h') (p : Ptr) : h.text p <+: h'.text p := by
  obtain ⟨h1, e1, eh⟩ := deferCombine_eq h a rest k ha
  rw [e] at e1; cases e1
  have sd2 := sameData_isolateAll (realNodes (some a) rest) (h.setKind (some a) k)
  have ha' : a < ((h.setKind (some a) k).isolateAll (realNodes (some a) rest)).size := by
    rw [sd2.1, size_setKind]; exact ha
  rw [eh, ((sameData_replaceNext _ _ _).2 p).2.2, text_setText _ _ _ _ ha', (sd2.2 p).2.2, text_setKind]
  split
  · rename_i hp; subst hp; exact List.prefix_append _ _
  · exact List.prefix_refl _

/-- `resetKind` never removes or rewrites text: the text of a node can only grow at its end. -/
theorem resetKind_prefix {h h' : Heap} {r : Ptr} (w : WF h) (ac : Acyclic h) {l : List Addr} (ch : Chain h l)
    {a : Addr} (ha : a ∈ l) (e : resetKind h (some a) = some (h', r)) (p : Ptr) : h.text p <+: h'.text p := by
  have any : ∀ (g : Heap) (n : Addr) (rest : List Ptr) (g' : Heap),
      Good (rctx h ac l fun g => ∀ p, h.text p <+: g.text p) g → n ∈ l → g.kind (some n) ≠ .comment →
      deferCombine g (some n :: rest) .paramType = some g' → ∀ p, h.text p <+: g'.text p := by
    intro g n rest g' gd hn _ e p
    have : n < g.size := by
      rw [show g.size = h.size from gd.size]; exact ch.1 n hn
    exact (gd.x p).trans (deferCombine_prefix this e p)
  have ok : (rctx h ac l fun g => ∀ p, h.text p <+: g.text p).OK :=
    { lt := ch.1
      bound := fun a ha => behind_lt ac (ch.1 a ha)
      xKind := fun g a k gd _ _ _ _ p => by rw [text_setKind]; exact gd.x p
      xMerge := fun g n m g' gd hn _ hk _ e => any g n _ g' gd hn hk e }
  have hlt : behind h ac a < h.size := behind_lt ac (ch.1 a ha)
  obtain ⟨h1, r1, e1, g⟩ := resetKind_good w ac ch ha (X := fun g => ∀ p, h.text p <+: g.text p)
    (fun p => List.prefix_refl _) ok (by
      intro _ w b i sb fb _
      exact paramRun_inv ok (fun g n rest g' gd sn _ nc _ e => any g n rest g' gd sn nc e) i (Nat.le_of_lt hlt) (Nat.le_of_lt hlt) (.some sb fb) (by unfold resetDepth; omega))
  rw [e] at e1; cases e1
  exact g.x p

end Goast
