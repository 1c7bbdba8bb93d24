import Verif.Props.EditOne

/-!
# C40: a copy as a snapshot
-/

namespace Goast
open Heap

theorem ScopeNodes.mem {h : Heap} {scs : List ScopeRec} {lss : List (List Addr)} (sn : ScopeNodes h scs lss) :
    ∀ sc ∈ scs, ∃ l ∈ lss, Fwd h sc.node l := by
  induction sn with
  | nil => intro x hx; cases hx
  | cons f _ ih =>
    intro x hx
    rcases List.mem_cons.1 hx with rfl | hx
    · exact ⟨_, by simp, f⟩
    · obtain ⟨l, hl, f⟩ := ih x hx
      exact ⟨l, by simp [hl], f⟩

theorem allText_data {h h' : Heap} {lss lss' : List (List Addr)} (e : lss'.map (List.map (data h')) = lss.map (List.map (data h))) :
    allText h' lss' = allText h lss := by
  have key : ∀ (h : Heap) (lss : List (List Addr)), allText h lss = ((lss.map (List.map (data h))).flatten.map fun x => x.2.2).flatten := by
    intro h lss
    rw [allText, ← List.map_flatten, List.map_map]
    rfl
  rw [key, key, e]

/-- **C40** A copy is a snapshot.  After `Copy`, both `Ast`s have the same text.  Whatever calls are then made on nodes, none of them on a node of the
copy, `Save` of the copy writes the text the original had when it was copied, and its scopes show what they showed; and the other way round for
calls on nodes that did not exist before the copy. -/
theorem C40_snapshot (st : AState) (f : AstRec) (w : WF st.heap) (ac : Acyclic st.heap) (ok : SliceOK st f.scope)
    {lss : List (List Addr)} (sn : ScopeNodes st.heap (f.scopes st) lss) :
    ∃ st' f' text, f.copy st = some (st', f') ∧ scopesText st.heap (f.scopes st) = some text ∧ f.scopes st' = f.scopes st ∧
      (∀ heap', Run (fun op => ∀ p ∈ op.args, ∀ a, p = some a → a < st.heap.size ∨ st'.heap.size ≤ a) st'.heap heap' →
        scopesText heap' (f'.scopes st') = some text ∧ ∀ sc ∈ f'.scopes st', sc.look heap' = sc.look st'.heap) ∧
      (∀ heap', Run (fun op => ∀ p ∈ op.args, ∀ a, p = some a → st.heap.size ≤ a) st'.heap heap' →
        scopesText heap' (f.scopes st') = some text ∧ ∀ sc ∈ f.scopes st', sc.look heap' = sc.look st.heap) := by
  obtain ⟨st', f', lss', e, _, _, _, _, _, sn', d, fr, _, w', _, ex, ar, _⟩ := C40_copy st f w ac sn
  have same_slice : f.scopes st' = f.scopes st := by
    obtain ⟨_, l, hl, _⟩ := ok
    have : f.scope.arr < st.arrs.length := by rw [List.getElem?_eq_some_iff] at hl; exact hl.1
    simp only [AstRec.scopes, AState.elems, ar _ this]
  have old : Closed st'.heap (· < st.heap.size) := by
    refine ⟨fun a ha => Nat.lt_of_lt_of_le ha ex.1, ?_, ?_⟩
    · intro a b ha e
      rw [(ex.2 a ha).1] at e
      exact w.valid_next _ _ e
    · intro a b ha e
      rw [(ex.2 a ha).2.1] at e
      exact w.valid_prev _ _ e
  have new : Closed st'.heap (fun x => st.heap.size ≤ x ∧ x < st'.heap.size) := by
    refine ⟨fun a ha => ha.2, ?_, ?_⟩
    · intro a b ha e
      refine ⟨?_, w'.valid_next _ _ e⟩
      rcases Nat.lt_or_ge b st.heap.size with hlt | hge
      · have := old.prev b a hlt ((w'.inverse a b).1 e); omega
      · exact hge
    · intro a b ha e
      refine ⟨?_, w'.valid_prev _ _ e⟩
      rcases Nat.lt_or_ge b st.heap.size with hlt | hge
      · have := old.next b a hlt ((w'.inverse b a).2 e); omega
      · exact hge
  have t0 : scopesText st'.heap (f'.scopes st') = some (allText st.heap lss) := by rw [scopesText_eq sn', allText_data d]
  refine ⟨st', f', allText st.heap lss, e, scopesText_eq sn, same_slice, fun heap' run => ?_, fun heap' run => ?_⟩
  · obtain ⟨same, sz⟩ := run_frame w' new (run_mono (fun op o p hp a ha hpa => by have := o p hp a hpa; omega) run)
    have each : ∀ sc ∈ f'.scopes st', sc.look heap' = sc.look st'.heap ∧ chainText heap' sc.node = chainText st'.heap sc.node := by
      intro sc hsc
      obtain ⟨l, hl, fw⟩ := sn'.mem sc hsc
      exact same_scope new same sz fw fun a ha => fr l hl a ha
    exact ⟨by rw [scopesText_congr fun sc hsc => (each sc hsc).2, t0], fun sc hsc => (each sc hsc).1⟩
  · obtain ⟨same, sz⟩ := run_frame w' old (run_mono (fun op o p hp a ha hpa => by have := o p hp a hpa; omega) run)
    rw [same_slice]
    have oldEmb : SameOn (· < st.heap.size) st.heap heap' := (SameOn.of_extends ex ⟨fun a ha => ha, fun a b ha e => w.valid_next _ _ e,
      fun a b ha e => w.valid_prev _ _ e⟩).trans same
    have old0 : Closed st.heap (· < st.heap.size) := ⟨fun a ha => ha, fun a b ha e => w.valid_next _ _ e, fun a b ha e => w.valid_prev _ _ e⟩
    have each : ∀ sc ∈ f.scopes st, sc.look heap' = sc.look st.heap ∧ chainText heap' sc.node = chainText st.heap sc.node := by
      intro sc hsc
      obtain ⟨l, hl, fw⟩ := sn.mem sc hsc
      exact same_scope old0 oldEmb (Nat.le_trans ex.1 sz) fw fun a ha => fw.lt a ha
    exact ⟨by rw [scopesText_congr fun sc hsc => (each sc hsc).2, scopesText_eq sn], fun sc hsc => (each sc hsc).1⟩

/-! ## The hypotheses can be met -/

/-- Two scopes, one with two nodes and one without nodes, in a slice with room for one more. -/
example : ∃ (st : AState) (f : AstRec) (lss : List (List Addr)), WF st.heap ∧ Acyclic st.heap ∧ SliceOK st f.scope ∧
    ScopeNodes st.heap (f.scopes st) lss ∧ allText st.heap lss = b!"package a" := by
  let h := (Heap.empty.newNodes 0 [b!"package ", b!"a"]).1
  refine ⟨⟨h, [[⟨0, .package_, some 0⟩, ⟨1, .func_, none⟩, default]]⟩, ⟨[], [], [], [], ⟨0, 0, 2, 3⟩⟩, [[0, 1], []],
    Heap.newNodes_wf Heap.wf_empty 0 _, Heap.acyclic_newNodes Heap.wf_empty (fun a ha => by simp [Heap.empty, Heap.size] at ha) 0 _,
    ⟨by decide, _, rfl, by decide⟩, ?_, by decide +kernel⟩
  refine .cons (.cons (by decide) ?_) (.cons .nil .nil)
  have : h.next (some 0) = some 1 := by decide +kernel
  rw [this]
  refine .cons (by decide) ?_
  have : h.next (some 1) = none := by decide +kernel
  rw [this]
  exact .nil

end Goast
