import Verif.Proofs.Texts

/-!
# `ParseScope` step by step
-/

set_option linter.unusedSimpArgs false
set_option linter.unusedVariables false

namespace Goast
open Heap

/-- The course of one `ParseScope`: `h` before, `h1` after splitting the text into the nodes `l`, `st`
after the division into scopes, `h'` in the end. -/
structure Parsed (ord : Nat → List (Bytes × Ext)) (h : Heap) (startLine : Int) (text : Bytes)
    (h1 : Heap) (p : Ptr) (l : List Addr) (st : ParseSt) (h' : Heap) : Prop where
  extract : extractOrd ord h text = some (h1, p)
  fwd : Fwd h1 p l
  chain : Chain h1 l
  ext : Extends h h1
  nodes : ∀ a, a ∈ l ↔ h.size ≤ a ∧ a < h1.size
  texts : textOf h1 l = text
  wf1 : WF h1
  acyc1 : Acyclic h1
  split : splitScopes h1 startLine p = some st
  scs : st.scs = (divide h1 (startLine - 1) l).2.map (scopeOf h1)
  wf2 : WF st.heap
  acyc2 : Acyclic st.heap
  data2 : SameData h1 st.heap
  same2 : SameOn (· < h.size) h1 st.heap
  lead : Chain st.heap (divide h1 (startLine - 1) l).1
  groups : ∀ g ∈ (divide h1 (startLine - 1) l).2, Chain st.heap g
  reset : resetAll st.heap st.scs = some h'
  parse : parseScopeOrd ord h startLine text = some (h', st.scs)
  wf3 : WF h'
  acyc3 : Acyclic h'
  size3 : h'.size = st.heap.size
  line3 : ∀ q, h'.line q = st.heap.line q
  same3 : SameOn (fun a => a < st.heap.size ∧ a ∉ (divide h1 (startLine - 1) l).2.flatten) st.heap h'
  group3 : ∀ g ∈ (divide h1 (startLine - 1) l).2, GroupReset st.heap h' g

theorem groups_nodup {h : Heap} {l : List Addr} (ch : Chain h l) (prev : Int) : (divide h prev l).2.flatten.Nodup := by
  have := ch.nodup
  rw [← divide_flatten h l prev] at this
  exact (List.nodup_append.1 this).2.1

theorem parsed {ord : Nat → List (Bytes × Ext)} (ho : MapOrder ord) {h : Heap} (w : WF h) (ac : Acyclic h)
    (startLine : Int) (text : Bytes) : ∃ h1 p l st h', Parsed ord h startLine text h1 p l st h' := by
  obtain ⟨h1, p, l, e1, f, ch, ext, nodes, wf1, ac1⟩ := C02_total ho h text
  obtain ⟨h1', p', l', e1', f', tx⟩ := C01_lossless ho h text
  rw [e1] at e1'; cases e1'
  cases f.det f'
  have cl : Closed h1 (· < h.size) := by
    refine ⟨fun a ha => Nat.lt_of_lt_of_le ha ext.1, ?_, ?_⟩
    · intro a b ha e
      rw [(ext.2 a ha).1] at e
      exact w.valid_next _ _ e
    · intro a b ha e
      rw [(ext.2 a ha).2.1] at e
      exact w.valid_prev _ _ e
  obtain ⟨st, e2, h2, h3, h4, h5, h6, h7, h8⟩ := splitScopes_post (wf1 w) (ac1 ac) cl ch
    (fun a ha hh => by have := (nodes a).1 ha; omega) startLine
  have hp := f.head_eq
  have hn := divide_ne_nil h1 l (startLine - 1)
  obtain ⟨h', e3, g1, g2, g3, g4, g5, g6⟩ := resetAll_post (divide h1 (startLine - 1) l).2 st.scs st.heap
    (by rw [h2]; simp [scopeOf, Function.comp_def]) h3 h4 hn (groups_nodup ch _) h8
  exact ⟨h1, p, l, st, h', e1, f, ch, ext, nodes, tx, wf1 w, ac1 ac, by rw [hp]; exact e2, h2, h3, h4, h5, h6, h7, h8, e3,
    by simp only [parseScopeOrd, e1, hp, e2, e3], g1, g2, g3, g4, g5, g6⟩

theorem GroupReset.prefix {h h' : Heap} {a : Addr} {l : List Addr} (g : GroupReset h h' (a :: l)) (b : Addr)
    (hb : b ∈ a :: l) : h.text (some b) <+: h'.text (some b) := by
  obtain ⟨h1, h2, r, w, ac, ch, sz, s1, e, s2, sz'⟩ := g.ex
  have p := resetKind_prefix w ac ch (a := a) (by simp) e (some b)
  have t1 : h1.text (some b) = h.text (some b) := by
    have := (s1 b hb).2.2
    simp only [data, Prod.mk.injEq] at this
    exact this.2.2
  have t2 : h'.text (some b) = h2.text (some b) := by
    have := (s2 b hb).2.2
    simp only [data, Prod.mk.injEq] at this
    exact this.2.2
  rw [← t1, t2]; exact p

end Goast
