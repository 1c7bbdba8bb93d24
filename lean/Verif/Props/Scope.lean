import Verif.Proofs.Parse
import Verif.Props.Kinds

/-!
# C09-C13: `ParseScope`

All theorems hold in every heap `h` with consistent, acyclic links (whatever nodes exist already), for every
byte string and start line, and for every order `ord` in which Go may iterate the map of openers.
-/

set_option linter.unusedSimpArgs false
set_option linter.unusedVariables false

namespace Goast
open Heap

/-- The empty heap meets the hypotheses of all these theorems. -/
theorem wf_empty : WF Heap.empty := ⟨fun a b => by simp [Heap.empty, Heap.next, Heap.prev], fun a => by simp [Heap.empty, Heap.next]⟩

theorem acyclic_empty : Acyclic Heap.empty := fun a ha => absurd ha (by simp [Heap.empty, Heap.size])

theorem mapOrder_id : MapOrder (fun _ => commonDeeperExtract) := fun _ => .refl _

variable {ord : Nat → List (Bytes × Ext)} {h : Heap}

/-! ## C09 -/

/-- **C09** `ParseScope` terminates without panic (the model's error value is always nil, see DESIGN.md). -/
theorem C09_total (ho : MapOrder ord) (w : WF h) (ac : Acyclic h) (startLine : Int) (text : Bytes) :
    ∃ h' scs, parseScopeOrd ord h startLine text = some (h', scs) := by
  obtain ⟨h1, p, l, st, h', P⟩ := parsed ho w ac startLine text
  exact ⟨h', _, P.parse⟩

/-- **C09** It is deterministic: Go's map iteration order does not matter. -/
theorem C09_deterministic {ord'} (ho : MapOrder ord) (ho' : MapOrder ord') (h : Heap) (startLine : Int) (text : Bytes) :
    parseScopeOrd ord h startLine text = parseScopeOrd ord' h startLine text := by
  simp only [parseScopeOrd, C03_deterministic ho ho' h text]

/-! ## C10 -/

/-- **C10** The nodes `l` of the text are divided, in order, into those before the first scope (`lead`) and the nodes `gs` of the scopes: no
node is lost or shared, so the texts of the scopes, in order, are the text behind `lead`.  Each scope begins with the first node of its group,
and all the nodes reachable from it are nodes of its group. -/
theorem C10_partition (ho : MapOrder ord) (w : WF h) (ac : Acyclic h) (startLine : Int) (text : Bytes) :
    ∃ h1 p l lead h' scs, ∃ gs : List (List Addr), extractOrd ord h text = some (h1, p) ∧ Fwd h1 p l ∧
      parseScopeOrd ord h startLine text = some (h', scs) ∧ scs.map (·.node) = gs.map List.head? ∧
      (∀ g ∈ gs, g ≠ [] ∧ ∃ g', Chain h' g' ∧ g'.head? = g.head? ∧ ∀ a ∈ g', a ∈ g) ∧
      lead ++ gs.flatten = l ∧ l.Nodup ∧ textOf h1 lead ++ (gs.map (textOf h1)).flatten = text := by
  obtain ⟨h1, p, l, st, h', P⟩ := parsed ho w ac startLine text
  have fl := divide_flatten h1 l (startLine - 1)
  refine ⟨h1, p, l, (divide h1 (startLine - 1) l).1, h', st.scs, (divide h1 (startLine - 1) l).2, P.extract, P.fwd, P.parse,
    by rw [P.scs]; simp [scopeOf, Function.comp_def], ?_, fl, P.chain.nodup, ?_⟩
  · intro g hg
    refine ⟨divide_ne_nil _ _ _ g hg, ?_⟩
    obtain ⟨a, g, rfl⟩ := List.exists_cons_of_ne_nil (divide_ne_nil _ _ _ g hg)
    obtain ⟨l', ch, sub⟩ := (P.group3 _ hg).chain
    refine ⟨_, ch, rfl, fun b hb => ?_⟩
    rcases List.mem_cons.1 hb with rfl | hb
    · simp
    · simp [sub b hb]
  have app : ∀ gs : List (List Addr), (gs.map (textOf h1)).flatten = textOf h1 gs.flatten := by
    intro gs
    induction gs with
    | nil => rfl
    | cons g gs ih => simp only [List.map_cons, List.flatten_cons, ih]; simp [textOf]
  rw [app]
  conv => rhs; rw [← P.texts, ← fl]
  simp [textOf]

/-! ## C11 -/

/-- **C11** The kind of a scope is the one whose keyword the text of its first node begins with, and `Line()` is
one more than the line of that node (in the state `ParseScope` returns). -/
theorem C11_heads (ho : MapOrder ord) (w : WF h) (ac : Acyclic h) {startLine : Int} {text : Bytes} {h' : Heap}
    {scs : List ScopeRec} (e : parseScopeOrd ord h startLine text = some (h', scs)) : ∀ sc ∈ scs,
    ∃ a kw rest, sc.node = some a ∧ sc.kind ≠ .unknown ∧ (kw, sc.kind) ∈ scopeKeywords ∧
      h'.text (some a) = kw ++ rest ∧ sc.lineNo = h'.line (some a) + 1 := by
  obtain ⟨h1, p, l, st, h'', P⟩ := parsed ho w ac startLine text
  have := P.parse
  rw [e] at this; cases this
  intro sc hsc
  rw [P.scs, List.mem_map] at hsc
  obtain ⟨g, hg, rfl⟩ := hsc
  obtain ⟨a, g', rfl⟩ := List.exists_cons_of_ne_nil (divide_ne_nil _ _ _ g hg)
  have opens : ∀ (l : List Addr) (prev : Int), ∀ g ∈ (divide h1 prev l).2, ∀ a, g.head? = some a →
      newScopeKind (h1.text (some a)) ≠ .unknown := by
    intro l
    induction l with
    | nil => intro _ g hg; simp [divide] at hg
    | cons b l ih =>
      intro prev g hg a ha
      simp only [divide] at hg
      split at hg
      · rename_i ho
        rcases List.mem_cons.1 hg with rfl | hg
        · cases ha; exact ho.2
        · exact ih _ g hg a ha
      · exact ih _ g hg a ha
  have hk := opens l _ _ hg a rfl
  obtain ⟨kw, t, hkw, ht⟩ := (C45_newScopeKind_some _ _ hk).1 rfl
  obtain ⟨t', ht'⟩ := (P.group3 _ hg).prefix a (by simp)
  rw [(P.data2.2 _).2.2, ht] at ht'
  refine ⟨a, kw, t ++ t', rfl, hk, hkw, by rw [← ht']; simp, ?_⟩
  show h1.line (some a) + 1 = _
  rw [P.line3, (P.data2.2 _).1]

/-! ## C12 -/

/-- **C12** The scopes are pairwise disjoint complete chains of fresh nodes; all links are consistent, every chain
is finite, and every node that existed before is as it was. -/
theorem C12_separate (ho : MapOrder ord) (w : WF h) (ac : Acyclic h) {startLine : Int} {text : Bytes} {h' : Heap}
    {scs : List ScopeRec} (e : parseScopeOrd ord h startLine text = some (h', scs)) :
    WF h' ∧ Acyclic h' ∧ Extends h h' ∧
    ∃ ls : List (List Addr), scs.map (·.node) = ls.map List.head? ∧ ls.flatten.Nodup ∧
      ∀ l ∈ ls, l ≠ [] ∧ Chain h' l ∧ ∀ a ∈ l, h.size ≤ a := by
  obtain ⟨h1, p, l, st, h'', P⟩ := parsed ho w ac startLine text
  have := P.parse
  rw [e] at this; cases this
  have fl := divide_flatten h1 l (startLine - 1)
  have nd := groups_nodup P.chain (startLine - 1)
  refine ⟨P.wf3, P.acyc3, ⟨?_, ?_⟩, ?_⟩
  · rw [P.size3, P.data2.1]; exact P.ext.1
  · intro a ha
    have s1 := P.ext.2 a ha
    have s2 := P.same2 a ha
    have s3 := P.same3 a ⟨by rw [P.data2.1]; exact Nat.lt_of_lt_of_le ha P.ext.1, fun hm => by
      have : a ∈ l := by rw [← fl]; simp [hm]
      have := (P.nodes a).1 this
      omega⟩
    exact ⟨s3.1.trans (s2.1.trans s1.1), s3.2.1.trans (s2.2.1.trans s1.2.1), s3.2.2.trans (s2.2.2.trans s1.2.2)⟩
  · have fresh : ∀ g ∈ (divide h1 (startLine - 1) l).2, ∀ a ∈ g, h.size ≤ a := by
      intro g hg a ha
      exact ((P.nodes a).1 (by rw [← fl]; exact List.mem_append_right _ (List.mem_flatten.2 ⟨g, hg, ha⟩))).1
    have key : ∀ gs : List (List Addr), (∀ g ∈ gs, g ≠ [] ∧ GroupReset st.heap h' g ∧ ∀ a ∈ g, h.size ≤ a) →
        gs.flatten.Nodup → ∃ ls : List (List Addr), ls.map List.head? = gs.map List.head? ∧ ls.flatten.Nodup ∧
          (∀ b ∈ ls.flatten, b ∈ gs.flatten) ∧ ∀ l ∈ ls, l ≠ [] ∧ Chain h' l ∧ ∀ a ∈ l, h.size ≤ a := by
      intro gs
      induction gs with
      | nil => intro _ _; exact ⟨[], rfl, by simp, by simp, by simp⟩
      | cons g gs ih =>
        intro hg nd
        rw [List.flatten_cons, List.nodup_append] at nd
        obtain ⟨ls, e1, e2, e3, e4⟩ := ih (fun g' h' => hg g' (by simp [h'])) nd.2.1
        obtain ⟨h5, h6, h7⟩ := hg g (by simp)
        obtain ⟨a, g', rfl⟩ := List.exists_cons_of_ne_nil h5
        obtain ⟨l', c, sub⟩ := h6.chain
        have sub' : ∀ b ∈ a :: l', b ∈ a :: g' := by
          intro b hb
          rcases List.mem_cons.1 hb with rfl | hb
          · simp
          · simp [sub b hb]
        refine ⟨(a :: l') :: ls, by simp [e1], ?_, ?_, ?_⟩
        · rw [List.flatten_cons, List.nodup_append]
          exact ⟨c.nodup, e2, fun x hx y hy => nd.2.2 x (sub' x hx) y (e3 y hy)⟩
        · intro b hb
          rw [List.flatten_cons, List.mem_append] at hb
          rw [List.flatten_cons, List.mem_append]
          exact hb.imp (sub' b) (e3 b)
        · intro m hm
          rcases List.mem_cons.1 hm with rfl | hm
          · exact ⟨by simp, c, fun b hb => h7 b (sub' b hb)⟩
          · exact e4 m hm
    obtain ⟨ls, e1, e2, _, e4⟩ := key _ (fun g hg => ⟨divide_ne_nil _ _ _ g hg, P.group3 g hg, fresh g hg⟩) nd
    exact ⟨ls, by rw [e1, P.scs]; simp [scopeOf, Function.comp_def], e2, e4⟩

/-! ## C13 -/

/-- The line of the last of the nodes `l`, or `start` if there is none. -/
def lineBefore (h : Heap) (start : Int) (l : List Addr) : Int :=
  match l.getLast? with
  | none => start
  | some b => h.line (some b)

theorem lineBefore_cons (h : Heap) (start : Int) (b : Addr) (l : List Addr) :
    lineBefore h start (b :: l) = lineBefore h (h.line (some b)) l := by
  unfold lineBefore
  cases l with
  | nil => rfl
  | cons c l => rw [List.getLast?_cons_cons]; rw [List.getLast?_eq_some_getLast (by simp)]

theorem divide_heads (h : Heap) : ∀ (l : List Addr) (prev : Int), l.Nodup → ∀ l₁ a l₂, l = l₁ ++ a :: l₂ →
    (some a ∈ (divide h prev l).2.map List.head? ↔ Opens h (lineBefore h prev l₁) a) := by
  intro l
  induction l with
  | nil => intro _ _ l₁ a l₂ e; simp at e
  | cons b l ih =>
    intro prev nd l₁ a l₂ e
    have hmem : ∀ x, some x ∈ (divide h (h.line (some b)) l).2.map List.head? → x ∈ l := by
      intro x hx
      rw [List.mem_map] at hx
      obtain ⟨g, hg, hh⟩ := hx
      rw [← divide_flatten h l (h.line (some b))]
      exact List.mem_append_right _ (List.mem_flatten.2 ⟨g, hg, List.mem_of_head? hh⟩)
    cases l₁ with
    | nil =>
      simp only [List.nil_append, List.cons.injEq] at e
      obtain ⟨rfl, rfl⟩ := e
      show _ ↔ Opens h prev b
      simp only [divide]
      by_cases hO : Opens h prev b
      · simp [hO]
      · simp only [if_neg hO, hO, iff_false]
        exact fun hh => (List.nodup_cons.1 nd).1 (hmem b hh)
    | cons c l₁ =>
      simp only [List.cons_append, List.cons.injEq] at e
      obtain ⟨rfl, rfl⟩ := e
      rw [lineBefore_cons, ← ih (h.line (some b)) (List.nodup_cons.1 nd).2 l₁ a l₂ rfl]
      simp only [divide]
      split
      · rw [List.map_cons, List.mem_cons, List.head?_cons]
        constructor
        · rintro (hh | hh)
          · cases hh
            exact absurd (by simp) (List.nodup_cons.1 nd).1
          · exact hh
        · exact .inr
      · rfl

/-- **C13** `l` being the nodes of the text in order, a scope begins exactly at each node whose line differs from
the line of the node before it (for the first node: from `startLine - 1`) and whose text begins with one of the
eight keywords; scopes come in the order of the text. -/
theorem C13_where (ho : MapOrder ord) (w : WF h) (ac : Acyclic h) (startLine : Int) (text : Bytes) :
    ∃ h1 p l h' scs, extractOrd ord h text = some (h1, p) ∧ Fwd h1 p l ∧
      parseScopeOrd ord h startLine text = some (h', scs) ∧ (scs.map (·.node)).Sublist (l.map some) ∧
      ∀ l₁ a l₂, l = l₁ ++ a :: l₂ → (some a ∈ scs.map (·.node) ↔
        h1.line (some a) ≠ lineBefore h1 (startLine - 1) l₁ ∧
        ∃ kw k rest, (kw, k) ∈ scopeKeywords ∧ h1.text (some a) = kw ++ rest) := by
  obtain ⟨h1, p, l, st, h', P⟩ := parsed ho w ac startLine text
  have hm : st.scs.map (·.node) = (divide h1 (startLine - 1) l).2.map List.head? := by
    rw [P.scs]; simp [scopeOf, Function.comp_def]
  refine ⟨h1, p, l, h', st.scs, P.extract, P.fwd, P.parse, ?_, ?_⟩
  · rw [hm]
    have : ∀ gs : List (List Addr), (∀ g ∈ gs, g ≠ []) → (gs.map List.head?).Sublist (gs.flatten.map some) := by
      intro gs
      induction gs with
      | nil => intro _; exact List.Sublist.refl _
      | cons g gs ih =>
        intro hg
        obtain ⟨a, g', rfl⟩ := List.exists_cons_of_ne_nil (hg g (by simp))
        simp only [List.map_cons, List.head?_cons, List.flatten_cons, List.cons_append, List.map_append]
        exact ((ih fun g h => hg g (by simp [h])).trans (List.sublist_append_right _ _)).cons_cons _
    refine (this _ (divide_ne_nil _ _ _)).trans ?_
    conv => rhs; rw [← divide_flatten h1 l (startLine - 1)]
    rw [List.map_append]
    exact List.sublist_append_right _ _
  · intro l₁ a l₂ e
    rw [hm, divide_heads h1 l _ P.chain.nodup l₁ a l₂ e, Opens]
    refine and_congr_right fun _ => ?_
    constructor
    · intro hk
      obtain ⟨kw, t, h1, h2⟩ := (C45_newScopeKind_some _ _ hk).1 rfl
      exact ⟨kw, _, t, h1, h2⟩
    · rintro ⟨kw, k, rest, h1, h2⟩ hk
      exact (C45_newScopeKind_unknown _).1 hk kw k h1 ⟨rest, h2⟩

/-- The scopes of a parse: kind, `Line()` and text of each. -/
def scopeTexts (startLine : Int) (text : Bytes) : Option (List (ScopeKind × Int × Bytes)) :=
  (parseScope Heap.empty startLine text).map fun r =>
    r.2.map fun sc => (sc.kind, sc.lineNo, ((r.1.iterNext (fun s a => (s ++ r.1.text (some a), true)) [] sc.node).map (·.1)).getD [])

/-- **C13** With start line 0 a text is split as expected; with start line 1 the first line is dropped. -/
theorem C13_first_line : scopeTexts 0 b!"package a\n\nvar x int\n" =
      some [(.package_, 1, b!"package a\n\n"), (.variable, 3, b!"var x int\n")] ∧
    scopeTexts 1 b!"package a\n\nvar x int\n" = some [(.variable, 3, b!"var x int\n")] := by decide +kernel

/-- **C13** An identifier that merely begins with a keyword opens a scope. -/
theorem C13_identifier_opens : scopeTexts 0 b!"package a\nfunc f() {\nvariable = 1\n}\n" =
    some [(.package_, 1, b!"package a\n"), (.func_, 2, b!"func f() {\n"), (.variable, 3, b!"variable = 1\n}\n")] := by
  decide +kernel

/-- **C13** Because the line of a '(' node can be stale (C06), a `func` literal behind a parenthesis that opens a
line is taken for a scope of its own. -/
theorem C13_stale_line : scopeTexts 0 b!"func f() {\n\tx := 1\n\t(func() {})()\n}\n" =
    some [(.func_, 1, b!"func f() {\n\tx := 1\n\t("), (.func_, 3, b!"func() {})()\n}\n")] := by decide +kernel

/-! ## A case -/

/-- The hypotheses of C09 to C13 hold on the empty heap with the declaration order of the map; the scopes of a text
with comments, a group and a method. -/
example : MapOrder (fun _ => commonDeeperExtract) ∧ WF Heap.empty ∧ Acyclic Heap.empty ∧
    scopeTexts 0 b!"// c\npackage a\n\nimport (\n\t\"x\"\n)\n\nfunc (s T) f() {\n\tvar x int\n}\n" =
    some [(.comment, 1, b!"// c\n"), (.package_, 2, b!"package a\n\n"), (.import_, 4, b!"import (\n\t\"x\"\n)\n\n"),
      (.func_, 8, b!"func (s T) f() {\n\tvar x int\n}\n")] := by
  refine ⟨mapOrder_id, wf_empty, fun a ha => absurd ha (by simp [Heap.empty, Heap.size]), by decide +kernel⟩

end Goast
