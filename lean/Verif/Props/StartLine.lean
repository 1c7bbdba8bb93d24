import Verif.Props.Compose
import Verif.Props.Sections

/-!
# C13: what the start line is good for
-/

namespace Goast
open Heap

variable {ord ord' : Nat → List (Bytes × Ext)}

theorem toks_head (text : Bytes) {t : Tok} {ts : List Tok} (e : toks text = t :: ts) :
    0 ≤ t.line ∧ t.text <+: text ∧ (t.line ≠ 0 → startsScope t.text = true → b!"/*".isPrefixOf text = true) := by
  cases hx : lexAll text with
  | nil => rw [toks, hx] at e; simp at e
  | cons x xs =>
    have pf : x.text <+: text := ⟨(xs.map Lexeme.text).flatten, by rw [← lexAll_text_flatten text, hx]; simp⟩
    rw [toks, hx, List.map_cons, lineList] at e
    by_cases h1 : x.text = b!"("
    · rw [if_pos h1] at e
      simp only [List.zipWith_cons_cons, List.cons.injEq] at e
      obtain ⟨rfl, -⟩ := e
      exact ⟨Int.le_refl _, pf, fun h => absurd rfl h⟩
    rw [if_neg h1] at e
    by_cases h2 : x.text = b!"{"
    · rw [if_pos h2] at e
      simp only [List.zipWith_cons_cons, List.cons.injEq] at e
      obtain ⟨rfl, -⟩ := e
      exact ⟨Int.le_refl _, pf, fun h => absurd rfl h⟩
    rw [if_neg h2] at e
    simp only [List.head?_nil, Option.map_none, reduceCtorEq, if_false] at e
    by_cases h3 : IsWord x.text
    · rw [if_pos h3] at e
      simp only [List.zipWith_cons_cons, List.cons.injEq] at e
      obtain ⟨rfl, -⟩ := e
      exact ⟨Int.le_refl _, pf, fun h => absurd rfl h⟩
    rw [if_neg h3] at e
    by_cases h4 : cutOff x.text = true
    · rw [if_pos h4] at e
      simp only [List.zipWith_cons_cons, List.cons.injEq] at e
      obtain ⟨rfl, -⟩ := e
      refine ⟨by simp, pf, fun _ hs => ?_⟩
      show b!"/*".isPrefixOf text = true
      have hs : startsScope x.text = true := hs
      have : b!"/*".isPrefixOf x.text = true := by
        rw [Bool.eq_false_or_eq_true (b!"/*".isPrefixOf x.text) |>.resolve_right]
        intro hf
        rw [cutOff, hf] at h4
        generalize x.text = y at hs h4
        cases y with
        | nil => simp at h4
        | cons c y =>
          simp only [Bool.false_eq_true, if_false, List.head?_cons, Option.some.injEq] at h4
          have hc : c = 34 ∨ c = 96 := by
            by_cases q : c = 34
            · exact .inl q
            · rw [if_neg q] at h4
              by_cases q' : c = 96
              · exact .inr q'
              · rw [if_neg q'] at h4; cases h4
          simp only [startsScope, scopeWords, List.any_cons, List.any_nil, List.isPrefixOf, Bool.or_eq_true, Bool.and_eq_true, beq_iff_eq] at hs
          rcases hc with rfl | rfl <;> simp at hs
      exact List.isPrefixOf_iff_prefix.2 ((List.isPrefixOf_iff_prefix.1 this).trans pf)
    · rw [if_neg h4] at e
      simp only [List.zipWith_cons_cons, List.cons.injEq] at e
      obtain ⟨rfl, -⟩ := e
      exact ⟨Int.le_refl _, pf, fun h => absurd rfl h⟩

/-- The start line only decides whether the first node can begin a scope. -/
theorem looks_start {s s' : Int} {text : Bytes} (h : ∀ t, (toks text).head? = some t → startsScope t.text = true → (t.line ≠ s - 1 ↔ t.line ≠ s' - 1)) :
    looks s text = looks s' text := by
  rw [looks, looks]
  cases e : toks text with
  | nil => rfl
  | cons t ts =>
    rw [divideT, divideT]
    by_cases hk : newScopeKind t.text ≠ .unknown
    · have := h t (by rw [e]; rfl) ((startsScope_iff _).2 hk)
      simp only [this]
    · simp only [hk, and_false]

/-- **C13** The start line has no influence on what `ParseScope` returns, unless it is 1: for a text that does not begin with a block comment all start lines other
than 1 give scopes of the same kinds and lines with the same nodes and names. -/
theorem C13_start_line (ho : MapOrder ord) (ho' : MapOrder ord') (o o' : Heap) {s s' : Int} (hs : s ≠ 1) (hs' : s' ≠ 1) {text : Bytes}
    (hc : ¬ b!"/*" <+: text) : ∃ h scs h' scs', parseScopeOrd ord o s text = some (h, scs) ∧ parseScopeOrd ord' o' s' text = some (h', scs') ∧
      scs.map (ScopeRec.look h) = scs'.map (ScopeRec.look h') := by
  obtain ⟨h, scs, e, l⟩ := parse_looks ho o s text
  obtain ⟨h', scs', e', l'⟩ := parse_looks ho' o' s' text
  refine ⟨h, scs, h', scs', e, e', ?_⟩
  rw [l, l']
  refine looks_start fun t ht hk => ?_
  cases hx : toks text with
  | nil => rw [hx] at ht; cases ht
  | cons u us =>
    rw [hx, List.head?_cons, Option.some.injEq] at ht
    subst ht
    obtain ⟨_, _, q⟩ := toks_head text hx
    have : u.line = 0 := Decidable.byContradiction fun hne => hc (List.isPrefixOf_iff_prefix.1 (q hne hk))
    omega

/-- **C13** Start lines up to 0 (`ParseAst` uses 0) all give the same, whatever the text begins with. -/
theorem C13_start_low (ho : MapOrder ord) (ho' : MapOrder ord') (o o' : Heap) {s s' : Int} (hs : s ≤ 0) (hs' : s' ≤ 0) (text : Bytes) :
    ∃ h scs h' scs', parseScopeOrd ord o s text = some (h, scs) ∧ parseScopeOrd ord' o' s' text = some (h', scs') ∧
      scs.map (ScopeRec.look h) = scs'.map (ScopeRec.look h') := by
  obtain ⟨h, scs, e, l⟩ := parse_looks ho o s text
  obtain ⟨h', scs', e', l'⟩ := parse_looks ho' o' s' text
  refine ⟨h, scs, h', scs', e, e', ?_⟩
  rw [l, l']
  refine looks_start fun t ht _ => ?_
  cases hx : toks text with
  | nil => rw [hx] at ht; cases ht
  | cons u us =>
    rw [hx, List.head?_cons, Option.some.injEq] at ht
    subst ht
    have := (toks_head text hx).1
    omega

theorem toks_starts {text : Bytes} : (∃ t ts, toks text = t :: ts ∧ startsScope t.text = true) ↔ startsScope text = true := by
  constructor
  · rintro ⟨t, ts, e, h⟩
    obtain ⟨_, p, _⟩ := toks_head text e
    simp only [startsScope, List.any_eq_true] at h ⊢
    obtain ⟨w, hw, hp⟩ := h
    exact ⟨w, hw, List.isPrefixOf_iff_prefix.2 ((List.isPrefixOf_iff_prefix.1 hp).trans p)⟩
  · intro h
    have hk := (startsScope_iff _).1 h
    obtain ⟨kw, u, hkw, hu⟩ := (C45_newScopeKind_some _ _ hk).1 rfl
    obtain ⟨x, xs, t, hx, ht⟩ := lexAll_keyword hkw u
    rw [← hu] at hx
    have hl := length_lineList ((lexAll text).map Lexeme.text) 0 0 []
    cases hll : lineList 0 0 [] ((lexAll text).map Lexeme.text) with
    | nil => rw [hll, hx] at hl; simp at hl
    | cons m ms =>
      refine ⟨⟨m, (Lexeme.kt x).1, x.text⟩, _, by rw [toks, hll, hx]; rfl, ?_⟩
      exact (startsScope_iff _).2 fun hun => (C45_newScopeKind_unknown _).1 hun _ _ hkw ⟨t, ht⟩

/-- **C13** Start line 1 and a text that begins with a scope word (and not with a block comment): `ParseScope` returns what it returns for start line 0 without the
first scope. -/
theorem C13_start_one (ho : MapOrder ord) (ho' : MapOrder ord') (o o' : Heap) {text : Bytes} (hs : startsScope text = true) (hc : ¬ b!"/*" <+: text) :
    ∃ h scs h' sc scs', parseScopeOrd ord o 1 text = some (h, scs) ∧ parseScopeOrd ord' o' 0 text = some (h', sc :: scs') ∧
      scs.map (ScopeRec.look h) = scs'.map (ScopeRec.look h') := by
  obtain ⟨h, scs, e, l⟩ := parse_looks ho o 1 text
  obtain ⟨h', scs', e', l'⟩ := parse_looks ho' o' 0 text
  obtain ⟨t, ts, ht, hk⟩ := toks_starts.2 hs
  obtain ⟨_, _, q⟩ := toks_head text ht
  have h0 : t.line = 0 := Decidable.byContradiction fun hne => hc (List.isPrefixOf_iff_prefix.1 (q hne hk))
  have hk' := (startsScope_iff _).1 hk
  have a1 : looks 1 text = (divideT t.line ts).2.map lookTok := by
    rw [looks, ht, divideT, if_neg (by rw [h0]; simp)]
  have a0 : looks 0 text = lookTok (t :: (divideT t.line ts).1) :: (divideT t.line ts).2.map lookTok := by
    rw [looks, ht, divideT, if_pos ⟨by rw [h0]; decide, hk'⟩]; rfl
  rw [a1] at l
  rw [a0] at l'
  cases scs' with
  | nil => cases l'
  | cons sc scs' =>
    rw [List.map_cons, List.cons.injEq] at l'
    exact ⟨h, scs, h', sc, scs', e, e', l.trans l'.2.symm⟩

/-- **C13** And if the text does not begin with a scope word, start line 1 is like all others. -/
theorem C13_start_one_other (ho : MapOrder ord) (ho' : MapOrder ord') (o o' : Heap) (s s' : Int) {text : Bytes} (hs : startsScope text = false) :
    ∃ h scs h' scs', parseScopeOrd ord o s text = some (h, scs) ∧ parseScopeOrd ord' o' s' text = some (h', scs') ∧
      scs.map (ScopeRec.look h) = scs'.map (ScopeRec.look h') := by
  obtain ⟨h, scs, e, l⟩ := parse_looks ho o s text
  obtain ⟨h', scs', e', l'⟩ := parse_looks ho' o' s' text
  refine ⟨h, scs, h', scs', e, e', ?_⟩
  rw [l, l']
  refine looks_start fun t ht hk => ?_
  cases hx : toks text with
  | nil => rw [hx] at ht; cases ht
  | cons u us =>
    rw [hx, List.head?_cons, Option.some.injEq] at ht
    subst ht
    have := toks_starts.1 ⟨_, _, hx, hk⟩
    rw [hs] at this
    cases this

/-- The condition on block comments is needed: a comment without an end has the line of the end of the text. -/
example : scopeTexts 0 b!"/* a\n" = some [(.innerComment, 2, b!"/* a\n")] ∧ scopeTexts 2 b!"/* a\n" = some [] ∧
    startsScope b!"package a\n" = true ∧ ¬ b!"/*" <+: b!"package a\n" ∧ startsScope b!" package a\n" = false := by decide +kernel

end Goast
