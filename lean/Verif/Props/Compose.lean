import Verif.Proofs.Compose

/-!
# C60: each declaration is parsed as if it were alone
-/

namespace Goast
open Heap

variable {ord ord' ord'' : Nat → List (Bytes × Ext)}

/-- What the methods show of the scopes of a text, in any heap and map order. -/
theorem parse_looks (ho : MapOrder ord) (o : Heap) (startLine : Int) (text : Bytes) :
    ∃ h scs, parseScopeOrd ord o startLine text = some (h, scs) ∧ scs.map (ScopeRec.look h) = looks startLine text := by
  obtain ⟨h0, scs0, e, _, _, hl, a⟩ := parse_alone ho startLine text
  obtain ⟨h1, scs1, e1, lk⟩ := parse_looks_empty startLine text
  rw [e] at e1
  simp only [Option.some.injEq, Prod.mk.injEq] at e1
  obtain ⟨rfl, rfl⟩ := e1
  refine ⟨_, _, a o, ?_⟩
  rw [← lk, List.map_map]
  refine List.map_congr_left (fun sc hsc => ?_)
  obtain ⟨l, f⟩ := hl sc hsc
  have E := Emb.beside o h0
  have := E.toEmb0.look f (n := 0) (fun _ _ => trivial) (fun b _ => by rw [Int.add_zero]; exact E.line trivial)
  rw [Look.below_zero, Int.add_zero] at this
  exact this

/-- **C60** Let `a` be a text of whole lines with all its brackets closed, and let `b` begin with the first word of a
declaration.  Then the scopes of `a ++ b` are the scopes of `a` and behind them the scopes of `b`, as if the two texts were
parsed on their own: same kinds, same nodes with the same texts and labels, same names, and the lines of `b`'s scopes and
nodes are further down by the number of lines of `a`.  All this in any heaps and map orders, and for every start line of `a`
and `a ++ b` (`b`'s is 0, or negative). -/
theorem C60_concat (ho : MapOrder ord) (ho' : MapOrder ord') (ho'' : MapOrder ord'') (o o' o'' : Heap) {a b : Bytes} (wa : Whole a)
    (wb : BeginsScope b) (s : Int) {t : Int} (ht : t ≤ 0) :
    ∃ h scs h1 scs1 h2 scs2, parseScopeOrd ord o s (a ++ b) = some (h, scs) ∧
      parseScopeOrd ord' o' s a = some (h1, scs1) ∧ parseScopeOrd ord'' o'' t b = some (h2, scs2) ∧
      scs.map (ScopeRec.look h) = scs1.map (ScopeRec.look h1) ++ scs2.map (fun sc => (sc.look h2).below (countNL a)) := by
  obtain ⟨h, scs, e, l⟩ := parse_looks ho o s (a ++ b)
  obtain ⟨h1, scs1, e1, l1⟩ := parse_looks ho' o' s a
  obtain ⟨h2, scs2, e2, l2⟩ := parse_looks ho'' o'' t b
  refine ⟨h, scs, h1, scs1, h2, scs2, e, e1, e2, ?_⟩
  rw [l, l1, looks_append wa wb s ht, ← l2, List.map_map]
  rfl

/-- **C60** Replacing a declaration (or several) by another changes nothing else: the scopes before it (`P`) stay, and those
behind it (`Q`) stay up to their lines. -/
theorem C60_replace (ho : MapOrder ord) (ho' : MapOrder ord') (o o' : Heap) {pre old new post : Bytes} (w1 : Whole pre)
    (w2 : Whole old) (b2 : BeginsScope old) (w3 : Whole new) (b3 : BeginsScope new) (b4 : BeginsScope post) (s : Int) :
    ∃ h scs h' scs', parseScopeOrd ord o s (pre ++ old ++ post) = some (h, scs) ∧
      parseScopeOrd ord' o' s (pre ++ new ++ post) = some (h', scs') ∧
      ∃ P O N Q, scs.map (ScopeRec.look h) = P ++ O ++ Q ∧
        scs'.map (ScopeRec.look h') = P ++ N ++ Q.map (Look.below ((countNL new : Int) - countNL old)) := by
  obtain ⟨h, scs, e, l⟩ := parse_looks ho o s (pre ++ old ++ post)
  obtain ⟨h', scs', e', l'⟩ := parse_looks ho' o' s (pre ++ new ++ post)
  refine ⟨h, scs, h', scs', e, e', looks s pre, (looks 0 old).map (Look.below (countNL pre)), (looks 0 new).map (Look.below (countNL pre)),
    (looks 0 post).map (Look.below (countNL (pre ++ old))), ?_, ?_⟩
  · rw [l, looks_append (w1.append w2) b4 s (t := 0) (by omega), looks_append w1 b2 s (t := 0) (by omega)]
  · rw [l', looks_append (w1.append w3) b4 s (t := 0) (by omega), looks_append w1 b3 s (t := 0) (by omega), List.map_map]
    congr 1
    refine List.map_congr_left (fun v _ => ?_)
    have hc : ∀ x : Bytes, countNL (pre ++ x) = countNL pre + countNL x := fun x => by simp [countNL]
    cases v with | mk k li nd _ _ _ _ _ _ =>
    simp only [Function.comp_apply, Look.below, hc, Look.mk.injEq, and_true, true_and]
    refine ⟨by omega, ?_⟩
    cases nd with
    | none => rfl
    | some xs =>
      simp only [Option.map_some, List.map_map, Option.some.injEq]
      refine List.map_congr_left (fun x _ => ?_)
      simp only [Function.comp_apply, Prod.mk.injEq, and_true]
      omega

/-- The scopes of the declarations `ds`, each parsed alone, the first on line `n`. -/
def oneByOne (n : Int) : List Bytes → Option (List Look)
  | [] => some []
  | d :: ds =>
    match parseScope Heap.empty 0 d, oneByOne (n + countNL d) ds with
    | some (h, scs), some vs => some (scs.map (fun sc => (sc.look h).below n) ++ vs)
    | _, _ => none

theorem looks_file : ∀ (ds : List Bytes), (∀ d ∈ ds, Whole d ∧ BeginsScope d) → ∀ n : Int,
    oneByOne n ds = some ((looks 0 ds.flatten).map (Look.below n)) ∧ wordFirst ((lexAll ds.flatten).map Lexeme.text) = true ∧
    (ds ≠ [] → BeginsScope ds.flatten)
  | [], _, n => ⟨rfl, rfl, fun h => absurd rfl h⟩
  | d :: ds, hd, n => by
    obtain ⟨wd, bd⟩ := hd d (by simp)
    obtain ⟨ih1, ih2, ih3⟩ := looks_file ds (fun x hx => hd x (by simp [hx])) (n + countNL d)
    obtain ⟨h, scs, e, l⟩ := parse_looks_empty 0 d
    have b := BeginsScope.append wd bd ih2
    refine ⟨?_, b.2, fun _ => b⟩
    simp only [oneByOne, e, ih1, Option.some.injEq, List.flatten_cons]
    rw [← Function.comp_def (Look.below n), ← List.map_map, l]
    by_cases hds : ds = []
    · subst hds
      simp [looks, toks, lexAll, lex, word, lineList, divideT]
    · rw [looks_append wd (ih3 hds) 0 (t := 0) (by omega), List.map_append, List.map_map]
      congr 1
      refine List.map_congr_left (fun v _ => ?_)
      cases v with | mk k li nd _ _ _ _ _ _ =>
      simp only [Function.comp_apply, Look.below, Look.mk.injEq, and_true, true_and]
      refine ⟨by omega, ?_⟩
      cases nd with
      | none => rfl
      | some xs =>
        simp only [Option.map_some, List.map_map, Option.some.injEq]
        refine List.map_congr_left (fun x _ => ?_)
        simp only [Function.comp_apply, Prod.mk.injEq, and_true]
        omega

/-- **C60** A file of any number of declarations: its scopes are those of the declarations, each parsed alone, with the lines
of the file. -/
theorem C60_file (ho : MapOrder ord) (o : Heap) {ds : List Bytes} (hd : ∀ d ∈ ds, Whole d ∧ BeginsScope d) :
    ∃ h scs, parseScopeOrd ord o 0 ds.flatten = some (h, scs) ∧ oneByOne 0 ds = some (scs.map (ScopeRec.look h)) := by
  obtain ⟨h, scs, e, l⟩ := parse_looks ho o 0 ds.flatten
  refine ⟨h, scs, e, ?_⟩
  rw [(looks_file ds hd 0).1, l]
  congr 1
  rw [show Look.below 0 = id from funext Look.below_zero, List.map_id]

/-! ## The hypotheses can be met -/

example : Whole b!"package a\n\n// f { (\nfunc f(x int) {\n\treturn \"}\"\n}\n" := by decide +kernel

example : BeginsScope b!"func f(x int) {\n}\n" := ⟨⟨⟨b!"func", false⟩, by decide +kernel⟩, by decide +kernel⟩

example : BeginsScope b!"// about f\nfunc f(x int) {\n}\n" := ⟨⟨⟨b!"// about f", true⟩, by decide +kernel⟩, by decide +kernel⟩

set_option maxRecDepth 100000 in
example : (oneByOne 0 [b!"package a\n\n", b!"type T struct {\n\tx int\n}\n", b!"func (t T) F() {}\n"]).map (List.map fun v =>
      (v.kind, v.line)) = some [(.package_, 1), (.type_, 3), (.func_, 6)] := by decide +kernel

/-! ## Why the texts must be whole and begin with a word -/

/-- The looks, for the examples below. -/
def looksOf (text : Bytes) : Option (List Look) := (parseScope Heap.empty 0 text).map fun r => r.2.map (ScopeRec.look r.1)

/-- A bracket without a word before it reports the line of the last word of the text before: here line 0, not 1. -/
theorem C60_bracket_first : Whole b!"package a\n" ∧ ¬ BeginsScope b!"/**/(\n" ∧
    looksOf b!"package a\n/**/(\n" ≠ (looksOf b!"package a\n").bind fun u => (looksOf b!"/**/(\n").map fun v => u ++ v.map (Look.below 1) := by
  refine ⟨by decide +kernel, fun h => absurd h.2 (by decide +kernel), ?_⟩
  set_option maxRecDepth 100000 in decide +kernel

/-- A declaration on the same line as the one before is not a scope of its own. -/
theorem C60_same_line : ¬ Whole b!"package a;" ∧ BeginsScope b!"func f() {}\n" ∧
    (looksOf b!"package a;").map List.length = some 1 ∧ (looksOf b!"func f() {}\n").map List.length = some 1 ∧
    (looksOf b!"package a;func f() {}\n").map List.length = some 1 := by
  refine ⟨by decide +kernel, ⟨⟨⟨b!"func", false⟩, by decide +kernel⟩, by decide +kernel⟩, ?_⟩
  set_option maxRecDepth 100000 in decide +kernel

end Goast
