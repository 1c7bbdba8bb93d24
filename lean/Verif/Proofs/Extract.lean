import Verif.Proofs.ExtractMain

/-!
# `extract` as a whole
-/

namespace Goast
open Heap

theorem insertNode_i {s : Shared} {l : Local} {n : Ptr} {r : Shared × Local} (h : insertNode s l n = some r) :
    r.1.i = s.i := by
  unfold insertNode at h
  split at h
  · cases h; rfl
  · dsimp only at h
    split at h
    · cases h
    · cases h; rfl

theorem pushNode_i {s : Shared} {l : Local} {u : Bool} {ks : List Kind} {r : Shared × Local}
    (h : pushNode s l u ks = some r) : r.1.i = s.i := by
  unfold pushNode at h
  split at h
  · cases h; rfl
  · dsimp only at h
    split at h
    · cases h
    · rename_i heq
      cases h
      have := insertNode_i heq
      simpa using this

/-- The outermost call only returns at the end of the text. -/
theorem runLoop_common (ord) (text : Bytes) : ∀ (fuel : Nat) (s : Shared) (l : Local) (r : Shared × Ptr),
    runLoop ord text fuel .common s l = some r → text.length ≤ r.1.i := by
  intro fuel
  induction fuel with
  | zero => intro s l r h; simp [runLoop] at h
  | succ fuel ih =>
    intro s l r h
    rw [runLoop] at h
    split at h
    · rename_i hc
      split at h
      · cases h
      · rename_i heq
        cases h
        have := pushNode_i heq
        have := List.getElem?_eq_none_iff.1 hc
        simp at *; omega
    · split at h
      · split at h
        · cases h
        · dsimp only at h
          split at h
          · cases h
          · split at h
            · cases h
            · split at h
              · cases h
              · exact ih _ _ _ h
      · dsimp only at h
        split at h
        · exact ih _ _ _ h
        · split at h
          · rename_i hx
            simp [Ext.returnKeyword] at hx
          · split at h
            · cases h
            · exact ih _ _ _ h

/-- The orders in which Go may iterate the map: any permutation of its entries, anew at every lookup. -/
def MapOrder (ord : Nat → List (Bytes × Ext)) : Prop := ∀ i, (ord i).Perm commonDeeperExtract

theorem prefixFit_perm {es : List (Bytes × Ext)} (h : es.Perm commonDeeperExtract) (s : Bytes) :
    prefixFit es s = prefixFit commonDeeperExtract s := by
  have uniq : ∀ x ∈ commonDeeperExtract, ∀ y ∈ commonDeeperExtract, hasPrefix s x.1 = true → hasPrefix s y.1 = true → x = y := by
    have ha : ∀ kv ∈ commonDeeperExtract, Ascii kv.1 := by
      intro kv hkv
      simp [commonDeeperExtract] at hkv
      rcases hkv with rfl | rfl | rfl | rfl | rfl | rfl <;> intro b hb <;> revert b <;> decide
    have hp : ∀ x ∈ commonDeeperExtract, ∀ y ∈ commonDeeperExtract, x.1 <+: y.1 → x = y := by decide
    intro x hx y hy h1 h2
    have h1 := (hasPrefix_ascii (ha x hx)).1 h1
    have h2 := (hasPrefix_ascii (ha y hy)).1 h2
    rcases Nat.le_total x.1.length y.1.length with hl | hl
    · exact hp x hx y hy (List.prefix_of_prefix_length_le h1 h2 hl)
    · exact (hp y hy x hx (List.prefix_of_prefix_length_le h2 h1 hl)).symm
  unfold prefixFit
  congr 1
  rcases h1 : es.find? (fun kv => hasPrefix s kv.1) with _ | x
  · rw [h1]; symm
    rw [List.find?_eq_none] at h1 ⊢
    intro x hx
    exact h1 x (h.mem_iff.2 hx)
  · rcases h2 : commonDeeperExtract.find? (fun kv => hasPrefix s kv.1) with _ | y
    · have := List.find?_eq_none.1 h2 x (h.mem_iff.1 (List.mem_of_find?_eq_some h1))
      have h3 := List.find?_some h1
      simp_all
    · have a := List.find?_some h1
      have b := List.find?_some h2
      have := uniq x (h.mem_iff.1 (List.mem_of_find?_eq_some h1)) y (List.mem_of_find?_eq_some h2) a b
      rw [h1, h2, this]

theorem runLoop_ord {ord : Nat → List (Bytes × Ext)} (ho : MapOrder ord) (text : Bytes) :
    ∀ (fuel : Nat) (e : Ext) (s : Shared) (l : Local),
      runLoop ord text fuel e s l = runLoop (fun _ => commonDeeperExtract) text fuel e s l := by
  intro fuel
  induction fuel with
  | zero => intros; rfl
  | succ fuel ih =>
    intro e s l
    simp only [runLoop, ih, prefixFit_perm (ho _)]

theorem extractOrd_eq {ord : Nat → List (Bytes × Ext)} (ho : MapOrder ord) (h : Heap) (text : Bytes) :
    extractOrd ord h text = extract h text := by
  simp only [extract, extractOrd, run, runLoop_ord ho]

/-- `extract` in one equation. -/
theorem extract_spec (h : Heap) (text : Bytes) : ∃ ts : List Tok,
    extract h text = some (h.extend (recs h.size ts), headPtr h.size ts) ∧
    ts.map Tok.kt = (lexAll text).map Lexeme.kt ∧ LinesOK text [] ts ∧ texts ts = text ∧
    ts.map Tok.line = lineList 0 0 [] (ts.map Tok.text) := by
  obtain ⟨s', p', us, r, R, L⟩ := runLoop_post text (text.length + 2) .common h [] [] 0
    { heap := h, buf := [], i := 0, line := 0 } (by omega) (by simp)
    ⟨by simp [extend_nil'], by simp [countNL], by simp, Int.le_refl _, Int.le_refl _, by simp [Ext.hasDeeper],
      by simp [countNL], by simp, bufInv_nil _, trivial⟩
  have hi := runLoop_common _ _ _ _ _ _ r
  have hd : text.drop (s'.i + 1) = [] := List.drop_of_length_le (by simp at hi; omega)
  have ht : text.take (s'.i + 1) = text := List.take_of_length_le (by simp at hi; omega)
  refine ⟨us, ?_, ?_, R.lines, ?_, by
    have := L 0 [] 0 [] [] ⟨by simp [UpOK], rfl, rfl, rfl⟩
    simpa [countNL, lineList] using this.symm⟩
  · have e0 : (⟨none, none, 0⟩ : Local) = loc h.size [] 0 := rfl
    rw [extract, extractOrd, run, e0, r]
    have h1 := R.heap
    have h2 := R.ptr
    simp only [List.nil_append] at h1 h2
    simp [h1, h2]
  · have := R.toks
    simp only [Ext.mode, List.drop_zero, hd] at this
    simp [lexAll, this, lex, word]
  · have := R.flat
    rw [ht] at this
    simpa using this

theorem chain_recs (h : Heap) (ts : List Tok) :
    Chain (h.extend (recs h.size ts)) (List.range' h.size ts.length) := by
  refine ⟨?_, ?_, ?_, ?_⟩
  · intro a ha
    simp at ha ⊢
    omega
  · intro a ha
    rw [List.head?_range'] at ha
    split at ha
    · cases ha
    · simp only [Option.some.injEq] at ha
      subst ha
      have := prev_recs h ts 0 (by omega)
      simpa using this
  · intro a ha
    rw [List.getLast?_range'] at ha
    split at ha
    · cases ha
    · simp only [Option.some.injEq] at ha
      subst ha
      have := next_recs h ts (ts.length - 1)
      rw [if_neg (by omega)] at this
      rw [show h.size + ts.length - 1 = h.size + (ts.length - 1) by omega]
      exact this
  · intro l₁ a b l₂ hl
    have hlen := congrArg List.length hl
    simp at hlen
    have ha : (List.range' h.size ts.length)[l₁.length]? = some a := by rw [hl]; simp
    have hb : (List.range' h.size ts.length)[l₁.length + 1]? = some b := by rw [hl]; simp
    rw [List.getElem?_range' (by omega)] at ha hb
    simp at ha hb
    subst ha; subst hb
    constructor
    · rw [next_recs, if_pos (by omega)]; rfl
    · have := prev_recs h ts (l₁.length + 1) (by omega)
      rw [if_neg (by omega)] at this
      rw [this]; rfl

theorem data_recs (h : Heap) (ts : List Tok) (i : Nat) (t : Tok) (ht : ts[i]? = some t) :
    data (h.extend (recs h.size ts)) (h.size + i) = (t.line, t.kind, t.text) := by
  have : (h.extend (recs h.size ts)).cells[h.size + i]? =
      some { line := t.line, kind := t.kind, text := t.text,
             prev := if i = 0 then none else some (h.size + i - 1),
             next := if i + 1 < ts.length then some (h.size + i + 1) else none } := by
    rw [getElem?_extend_ge, getElem?_recs, ht]; rfl
  simp [data, Heap.line, Heap.kind, Heap.text, this]

theorem map_data_recs (h : Heap) (ts : List Tok) :
    (List.range' h.size ts.length).map (data (h.extend (recs h.size ts))) = ts.map fun t => (t.line, t.kind, t.text) := by
  apply List.ext_getElem?
  intro i
  rw [List.getElem?_map, List.getElem?_map]
  rcases Nat.lt_or_ge i ts.length with hi | hi
  · rw [List.getElem?_range' hi]
    have e : ts[i]? = some ts[i] := List.getElem?_eq_getElem hi
    rw [e]
    simp only [Option.map_some, Nat.one_mul, Option.some.injEq]
    exact data_recs h ts i _ e
  · rw [List.getElem?_eq_none (by simpa using hi), List.getElem?_eq_none hi]; rfl

end Goast
