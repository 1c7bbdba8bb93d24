import Verif.Proofs.Alone
import Verif.Proofs.Keywords
import Verif.Proofs.Lines
import Verif.Props.Extract
import Verif.Props.Pure

/-!
# Pieces, lines and scopes of a text put together from two
-/

set_option linter.unusedSimpArgs false
set_option linter.unusedVariables false

namespace Goast
open Heap

/-! ## Pieces -/

theorem lex_eq_nil {m : Mode} {buf rest : Bytes} (h : lex m buf rest = []) : buf = [] ∧ rest = [] := by
  have := pieces_lex rest m buf
  rw [h] at this
  simpa [pieces, eq_comm] using this

theorem last_tail {x : List Lexeme} {m : Mode} {buf rest : Bytes} {y : Lexeme} (h : (x ++ lex m buf rest).getLast? = some y) :
    (lex m buf rest).getLast? = some y ∨ (rest = [] ∧ buf = []) := by
  by_cases he : lex m buf rest = []
  · exact .inr ⟨(lex_eq_nil he).2, (lex_eq_nil he).1⟩
  · left
    rw [List.getLast?_append] at h
    cases hl : (lex m buf rest).getLast? with
    | none => exact absurd (List.getLast?_eq_none_iff.1 hl) he
    | some z => rw [hl] at h; simpa using h

theorem lex_append (b : Bytes) : ∀ (a : Bytes) (m : Mode) (buf : Bytes), buf.head? ≠ some 10 → (m ≠ .code → buf ≠ []) →
    ((lex m buf a).getLast? = some ⟨[10], false⟩ ∨ (a = [] ∧ m = .code ∧ buf = [])) → lex m buf (a ++ b) = lex m buf a ++ lexAll b := by
  intro a
  induction a with
  | nil =>
    intro m buf h1 h2 h3
    rcases h3 with h3 | ⟨_, rfl, rfl⟩
    · exfalso
      have : (word buf).getLast? = some ⟨[10], false⟩ := by cases m <;> simpa [lex] using h3
      unfold word at this
      split at this
      · simp at this
      · simp at this
        rw [this] at h1
        simp at h1
    · simp [lex, word, lexAll]
  | cons c rest ih =>
    intro m buf h1 h2 h3
    have h3 : (lex m buf (c :: rest)).getLast? = some ⟨[10], false⟩ := h3.resolve_right (by simp)
    -- the rest, in code, with nothing read
    have code : ∀ x : List Lexeme, (x ++ lex .code [] rest).getLast? = some ⟨[10], false⟩ →
        lex .code [] (rest ++ b) = lex .code [] rest ++ lexAll b := fun x hx =>
      ih .code [] (by simp) (by simp) ((last_tail hx).imp_right fun h => ⟨h.1, rfl, rfl⟩)
    -- the rest, inside something
    have deep : ∀ (x : List Lexeme) (m : Mode) (buf : Bytes), buf ≠ [] → buf.head? ≠ some 10 →
        (x ++ lex m buf rest).getLast? = some ⟨[10], false⟩ → lex m buf (rest ++ b) = lex m buf rest ++ lexAll b := fun x m buf hb hh hx =>
      ih m buf hh (fun _ => hb) ((last_tail hx).imp_right fun h => absurd h.2 hb)
    have hd : c = 47 → (rest ++ b).head? = rest.head? := by
      intro hc
      cases rest with
      | cons => rfl
      | nil =>
        exfalso
        subst hc
        cases m with
        | code =>
          simp [lex, separatorBytes, word] at h3
          have := congrArg List.getLast? h3
          simp at this
        | lineComment => simp [lex, word] at h3; have := congrArg List.getLast? h3; simp at this
        | blockComment =>
          simp only [lex] at h3
          split at h3
          · simp [word] at h3
          · simp [word] at h3; have := congrArg List.getLast? h3; simp at this
        | str => simp [lex, word] at h3; have := congrArg List.getLast? h3; simp at this
        | rawStr => simp [lex, word] at h3; have := congrArg List.getLast? h3; simp at this
    rw [List.cons_append]
    cases m with
    | code =>
      simp only [lex] at h3 ⊢
      by_cases c1 : c = 47 ∧ rest.head? = some 47
      · have c1' : c = 47 ∧ (rest ++ b).head? = some 47 := ⟨c1.1, by rw [hd c1.1, c1.2]⟩
        rw [if_pos c1] at h3 ⊢
        rw [if_pos c1', deep _ _ _ (by simp) (by simp [c1.1]) h3, List.append_assoc]
      have c1' : ¬ (c = 47 ∧ (rest ++ b).head? = some 47) := fun h => c1 ⟨h.1, by rw [← hd h.1, h.2]⟩
      rw [if_neg c1] at h3 ⊢
      rw [if_neg c1']
      by_cases c2 : c = 47 ∧ rest.head? = some 42
      · have c2' : c = 47 ∧ (rest ++ b).head? = some 42 := ⟨c2.1, by rw [hd c2.1, c2.2]⟩
        rw [if_pos c2] at h3 ⊢
        rw [if_pos c2', deep _ _ _ (by simp) (by simp [c2.1]) h3, List.append_assoc]
      have c2' : ¬ (c = 47 ∧ (rest ++ b).head? = some 42) := fun h => c2 ⟨h.1, by rw [← hd h.1, h.2]⟩
      rw [if_neg c2] at h3 ⊢
      rw [if_neg c2']
      by_cases c3 : c = 34
      · rw [if_pos c3] at h3 ⊢
        rw [if_pos c3, deep _ _ _ (by simp) (by simp [c3]) h3, List.append_assoc]
      rw [if_neg c3] at h3 ⊢
      rw [if_neg c3]
      by_cases c4 : c = 96
      · rw [if_pos c4] at h3 ⊢
        rw [if_pos c4, deep _ _ _ (by simp) (by simp [c4]) h3, List.append_assoc]
      rw [if_neg c4] at h3 ⊢
      rw [if_neg c4]
      by_cases c5 : c ∈ separatorBytes
      · rw [if_pos c5] at h3 ⊢
        rw [if_pos c5, code (word buf ++ [⟨[c], false⟩]) (by simpa using h3)]
        simp
      rw [if_neg c5] at h3 ⊢
      rw [if_neg c5]
      refine deep [] _ _ (by simp) ?_ (by simpa using h3)
      cases buf with
      | nil =>
        simp only [List.nil_append, List.head?_cons, Ne, Option.some.injEq]
        rintro rfl
        exact c5 (by decide)
      | cons x xs => simpa using h1
    | lineComment =>
      have hb := h2 (by simp)
      have hh : ∀ x : UInt8, (buf ++ [x]).head? ≠ some 10 := by
        intro x; cases buf with
        | nil => exact absurd rfl hb
        | cons y ys => simpa using h1
      simp only [lex] at h3 ⊢
      by_cases c1 : c = 10
      · rw [if_pos c1] at h3 ⊢
        rw [if_pos c1, code [⟨buf, true⟩, ⟨[c], false⟩] (by simpa using h3)]
        simp
      · rw [if_neg c1] at h3 ⊢
        rw [if_neg c1]
        exact deep [] _ _ (by simp) (hh c) (by simpa using h3)
    | blockComment =>
      have hb := h2 (by simp)
      have hh : ∀ x : UInt8, (buf ++ [x]).head? ≠ some 10 := by
        intro x; cases buf with
        | nil => exact absurd rfl hb
        | cons y ys => simpa using h1
      simp only [lex] at h3 ⊢
      by_cases c1 : c = 47 ∧ buf.getLast? = some 42
      · rw [if_pos c1] at h3 ⊢
        rw [if_pos c1, code [⟨buf ++ [c], true⟩] (by simpa using h3)]
        simp
      · rw [if_neg c1] at h3 ⊢
        rw [if_neg c1]
        exact deep [] _ _ (by simp) (hh c) (by simpa using h3)
    | str =>
      have hb := h2 (by simp)
      have hh : ∀ x : UInt8, (buf ++ [x]).head? ≠ some 10 := by
        intro x; cases buf with
        | nil => exact absurd rfl hb
        | cons y ys => simpa using h1
      simp only [lex] at h3 ⊢
      by_cases c1 : c = 34 ∧ buf.getLast? ≠ some 92
      · rw [if_pos c1] at h3 ⊢
        rw [if_pos c1, code [⟨buf ++ [c], false⟩] (by simpa using h3)]
        simp
      · rw [if_neg c1] at h3 ⊢
        rw [if_neg c1]
        exact deep [] _ _ (by simp) (hh c) (by simpa using h3)
    | rawStr =>
      have hb := h2 (by simp)
      have hh : ∀ x : UInt8, (buf ++ [x]).head? ≠ some 10 := by
        intro x; cases buf with
        | nil => exact absurd rfl hb
        | cons y ys => simpa using h1
      simp only [lex] at h3 ⊢
      by_cases c1 : c = 96
      · rw [if_pos c1] at h3 ⊢
        rw [if_pos c1, code [⟨buf ++ [c], false⟩] (by simpa using h3)]
        simp
      · rw [if_neg c1] at h3 ⊢
        rw [if_neg c1]
        exact deep [] _ _ (by simp) (hh c) (by simpa using h3)

/-- The pieces of a text that is put together behind a complete line. -/
theorem lexAll_append {a : Bytes} (h : (lexAll a).getLast? = some ⟨b!"\n", false⟩) (b : Bytes) : lexAll (a ++ b) = lexAll a ++ lexAll b :=
  lex_append b a .code [] (by simp) (by simp) (.inl h)

/-! ## Lines -/

/-- The open brackets and the newlines behind some pieces. -/
theorem lineList_run (ts us : List Bytes) : ∀ (n last : Int) (up : List (Bytes × Int)), UpOK up →
    ∃ last' up', UpOK up' ∧ up'.map Prod.fst = missing (up.map Prod.fst) ts ∧
      lineList n last up (ts ++ us) = lineList n last up ts ++ lineList (n + countNL ts.flatten) last' up' us := by
  induction ts with
  | nil => intro n last up U; exact ⟨last, up, U, rfl, by simp [countNL, lineList]⟩
  | cons t ts ih =>
    intro n last up U
    have hw : IsWord t → countNL t = 0 := by
      intro w
      rw [countNL, List.count_eq_zero]
      intro h
      exact (w.2.1 10 h).1 (by decide)
    have done : ∀ (x n' l' : Int) (up' : List (Bytes × Int)), UpOK up' → n' = n + countNL t →
        missing (up.map Prod.fst) (t :: ts) = missing (up'.map Prod.fst) ts →
        (∀ vs, lineList n last up (t :: vs) = x :: lineList n' l' up' vs) →
        ∃ last' up', UpOK up' ∧ up'.map Prod.fst = missing (up.map Prod.fst) (t :: ts) ∧
          lineList n last up (t :: ts ++ us) = lineList n last up (t :: ts) ++ lineList (n + countNL (t :: ts).flatten) last' up' us := by
      intro x n' l' up' U' hn hm e
      obtain ⟨l2, up2, U2, hm2, e2⟩ := ih n' l' up' U'
      refine ⟨l2, up2, U2, by rw [hm2, hm], ?_⟩
      rw [List.cons_append, e, e2, e, List.cons_append]
      congr 3
      rw [hn]
      simp [countNL]
      omega
    have hhd : (up.map Prod.fst).head? = up.head?.map (·.1) := by cases up <;> rfl
    have htl : (up.map Prod.fst).tail = up.tail.map Prod.fst := by cases up <;> rfl
    by_cases h1 : t = b!"("
    · refine done last n n ((b!")", last) :: up) ?_ (by rw [h1]; simp [countNL]) (by rw [missing, if_pos h1]; rfl) (fun vs => by rw [lineList, if_pos h1])
      intro x hx
      rcases List.mem_cons.1 hx with rfl | hx
      · simp
      · exact U x hx
    by_cases h2 : t = b!"{"
    · refine done last n n ((b!"}", last) :: up) ?_ (by rw [h2]; simp [countNL]) (by rw [missing, if_neg h1, if_pos h2]; rfl)
        (fun vs => by rw [lineList, if_neg h1, if_pos h2])
      intro x hx
      rcases List.mem_cons.1 hx with rfl | hx
      · simp
      · exact U x hx
    by_cases h3 : (up.head?.map (·.1)) = some t
    · refine done n n _ up.tail (fun x hx => U x (List.mem_of_mem_tail hx)) ?_ (by rw [missing, if_neg h1, if_neg h2, hhd, if_pos h3, htl])
        (fun vs => by rw [lineList, if_neg h1, if_neg h2, if_pos h3])
      rcases U.head h3 with rfl | rfl <;> simp [countNL]
    have hm : missing (up.map Prod.fst) (t :: ts) = missing (up.map Prod.fst) ts := by rw [missing, if_neg h1, if_neg h2, hhd, if_neg h3]
    by_cases h4 : IsWord t
    · exact done n n n up U (by simp [hw h4]) hm (fun vs => by rw [lineList, if_neg h1, if_neg h2, if_neg h3, if_pos h4])
    by_cases h5 : cutOff t = true
    · exact done _ _ last up U rfl hm (fun vs => by rw [lineList, if_neg h1, if_neg h2, if_neg h3, if_neg h4, if_pos h5]; rfl)
    · exact done n _ last up U rfl hm (fun vs => by rw [lineList, if_neg h1, if_neg h2, if_neg h3, if_neg h4, if_neg h5]; rfl)

theorem lineList_shift (k : Int) : ∀ (ts : List Bytes) (n last : Int) (up : List (Bytes × Int)),
    lineList (n + k) (last + k) (up.map fun x => (x.1, x.2 + k)) ts = (lineList n last up ts).map (· + k)
  | [], n, last, up => rfl
  | t :: ts, n, last, up => by
    have ih := lineList_shift k ts
    have hhd : (up.map fun x => (x.1, x.2 + k)).head?.map (·.1) = up.head?.map (·.1) := by cases up <;> rfl
    simp only [lineList, hhd]
    split
    · rw [List.map_cons, ← ih]; rfl
    split
    · rw [List.map_cons, ← ih]; rfl
    split
    · rename_i h3
      rw [List.map_cons, ← ih]
      cases up with
      | nil => simp at h3
      | cons x up => simp
    split
    · rw [List.map_cons, ← ih]
    split
    · rw [List.map_cons, ← ih, show n + k + (t.count 10 : Int) = n + t.count 10 + k by omega]
    · rw [List.map_cons, ← ih, show n + k + (t.count 10 : Int) = n + t.count 10 + k by omega]

/-- Outside all brackets, what came before does not matter if a word comes first. -/
theorem lineList_fresh : ∀ (ts : List Bytes), wordFirst ts = true → ∀ n last last' : Int, lineList n last [] ts = lineList n last' [] ts
  | [], _, _, _, _ => rfl
  | t :: ts, h, n, last, last' => by
    simp only [wordFirst] at h
    split at h
    · cases h
    rename_i h12
    have h1 : ¬ t = b!"(" := fun e => h12 (.inl e)
    have h2 : ¬ t = b!"{" := fun e => h12 (.inr e)
    simp only [lineList, if_neg h1, if_neg h2, List.head?_nil, Option.map_none, reduceCtorEq, if_false]
    split
    · rfl
    · rename_i h4
      rw [if_neg h4] at h
      split <;> rw [lineList_fresh ts h _ last last']

theorem lineList_first {t : Bytes} {ts : List Bytes} (h : wordFirst (t :: ts) = true) (n last : Int) :
    ∃ m rest, lineList n last [] (t :: ts) = m :: rest ∧ n ≤ m := by
  simp only [wordFirst] at h
  split at h
  · cases h
  rename_i h12
  have h1 : ¬ t = b!"(" := fun e => h12 (.inl e)
  have h2 : ¬ t = b!"{" := fun e => h12 (.inr e)
  simp only [lineList, if_neg h1, if_neg h2, List.head?_nil, Option.map_none, reduceCtorEq, if_false]
  split
  · exact ⟨_, _, rfl, Int.le_refl _⟩
  split
  · exact ⟨_, _, rfl, by omega⟩
  · exact ⟨_, _, rfl, Int.le_refl _⟩

theorem lineList_last {ts : List Bytes} (h : ts.getLast? = some b!"\n") : (lineList 0 0 [] ts).getLast? = some ((countNL ts.flatten : Int) - 1) := by
  obtain ⟨us, rfl⟩ : ∃ us, ts = us ++ [b!"\n"] := by
    rw [List.getLast?_eq_some_iff] at h; exact h
  obtain ⟨l', up', U, _, e⟩ := lineList_run us [b!"\n"] 0 0 [] (by simp [UpOK])
  rw [e, lineList_sep (by decide) (by decide) (by decide)]
  · simp [lineList, countNL]
  · intro h
    rcases U.head h with h | h <;> simp at h

theorem wordFirst_append : ∀ {ts us : List Bytes}, wordFirst ts = true → wordFirst us = true → wordFirst (ts ++ us) = true
  | [], us, _, h => h
  | t :: ts, us, h, h' => by
    simp only [wordFirst, List.cons_append] at h ⊢
    split at h
    · cases h
    rename_i h12
    rw [if_neg h12]
    split at h
    · rename_i h4; rw [if_pos h4]
    · rename_i h4; rw [if_neg h4]; exact wordFirst_append h h'

/-! ## Tokens -/

/-- The nodes of a text: line, kind and text. -/
def toks (text : Bytes) : List Tok :=
  List.zipWith (fun l x => ⟨l, (Lexeme.kt x).1, x.text⟩) (lineList 0 0 [] ((lexAll text).map Lexeme.text)) (lexAll text)

theorem length_lineList : ∀ (ts : List Bytes) (n last : Int) (up : List (Bytes × Int)), (lineList n last up ts).length = ts.length
  | [], _, _, _ => rfl
  | t :: ts, n, last, up => by
    simp only [lineList]
    repeat' split
    all_goals simp [length_lineList ts]

theorem toks_eq {text : Bytes} {ts : List Tok} (k : ts.map Tok.kt = (lexAll text).map Lexeme.kt)
    (l : ts.map Tok.line = lineList 0 0 [] (ts.map Tok.text)) : toks text = ts := by
  have tx : (lexAll text).map Lexeme.text = ts.map Tok.text := by
    have := congrArg (List.map Prod.snd) k
    simpa [Tok.kt, Lexeme.kt, Function.comp_def] using this.symm
  rw [toks, tx, ← l]
  clear l tx
  generalize lexAll text = xs at k
  induction ts generalizing xs with
  | nil => cases xs with
    | nil => rfl
    | cons => simp at k
  | cons t ts ih =>
    cases xs with
    | nil => simp at k
    | cons x xs =>
      simp only [List.map_cons, List.cons.injEq] at k
      simp only [List.map_cons, List.zipWith_cons_cons, List.cons.injEq]
      refine ⟨?_, ih _ k.2⟩
      have := k.1
      rw [← this]
      have h2 : x.text = t.text := by
        have := congrArg Prod.snd k.1
        simpa [Tok.kt, Lexeme.kt] using this.symm
      rw [h2]
      rfl

/-- The same node `k` lines further down. -/
def Tok.down (k : Int) (t : Tok) : Tok := { t with line := t.line + k }

theorem lexAll_text_flatten (a : Bytes) : ((lexAll a).map Lexeme.text).flatten = a := by
  have := pieces_lexAll a
  simpa [pieces] using this

theorem toks_append {a b : Bytes} (wa : Whole a) (wb : wordFirst ((lexAll b).map Lexeme.text) = true) :
    toks (a ++ b) = toks a ++ (toks b).map (Tok.down (countNL a)) := by
  obtain ⟨l', up', U, hm, e⟩ := lineList_run ((lexAll a).map Lexeme.text) ((lexAll b).map Lexeme.text) 0 0 [] (by simp [UpOK])
  rw [List.map_nil, wa.2, List.map_eq_nil_iff] at hm
  subst hm
  rw [lexAll_text_flatten, lineList_fresh _ wb _ l' (0 + countNL a),
    show lineList (0 + (countNL a : Int)) (0 + countNL a) [] ((lexAll b).map Lexeme.text) = _ from lineList_shift (countNL a) _ 0 0 []] at e
  rw [toks, lexAll_append wa.1, List.map_append, e, List.zipWith_append (by simp [length_lineList]), toks, toks]
  congr 1
  rw [List.zipWith_map_left, List.map_zipWith]
  rfl

/-! ## The division of the nodes into scopes -/

/-- `divide`, on the nodes alone. -/
def divideT : Int → List Tok → List Tok × List (List Tok)
  | _, [] => ([], [])
  | prev, t :: ts =>
    let r := divideT t.line ts
    if t.line ≠ prev ∧ newScopeKind t.text ≠ .unknown then ([], (t :: r.1) :: r.2) else (t :: r.1, r.2)

theorem divideT_eq (h : Heap) : ∀ (l : List Addr) (prev : Int),
    divideT prev (l.map (tokOf h)) = ((divide h prev l).1.map (tokOf h), (divide h prev l).2.map (List.map (tokOf h)))
  | [], _ => rfl
  | a :: l, prev => by
    have ih := divideT_eq h l (h.line (some a))
    have hl : (tokOf h a).line = h.line (some a) := rfl
    have ht : (tokOf h a).text = h.text (some a) := rfl
    simp only [List.map_cons, divideT, hl, ht, ih, divide]
    by_cases hc : Opens h prev a
    · rw [if_pos (show h.line (some a) ≠ prev ∧ newScopeKind (h.text (some a)) ≠ .unknown from hc), if_pos hc]; rfl
    · rw [if_neg (show ¬ (h.line (some a) ≠ prev ∧ newScopeKind (h.text (some a)) ≠ .unknown) from hc), if_neg hc]; rfl

theorem divideT_append {t : Tok} {ys : List Tok} (hk : newScopeKind t.text ≠ .unknown) : ∀ (xs : List Tok) (prev : Int),
    t.line ≠ ((xs.getLast?).map Tok.line).getD prev →
    (divideT prev (xs ++ t :: ys)).1 = (divideT prev xs).1 ∧
    ∀ p, t.line ≠ p → (divideT prev (xs ++ t :: ys)).2 = (divideT prev xs).2 ++ (divideT p (t :: ys)).2
  | [], prev, h => by
    simp only [List.getLast?_nil, Option.map_none, Option.getD_none] at h
    constructor
    · simp [divideT, h, hk]
    · intro p hp
      simp [divideT, h, hk, hp]
  | x :: xs, prev, h => by
    have h' : t.line ≠ ((xs.getLast?).map Tok.line).getD x.line := by
      rw [List.getLast?_cons] at h
      cases hx : xs.getLast? <;> simpa [hx] using h
    have ih := divideT_append (ys := ys) hk xs x.line h'
    simp only [List.cons_append, divideT, ih.1]
    constructor
    · split <;> rfl
    · intro p hp
      rw [ih.2 p hp]
      split <;> simp [divideT]

theorem divideT_down (k : Int) : ∀ (ts : List Tok) (prev : Int),
    divideT (prev + k) (ts.map (Tok.down k)) = ((divideT prev ts).1.map (Tok.down k), (divideT prev ts).2.map (List.map (Tok.down k)))
  | [], _ => rfl
  | t :: ts, prev => by
    have ih := divideT_down k ts t.line
    have hl : (t.down k).line = t.line + k := rfl
    have ht : (t.down k).text = t.text := rfl
    have hc : (t.line + k ≠ prev + k ∧ newScopeKind t.text ≠ .unknown) ↔ (t.line ≠ prev ∧ newScopeKind t.text ≠ .unknown) := by
      constructor <;> rintro ⟨h1, h2⟩ <;> exact ⟨by omega, h2⟩
    simp only [List.map_cons, divideT, hl, ht, ih, hc]
    by_cases hd : t.line ≠ prev ∧ newScopeKind t.text ≠ .unknown
    · simp only [if_pos hd]; rfl
    · simp only [if_neg hd]; rfl

theorem divideT_ne_nil : ∀ (ts : List Tok) (prev : Int), ∀ g ∈ (divideT prev ts).2, g ≠ []
  | [], _, g, hg => by simp [divideT] at hg
  | t :: ts, prev, g, hg => by
    have ih := divideT_ne_nil ts t.line
    simp only [divideT] at hg
    split at hg
    · rcases List.mem_cons.1 hg with rfl | hg
      · simp
      · exact ih g hg
    · exact ih g hg

/-- The looks of the scopes of a text, from its nodes. -/
def looks (startLine : Int) (text : Bytes) : List Look := (divideT (startLine - 1) (toks text)).2.map lookTok

theorem lookTok_down (k : Int) {ts : List Tok} (hne : ts ≠ []) : lookTok (ts.map (Tok.down k)) = (lookTok ts).below k := by
  obtain ⟨c1, q, l, ec, wc, acc, fc, lc, lnc, szc⟩ := canon_reset hne
  have hne' : ts.map (Tok.down k) ≠ [] := by simpa using hne
  obtain ⟨c2, q2, l2, ec2, wc2, acc2, fc2, lc2, lnc2, szc2⟩ := canon_reset hne'
  have L : Like id (canon ts) (canon (ts.map (Tok.down k))) := by
    refine ⟨fun _ _ h => h, fun a => ?_, by simp [size_canon]⟩
    simp only [cells_canon, id, getElem?_recs, List.getElem?_map]
    cases ts[a]? with
    | none => rfl
    | some t => simp [core, coreAt, Tok.down]
  obtain ⟨H', eH, L1⟩ := resetKind_like L ec
  rw [Option.map_some, id, ec2] at eH
  simp only [Option.some.injEq, Prod.mk.injEq] at eH
  obtain ⟨rfl, _⟩ := eH
  obtain ⟨t, ts, rfl⟩ := List.exists_cons_of_ne_nil hne
  have := L1.emb0.look (sc := { line := t.line, kind := newScopeKind t.text, node := some 0 }) (n := k) fc (fun _ _ => trivial) (by
    intro i hi
    have h1 := lc i hi
    rw [id, lnc, lnc2, line_canon _ _ h1, line_canon _ _ (by simpa using h1), List.getElem_map]
    rfl)
  rw [List.map_cons] at ec2
  simp only [List.map_cons, lookTok, ec, ec2, List.head?_cons, Option.map_some, Option.getD_some]
  exact this

/-- The scopes of a text, as their methods show them, in the empty heap. -/
theorem parse_looks_empty (startLine : Int) (text : Bytes) :
    ∃ h' scs, parseScope Heap.empty startLine text = some (h', scs) ∧ scs.map (ScopeRec.look h') = looks startLine text := by
  obtain ⟨h1, p, l, st, h', P⟩ := parsed mapOrder_id wf_empty acyclic_empty startLine text
  refine ⟨h', st.scs, P.parse, ?_⟩
  obtain ⟨ts, h1', p', l', e, _, _, _, f, _, d, k, _, _, ln⟩ := extract_nodes mapOrder_id Heap.empty text
  rw [P.extract] at e
  simp only [Option.some.injEq, Prod.mk.injEq] at e
  obtain ⟨rfl, rfl⟩ := e
  cases P.fwd.det f
  have ht : l.map (tokOf h1) = toks text := by
    rw [toks_eq k ln]
    have := congrArg (List.map fun x : Int × Kind × Bytes => (⟨x.1, x.2.1, x.2.2⟩ : Tok)) d
    rw [show tokOf h1 = fun a => (⟨h1.line (some a), h1.kind (some a), h1.text (some a)⟩ : Tok) from rfl]
    simpa [data, Function.comp_def] using this
  rw [looks, ← ht, divideT_eq, P.scs, List.map_map, List.map_map]
  refine List.map_congr_left (fun g hg => ?_)
  obtain ⟨a, g, rfl⟩ := List.exists_cons_of_ne_nil (divide_ne_nil _ _ _ g hg)
  have sd : ∀ p, st.heap.line p = h1.line p ∧ st.heap.kind p = h1.kind p ∧ st.heap.text p = h1.text p := P.data2.2
  have e1 : scopeOf h1 (a :: g) = scopeOf st.heap (a :: g) := by simp [scopeOf, sd]
  have e2 : tokOf h1 = tokOf st.heap := by funext b; simp [tokOf, sd]
  rw [Function.comp_apply, Function.comp_apply, e1, e2]
  exact group_look (P.group3 _ hg) P.line3

/-- The division of a text put together from two. -/
theorem divideT_toks {a b : Bytes} (wa : Whole a) (wb : BeginsScope b) (s : Int) {t : Int} (ht : t ≤ 0) :
    divideT (s - 1) (toks (a ++ b)) = ((divideT (s - 1) (toks a)).1,
      (divideT (s - 1) (toks a)).2 ++ (divideT (t - 1) (toks b)).2.map (List.map (Tok.down (countNL a)))) := by
  obtain ⟨⟨x, hx, hk⟩, wf⟩ := wb
  obtain ⟨xs, hxs⟩ : ∃ xs, lexAll b = x :: xs := by
    cases hb : lexAll b with
    | nil => rw [hb] at hx; cases hx
    | cons y ys => rw [hb] at hx; cases hx; exact ⟨ys, rfl⟩
  rw [toks_append wa wf]
  rw [hxs, List.map_cons] at wf
  obtain ⟨m, rest, hm, h0⟩ := lineList_first wf 0 0
  have htb : ∃ ys, toks b = ⟨m, (Lexeme.kt x).1, x.text⟩ :: ys := by
    rw [toks, hxs, List.map_cons, hm]
    exact ⟨_, List.zipWith_cons_cons⟩
  obtain ⟨ys, hys⟩ := htb
  have hlast : ((toks a).getLast?).map Tok.line = some ((countNL a : Int) - 1) := by
    rw [← List.getLast?_map]
    have : (toks a).map Tok.line = lineList 0 0 [] ((lexAll a).map Lexeme.text) := by
      rw [toks, List.map_zipWith]
      show List.zipWith (fun l _ => l) _ _ = _
      generalize hu : lineList 0 0 [] ((lexAll a).map Lexeme.text) = us
      have hlen : us.length = (lexAll a).length := by rw [← hu]; simp [length_lineList]
      clear hu
      generalize lexAll a = vs at hlen
      induction us generalizing vs with
      | nil => simp
      | cons u us ih =>
        cases vs with
        | nil => simp at hlen
        | cons v vs => simp [ih vs (by simpa using hlen)]
    rw [this, lineList_last, lexAll_text_flatten]
    rw [List.getLast?_map, wa.1]; rfl
  have hsh := divideT_down (countNL a) (toks b) (t - 1)
  rw [hys, List.map_cons] at hsh ⊢
  have key := divideT_append (t := Tok.down (countNL a) ⟨m, (Lexeme.kt x).1, x.text⟩) (ys := ys.map (Tok.down (countNL a))) ((startsScope_iff _).1 hk) (toks a) (s - 1) (by
    rw [hlast, Option.getD_some]
    show m + (countNL a : Int) ≠ _
    omega)
  refine Prod.ext key.1 ?_
  rw [key.2 (t - 1 + countNL a) (by show m + (countNL a : Int) ≠ _; omega), hsh]

/-- The scopes of a text put together from two. -/
theorem looks_append {a b : Bytes} (wa : Whole a) (wb : BeginsScope b) (s : Int) {t : Int} (ht : t ≤ 0) :
    looks s (a ++ b) = looks s a ++ (looks t b).map (Look.below (countNL a)) := by
  rw [looks, looks, looks, divideT_toks wa wb s ht, List.map_append, List.map_map, List.map_map]
  congr 1
  refine List.map_congr_left (fun g hg => ?_)
  exact lookTok_down _ (divideT_ne_nil _ _ g hg)

theorem Whole.append {a b : Bytes} (wa : Whole a) (wb : Whole b) : Whole (a ++ b) := by
  have hm : ∀ (xs ys up : List Bytes), missing up (xs ++ ys) = missing (missing up xs) ys := by
    intro xs ys
    induction xs with
    | nil => intro up; rfl
    | cons x xs ih =>
      intro up
      simp only [List.cons_append, missing]
      repeat' split
      all_goals exact ih _
  unfold Whole
  rw [lexAll_append wa.1, List.getLast?_append, wb.1, List.map_append, hm, wa.2, wb.2]
  exact ⟨rfl, rfl⟩

theorem BeginsScope.append {a b : Bytes} (wa : Whole a) (ba : BeginsScope a) (bb : wordFirst ((lexAll b).map Lexeme.text) = true) :
    BeginsScope (a ++ b) := by
  obtain ⟨⟨x, hx, hk⟩, wf⟩ := ba
  unfold BeginsScope
  rw [lexAll_append wa.1, List.map_append]
  exact ⟨⟨x, by rw [List.head?_append, hx]; rfl, hk⟩, wordFirst_append wf bb⟩

end Goast
