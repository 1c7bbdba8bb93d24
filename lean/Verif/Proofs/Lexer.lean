import Verif.Spec.Lexer

/-!
# Facts about the flat scanner
-/

namespace Goast

/-- The texts of some pieces, concatenated. -/
def pieces (ls : List Lexeme) : Bytes := (ls.map Lexeme.text).flatten

@[simp] theorem pieces_nil : pieces [] = [] := rfl
@[simp] theorem pieces_cons (x ls) : pieces (x :: ls) = x.text ++ pieces ls := rfl
@[simp] theorem pieces_append (a b) : pieces (a ++ b) = pieces a ++ pieces b := by simp [pieces]
@[simp] theorem pieces_word (buf) : pieces (word buf) = buf := by
  unfold word; split <;> simp_all

theorem pieces_lex : ∀ (rest : Bytes) (m : Mode) (buf : Bytes), pieces (lex m buf rest) = buf ++ rest := by
  intro rest
  induction rest with
  | nil => intro m buf; cases m <;> simp [lex]
  | cons c rest ih =>
    intro m buf
    cases m <;> simp only [lex]
    · repeat' split
      all_goals simp [ih]
    · split <;> simp [ih]
    · split <;> simp [ih]
    · split <;> simp [ih]
    · split <;> simp [ih]

theorem pieces_lexAll (text : Bytes) : pieces (lexAll text) = text := by simp [lexAll, pieces_lex]

/-! ## The shape of pieces -/

/-- What a piece can be; `last` says that it is the last one. -/
def PieceOK (x : Lexeme) (last : Prop) : Prop :=
  if x.comment then IsComment x.text
  else (∃ c ∈ separatorBytes, x.text = [c]) ∨ IsWord x.text ∨ x.text.head? = some 34 ∨ x.text.head? = some 96 ∨
    (last ∧ ([47, 47] <+: x.text ∨ [47, 42] <+: x.text))

/-- Every piece is as it should be. -/
def PiecesOK : List Lexeme → Prop
  | [] => True
  | x :: xs => PieceOK x (xs = []) ∧ PiecesOK xs

/-- What is known about the buffer. -/
def BufInv : Mode → Bytes → Bytes → Prop
  | .code, buf, rest => (∀ b ∈ buf, b ∉ separatorBytes ∧ b ≠ 34 ∧ b ≠ 96) ∧
      (buf ≠ [] → ¬ [47, 47] <+: buf ++ rest ∧ ¬ [47, 42] <+: buf ++ rest)
  | .lineComment, buf, rest => buf ≠ [] ∧ [47, 47] <+: buf ++ rest ∧ 10 ∉ buf
  | .blockComment, buf, rest => buf ≠ [] ∧ [47, 42] <+: buf ++ rest
  | .str, buf, _ => buf.head? = some 34
  | .rawStr, buf, _ => buf.head? = some 96

theorem bufInv_nil (rest : Bytes) : BufInv .code [] rest := by simp [BufInv]

theorem good_word {buf rest : Bytes} (I : BufInv .code buf rest) {ls : List Lexeme} (g : PiecesOK ls) :
    PiecesOK (word buf ++ ls) := by
  unfold word
  split
  · exact g
  · rename_i hb
    refine ⟨?_, g⟩
    unfold PieceOK
    simp only [Bool.false_eq_true, if_false]
    right; left
    obtain ⟨i1, i2⟩ := I
    obtain ⟨i2, i3⟩ := i2 hb
    exact ⟨hb, i1, fun hx => i2 (hx.trans (List.prefix_append _ _)), fun hx => i3 (hx.trans (List.prefix_append _ _))⟩

theorem lex_good : ∀ (rest : Bytes) (m : Mode) (buf : Bytes), BufInv m buf rest → PiecesOK (lex m buf rest) := by
  intro rest
  induction rest with
  | nil =>
    intro m buf I
    cases m <;> simp only [lex]
    · have := good_word I (ls := []) trivial
      simpa using this
    · obtain ⟨h1, h2, h3⟩ := I
      simp only [word, h1, if_false]
      refine ⟨?_, trivial⟩
      simp only [PieceOK, Bool.false_eq_true, if_false]
      exact .inr (.inr (.inr (.inr ⟨trivial, .inl (by simpa using h2)⟩)))
    · obtain ⟨h1, h2⟩ := I
      simp only [word, h1, if_false]
      refine ⟨?_, trivial⟩
      simp only [PieceOK, Bool.false_eq_true, if_false]
      exact .inr (.inr (.inr (.inr ⟨trivial, .inr (by simpa using h2)⟩)))
    · unfold word
      split
      · trivial
      · exact ⟨.inr (.inr (.inl I)), trivial⟩
    · unfold word
      split
      · trivial
      · exact ⟨.inr (.inr (.inr (.inl I))), trivial⟩
  | cons c rest ih =>
    intro m buf I
    cases m <;> simp only [lex]
    · split
      · rename_i hc
        refine good_word I (ih _ _ ?_)
        obtain ⟨h1, h2⟩ := hc
        refine ⟨by simp, ?_, by simp [h1]⟩
        rcases rest with _ | ⟨r, rest⟩
        · simp at h2
        · simp at h2; simp [h1, h2]
      · split
        · rename_i hc
          refine good_word I (ih _ _ ?_)
          obtain ⟨h1, h2⟩ := hc
          refine ⟨by simp, ?_⟩
          rcases rest with _ | ⟨r, rest⟩
          · simp at h2
          · simp at h2; simp [h1, h2]
        · split
          · rename_i hc
            exact good_word I (ih _ _ (by simp [BufInv, hc]))
          · split
            · rename_i hc
              exact good_word I (ih _ _ (by simp [BufInv, hc]))
            · split
              · rename_i hc
                refine good_word I ⟨?_, ih _ _ (bufInv_nil _)⟩
                exact .inl ⟨c, hc, rfl⟩
              · rename_i n1 n2 n3 n4 n5
                refine ih _ _ ⟨?_, ?_⟩
                · intro b hb
                  rcases List.mem_append.1 hb with hb | hb
                  · exact I.1 b hb
                  · simp at hb; subst hb; exact ⟨n5, n3, n4⟩
                · intro _
                  rw [List.append_assoc, List.singleton_append]
                  by_cases hb : buf = []
                  · subst hb
                    rcases rest with _ | ⟨r, rest⟩
                    · simp
                    · simp at n1 n2
                      simp only [List.nil_append, List.cons_prefix_cons, List.nil_prefix, and_true]
                      exact ⟨fun h => n1 h.1.symm h.2.symm, fun h => n2 h.1.symm h.2.symm⟩
                  · exact I.2 hb
    · obtain ⟨h1, h2, h3⟩ := I
      split
      · rename_i hc
        subst hc
        refine ⟨?_, ⟨.inl ⟨10, by decide, rfl⟩, ih _ _ (bufInv_nil _)⟩⟩
        simp only [PieceOK, if_true]
        left
        rcases buf with _ | ⟨x, _ | ⟨y, buf⟩⟩
        · exact absurd rfl h1
        · simp at h2
        · simp at h2 h3
          exact ⟨buf, by simp [← h2.1, ← h2.2], h3.2.2⟩
      · rename_i hc
        refine ih _ _ ⟨by simp, by simpa using h2, ?_⟩
        simp only [List.mem_append, List.mem_singleton, not_or]
        exact ⟨h3, fun h => hc h.symm⟩
    · obtain ⟨h1, h2⟩ := I
      split
      · rename_i hc
        obtain ⟨rfl, hl⟩ := hc
        refine ⟨?_, ih _ _ (bufInv_nil _)⟩
        simp only [PieceOK, if_true]
        right
        obtain ⟨u, rfl⟩ := List.getLast?_eq_some_iff.1 hl
        constructor
        · rcases u with _ | ⟨x, _ | ⟨y, u⟩⟩
          · simp at h2
          · simp at h2; simp [← h2]
          · simp at h2; simp [← h2]
        · exact ⟨u, by simp⟩
      · exact ih _ _ ⟨by simp, by simpa using h2⟩
    · have I' : buf.head? = some 34 := I
      split
      · refine ⟨?_, ih _ _ (bufInv_nil _)⟩
        exact .inr (.inr (.inl (by simp [List.head?_append, I'])))
      · exact ih _ _ (by simp [BufInv, List.head?_append, I'])
    · have I' : buf.head? = some 96 := I
      split
      · refine ⟨?_, ih _ _ (bufInv_nil _)⟩
        exact .inr (.inr (.inr (.inl (by simp [List.head?_append, I']))))
      · exact ih _ _ (by simp [BufInv, List.head?_append, I'])

theorem good_split {ls : List Lexeme} (g : PiecesOK ls) {l₁ : List Lexeme} {x : Lexeme} {l₂ : List Lexeme}
    (e : ls = l₁ ++ x :: l₂) : PieceOK x (l₂ = []) := by
  induction l₁ generalizing ls with
  | nil => subst e; exact g.1
  | cons y l₁ ih => subst e; exact ih g.2 rfl

/-! ## Restarting at a boundary -/

/-- Scanning restarts at every boundary between pieces. -/
def Restart : List Lexeme → Prop
  | [] => True
  | x :: ls => lexAll (pieces (x :: ls)) = x :: ls ∧ Restart ls

theorem restart_suffix {ls : List Lexeme} (r : Restart ls) {l₁ l₂ : List Lexeme} (e : ls = l₁ ++ l₂) :
    lexAll (pieces l₂) = l₂ := by
  induction l₁ generalizing ls with
  | nil =>
    rw [List.nil_append] at e
    rw [← e]
    rcases ls with _ | ⟨x, ls⟩
    · rfl
    · exact r.1
  | cons y l₁ ih => subst e; exact ih r.2 rfl

theorem restart_full {ls : List Lexeme} (h : lexAll (pieces ls) = ls) (t : Restart ls.tail) : Restart ls := by
  rcases ls with _ | ⟨x, ls⟩
  · trivial
  · exact ⟨h, t⟩

theorem restart_word {buf : Bytes} {ls : List Lexeme} (h : lexAll (pieces ls) = ls) (t : Restart ls.tail) :
    Restart (word buf ++ ls).tail := by
  unfold word
  split
  · simpa using t
  · simpa using restart_full h t

theorem lex_restart : ∀ (rest : Bytes) (m : Mode) (buf : Bytes), Restart (lex m buf rest).tail := by
  intro rest
  induction rest with
  | nil =>
    intro m buf
    have : lex m buf [] = word buf := by cases m <;> rfl
    rw [this]
    unfold word
    split <;> trivial
  | cons c rest ih =>
    have full : Restart (lex .code [] rest) :=
      restart_full (by rw [pieces_lex]; rfl) (ih _ _)
    have opn : ∀ (m' : Mode) (buf : Bytes), lexAll (c :: rest) = lex m' [c] rest →
        Restart (word buf ++ lex m' [c] rest).tail := by
      intro m' buf he
      refine restart_word ?_ (ih _ _)
      rw [pieces_lex]
      exact he
    intro m buf
    cases m <;> simp only [lex]
    · split
      · rename_i h1; exact opn _ _ (by simp [lexAll, lex, h1, word])
      · split
        · rename_i h1 h2; exact opn _ _ (by simp [lexAll, lex, h2, word])
        · split
          · rename_i h1 h2 h3; exact opn _ _ (by simp [lexAll, lex, h3, word])
          · split
            · rename_i h1 h2 h3 h4; exact opn _ _ (by simp [lexAll, lex, h4, word])
            · split
              · rename_i h1 h2 h3 h4 h5
                refine restart_word ?_ (by simpa using full)
                rw [pieces_cons, pieces_lex]
                simp [lexAll, lex, h1, h2, h3, h4, h5, word]
              · exact ih _ _
    · split
      · rename_i h1
        subst h1
        refine ⟨?_, full⟩
        rw [pieces_cons, pieces_lex]
        simp [lexAll, lex, word, separatorBytes]
      · exact ih _ _
    · split
      · exact full
      · exact ih _ _
    · split
      · exact full
      · exact ih _ _
    · split
      · exact full
      · exact ih _ _

theorem lexAll_restart {text : Bytes} {l₁ l₂ : List Lexeme} (e : lexAll text = l₁ ++ l₂) :
    lexAll (pieces l₂) = l₂ := by
  have r : Restart (lexAll text) := restart_full (by rw [pieces_lexAll]) (lex_restart _ _ _)
  exact restart_suffix r e

/-! ## Comments and literals -/

theorem lex_line (body post : Bytes) (hb : 10 ∉ body) : ∀ buf, lex .lineComment buf (body ++ 10 :: post) =
    ⟨buf ++ body, true⟩ :: ⟨[10], false⟩ :: lexAll post := by
  induction body with
  | nil => intro buf; simp [lex, lexAll]
  | cons c body ih =>
    intro buf
    simp at hb
    have h1 : c ≠ 10 := fun h => hb.1 h.symm
    simp only [List.cons_append, lex, h1, if_false]
    rw [ih hb.2]
    simp

theorem lex_block (post : Bytes) : ∀ (body buf : Bytes), (buf ++ body).getLast? = some 42 →
    (∀ x y, body = x ++ 47 :: y → (buf ++ x).getLast? ≠ some 42) →
    lex .blockComment buf (body ++ 47 :: post) = ⟨buf ++ body ++ [47], true⟩ :: lexAll post := by
  intro body
  induction body with
  | nil => intro buf h1 _; simp at h1; simp [lex, h1, lexAll]
  | cons c body ih =>
    intro buf h1 h2
    have h3 : ¬ (c = 47 ∧ buf.getLast? = some 42) := by
      rintro ⟨rfl, hb⟩
      exact h2 [] body rfl (by simpa using hb)
    simp only [List.cons_append, lex, h3, if_false]
    rw [ih (buf ++ [c]) (by simpa using h1)]
    · simp
    · intro x y hxy
      have := h2 (c :: x) y (by simp [hxy])
      simpa using this

theorem lex_str (post : Bytes) : ∀ (body buf : Bytes), buf ≠ [] → (buf ++ body).getLast? ≠ some 92 →
    (∀ x y, body = x ++ 34 :: y → (buf ++ x).getLast? = some 92) →
    lex .str buf (body ++ 34 :: post) = ⟨buf ++ body ++ [34], false⟩ :: lexAll post := by
  intro body
  induction body with
  | nil => intro buf _ h1 _; simp at h1; simp [lex, h1, lexAll]
  | cons c body ih =>
    intro buf h0 h1 h2
    have h3 : ¬ (c = 34 ∧ buf.getLast? ≠ some 92) := by
      rintro ⟨rfl, hb⟩
      exact hb (by simpa using h2 [] body rfl)
    simp only [List.cons_append, lex]
    rw [if_neg h3, ih (buf ++ [c]) (by simp) (by simpa using h1)]
    · simp
    · intro x y hxy
      have := h2 (c :: x) y (by simp [hxy])
      simpa using this

theorem lex_raw (post : Bytes) : ∀ (body buf : Bytes), 96 ∉ body →
    lex .rawStr buf (body ++ 96 :: post) = ⟨buf ++ body ++ [96], false⟩ :: lexAll post := by
  intro body
  induction body with
  | nil => intro buf _; simp [lex, lexAll]
  | cons c body ih =>
    intro buf hb
    simp at hb
    have h1 : c ≠ 96 := fun h => hb.1 h.symm
    simp only [List.cons_append, lex, h1, if_false]
    rw [ih _ hb.2]
    simp

end Goast
