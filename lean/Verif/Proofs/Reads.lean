import Verif.Spec.Reads
import Verif.Proofs.FuncDecl
import Verif.Props.Names

/-!
# From the text of a scope to the kinds of its nodes
-/

set_option linter.unusedSimpArgs false
set_option linter.unusedVariables false

namespace Goast
open Heap

theorem head_append {α : Type} {l m : List α} {x : α} (ne : l ≠ []) : (l ++ m).head? = l.head? := by
  cases l with
  | nil => exact absurd rfl ne
  | cons a l => rfl

/-- A complete text is read independently of what follows. -/
theorem lex_complete : ∀ (t : Bytes) (m : Mode) (buf more : Bytes), lexEnd m buf t = (.code, []) → lex m buf (t ++ more) = lex m buf t ++ lexAll more := by
  intro t
  induction t with
  | nil =>
    intro m buf more e
    simp only [lexEnd, Prod.mk.injEq] at e
    obtain ⟨rfl, rfl⟩ := e
    simp [lex, word, lexAll]
  | cons c rest ih =>
    intro m buf more e
    have hh : c = 47 → m = .code → rest ≠ [] := by
      rintro rfl rfl rfl
      simp [lexEnd, separatorBytes] at e
    cases m with
    | code =>
      simp only [List.cons_append, lex]
      have hd : ∀ b, (c = 47 ∧ (rest ++ more).head? = some b) ↔ (c = 47 ∧ rest.head? = some b) := by
        intro b
        refine and_congr_right fun hc => ?_
        have := hh hc rfl
        cases rest with
        | nil => exact absurd rfl this
        | cons _ _ => simp
      simp only [lexEnd] at e
      simp only [hd]
      split at e
      · rename_i h1; rw [if_pos h1, if_pos h1, ih _ _ _ e, List.append_assoc]
      · rename_i h1
        simp only [h1, if_false]
        split at e
        · rename_i h2; rw [if_pos h2, if_pos h2, ih _ _ _ e, List.append_assoc]
        · rename_i h2
          simp only [h2, if_false]
          split at e
          · rename_i h3; simp only [h3, if_true]; rw [← h3, ih _ _ _ e, List.append_assoc]
          · rename_i h3
            simp only [h3, if_false]
            split at e
            · rename_i h4; simp only [h4, if_true]; rw [← h4, ih _ _ _ e, List.append_assoc]
            · rename_i h4
              simp only [h4, if_false]
              split at e
              · rename_i h5; simp only [h5, if_true]; rw [ih _ _ _ e]; simp
              · rename_i h5; simp only [h5, if_false]; rw [ih _ _ _ e]
    | lineComment =>
      simp only [List.cons_append, lex, lexEnd] at e ⊢
      split at e
      · rename_i h1; simp only [h1, if_true]; rw [ih _ _ _ e]; simp
      · rename_i h1; simp only [h1, if_false]; rw [ih _ _ _ e]
    | blockComment =>
      simp only [List.cons_append, lex, lexEnd] at e ⊢
      split at e
      · rename_i h1; rw [if_pos h1, if_pos h1, ih _ _ _ e]; simp
      · rename_i h1; rw [if_neg h1, if_neg h1, ih _ _ _ e]
    | str =>
      simp only [List.cons_append, lex, lexEnd] at e ⊢
      split at e
      · rename_i h1; rw [if_pos h1, if_pos h1, ih _ _ _ e]; simp
      · rename_i h1; rw [if_neg h1, if_neg h1, ih _ _ _ e]
    | rawStr =>
      simp only [List.cons_append, lex, lexEnd] at e ⊢
      split at e
      · rename_i h1; simp only [h1, if_true]; rw [ih _ _ _ e]; simp
      · rename_i h1; simp only [h1, if_false]; rw [ih _ _ _ e]

theorem chainTokens_eq {h : Heap} {p : Ptr} {l : List Addr} (f : Fwd h p l) : chainTokens h p = some (l.map (kt h)) := by
  unfold chainTokens
  rw [iterNext_eq h _ f]
  have : ∀ (l : List Addr) (b : List Token), (walk (fun (l : List Token) a => (l ++ [(h.kind (some a), h.text (some a))], true)) b l).1 =
      b ++ l.map (kt h) := by
    intro l
    induction l with
    | nil => intro b; simp [walk]
    | cons a l ih => intro b; simp [walk, ih, kt]
  simp [this]

theorem word_ne {buf : Bytes} : ∀ x ∈ word buf, x.text ≠ [] := by
  intro x hx
  unfold word at hx
  split at hx
  · cases hx
  · simp only [List.mem_singleton] at hx
    subst hx
    assumption

/-- No piece is empty. -/
theorem lex_ne : ∀ (t : Bytes) (m : Mode) (buf : Bytes), (m ≠ .code → buf ≠ []) → ∀ x ∈ lex m buf t, x.text ≠ [] := by
  intro t
  induction t with
  | nil => intro m buf _ x hx; cases m <;> exact word_ne x (by simpa [lex] using hx)
  | cons c rest ih =>
    intro m buf hb x hx
    cases m with
    | code =>
      simp only [lex] at hx
      split at hx
      · rcases List.mem_append.1 hx with hx | hx
        · exact word_ne x hx
        · exact ih _ _ (by simp) x hx
      · split at hx
        · rcases List.mem_append.1 hx with hx | hx
          · exact word_ne x hx
          · exact ih _ _ (by simp) x hx
        · split at hx
          · rcases List.mem_append.1 hx with hx | hx
            · exact word_ne x hx
            · exact ih _ _ (by simp) x hx
          · split at hx
            · rcases List.mem_append.1 hx with hx | hx
              · exact word_ne x hx
              · exact ih _ _ (by simp) x hx
            · split at hx
              · rcases List.mem_append.1 hx with hx | hx
                · exact word_ne x hx
                · rcases List.mem_cons.1 hx with rfl | hx
                  · simp
                  · exact ih _ _ (by simp) x hx
              · exact ih _ _ (by simp) x hx
    | lineComment =>
      simp only [lex] at hx
      split at hx
      · simp only [List.mem_cons] at hx
        rcases hx with rfl | rfl | hx
        · exact hb (by simp)
        · simp
        · exact ih _ _ (by simp) x hx
      · exact ih _ _ (by simp) x hx
    | blockComment =>
      simp only [lex] at hx
      split at hx
      · rcases List.mem_cons.1 hx with rfl | hx
        · simp
        · exact ih _ _ (by simp) x hx
      · exact ih _ _ (by simp) x hx
    | str =>
      simp only [lex] at hx
      split at hx
      · rcases List.mem_cons.1 hx with rfl | hx
        · simp
        · exact ih _ _ (by simp) x hx
      · exact ih _ _ (by simp) x hx
    | rawStr =>
      simp only [lex] at hx
      split at hx
      · rcases List.mem_cons.1 hx with rfl | hx
        · simp
        · exact ih _ _ (by simp) x hx
      · exact ih _ _ (by simp) x hx

theorem tokens_eq (t : Bytes) : tokens t = (lexAll t).map Lexeme.kt := rfl

/-- Two walks along the same links. -/
theorem Fwd.same_list {h h' : Heap} : ∀ {p : Ptr} {m m' : List Addr}, Fwd h p m → Fwd h' p m' →
    (∀ x ∈ m, h'.next (some x) = h.next (some x)) → m = m'
  | p, [], m', f, f', _ => by
    cases Fwd.nil_iff.1 f
    cases f'
    rfl
  | p, a :: m, m', f, f', e => by
    obtain ⟨rfl, _, f⟩ := Fwd.cons_iff.1 f
    cases f' with
    | @cons _ l _ f' =>
      rw [e a (by simp)] at f'
      rw [Fwd.same_list f f' fun x hx => e x (by simp [hx])]

variable {ord : Nat → List (Bytes × Ext)} {h : Heap}

/-- A section that ends where a piece ends has the tokens of its text. -/
theorem section_tokens_text (ho : MapOrder ord) (w : WF h) (ac : Acyclic h) {startLine : Int} {text : Bytes} {i : Nat} {gt : List Token}
    (hgt : (sectionsOf startLine text).2[i]? = some gt) {t : Bytes} (ht : tokText gt = t) (hc : Complete t) : gt = tokens t := by
  obtain ⟨h1, p, l, st, h', P⟩ := parsed ho w ac startLine text
  rw [P.sections ho, List.getElem?_map] at hgt
  cases hd : (divide h1 (startLine - 1) l).2[i]? with
  | none => rw [hd] at hgt; cases hgt
  | some g =>
  rw [hd, Option.map_some, Option.some.injEq] at hgt
  subst hgt
  have hg := List.mem_of_getElem? hd
  have htx := ht
  rw [tokText_kt] at htx
  obtain ⟨a, g, rfl⟩ := List.exists_cons_of_ne_nil (divide_ne_nil _ _ _ g hg)
  obtain ⟨g₁, g₂, eg, hk⟩ := P.group_front (xs := lexAll t) (rest := []) ho hg (by rw [htx, pieces_lexAll]; simp)
    (fun more => ⟨lexAll more, by
      have := lex_complete t .code [] more hc
      rw [pieces_lexAll, List.append_nil]
      exact this⟩) (lex_ne t _ _ (by simp))
  have hz : g₂ = [] := by
    cases g₂ with
    | nil => rfl
    | cons z g₂ =>
      exfalso
      have h2 : textOf h1 g₁ = t := by
        have := congrArg (List.map Prod.snd) hk
        rw [List.map_map, List.map_map] at this
        have e5 : g₁.map (fun a => h1.text (some a)) = (lexAll t).map Lexeme.text := this
        rw [← pieces_lexAll t, pieces, ← e5]; rfl
      rw [eg, textOf_append, h2] at htx
      have : textOf h1 (z :: g₂) = [] := List.append_cancel_left (htx.trans (List.append_nil t).symm)
      rw [textOf, List.map_cons, List.flatten_cons, List.append_eq_nil_iff] at this
      have mem : z ∈ l := by
        rw [← divide_flatten h1 l (startLine - 1), List.mem_append, List.mem_flatten]
        exact .inr ⟨_, hg, by rw [eg]; simp⟩
      exact C05_nonempty ho P.extract P.fwd z mem this.1
  subst hz
  rw [List.append_nil] at eg
  rw [eg, tokens_eq, ← hk]
  rfl

/-- The tokens of a scope after a parse, from those of the section. -/
theorem scope_labels (ho : MapOrder ord) (w : WF h) (ac : Acyclic h) {startLine : Int} {text : Bytes} {h' : Heap} {scs : List ScopeRec}
    (e : parseScopeOrd ord h startLine text = some (h', scs)) {i : Nat} {sc : ScopeRec} (hsc : scs[i]? = some sc) {gt : List Token}
    (hgt : (sectionsOf startLine text).2[i]? = some gt) (Q : List Token → Prop)
    (reset : ∀ (ha hb : Heap) (a : Addr) (g : List Addr) (r : Ptr), WF ha → Acyclic ha → Chain ha (a :: g) → (a :: g).map (kt ha) = gt →
      resetKind ha (some a) = some (hb, r) → ∀ l', Chain hb (a :: l') → Q ((a :: l').map (kt hb))) :
    ∃ ts', chainTokens h' sc.node = some ts' ∧ Q ts' := by
  obtain ⟨h1, p, l, st, h'', P⟩ := parsed ho w ac startLine text
  have ep := P.parse
  rw [e] at ep
  simp only [Option.some.injEq, Prod.mk.injEq] at ep
  obtain ⟨rfl, rfl⟩ := ep
  rw [P.scs, List.getElem?_map] at hsc
  rw [P.sections ho, List.getElem?_map] at hgt
  cases hd : (divide h1 (startLine - 1) l).2[i]? with
  | none => rw [hd] at hsc; cases hsc
  | some g =>
  rw [hd] at hsc hgt
  simp only [Option.map_some, Option.some.injEq] at hsc hgt
  subst hsc
  have hg := List.mem_of_getElem? hd
  obtain ⟨a, g, rfl⟩ := List.exists_cons_of_ne_nil (divide_ne_nil _ _ _ g hg)
  have hn : (scopeOf h1 (a :: g)).node = some a := rfl
  obtain ⟨ha, hb, r, wa, aca, cha, sza, s1, er, s2, szb⟩ := (P.group3 _ hg).ex
  obtain ⟨l', ch', _⟩ := (P.group3 _ hg).chain
  have kt1 : ∀ x, kt st.heap x = kt h1 x := fun x => by
    simp only [kt, (P.data2.2 _).2.1, (P.data2.2 _).2.2]
  have kt2 : ∀ x ∈ a :: g, kt ha x = kt st.heap x := by
    intro x hx
    have := (s1 x hx).2.2
    simp only [data, Prod.mk.injEq] at this
    simp only [kt, this.2.1, this.2.2]
  have kt3 : ∀ x ∈ a :: g, kt h' x = kt hb x ∧ h'.next (some x) = hb.next (some x) := by
    intro x hx
    have d := s2 x hx
    have e := d.2.2
    simp only [data, Prod.mk.injEq] at e
    exact ⟨by simp only [kt, e.2.1, e.2.2], d.1⟩
  have tk : (a :: g).map (kt st.heap) = gt := by
    rw [← hgt]
    exact List.map_congr_left fun x _ => kt1 x
  rw [hn]
  · rw [List.head?_cons] at er
    obtain ⟨l2, ch2, sub⟩ := resetKind_chain wa aca cha er
    have el : a :: l2 = a :: l' := ch2.fwd.same_list ch'.fwd fun x hx => (kt3 x (by
      rcases List.mem_cons.1 hx with rfl | hx
      · simp
      · simp [sub x hx])).2
    have el2 : l2 = l' := (List.cons.inj el).2
    subst el2
    refine ⟨_, chainTokens_eq ch'.fwd, ?_⟩
    have : (a :: l2).map (kt h') = (a :: l2).map (kt hb) := List.map_congr_left fun x hx => (kt3 x (by
      rcases List.mem_cons.1 hx with rfl | hx
      · simp
      · simp [sub x hx])).1
    rw [this]
    exact reset ha hb a g r wa aca cha (by rw [← tk]; exact List.map_congr_left kt2) er l2 ch2

end Goast
