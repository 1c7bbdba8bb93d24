import Verif.Proofs.Above
import Verif.Props.Scope
import Verif.Props.Save
import Verif.Spec.Words

/-!
# From the text of a scope to its first nodes
-/

set_option linter.unusedSimpArgs false
set_option linter.unusedVariables false

namespace Goast
open Heap

theorem lex_wordBytes : ∀ (w buf rest : Bytes), (∀ b ∈ w, WordByte b) →
    lex .code buf (w ++ rest) = lex .code (buf ++ w) rest
  | [], buf, rest, _ => by simp
  | b :: w, buf, rest, hw => by
    obtain ⟨h1, h2, h3, h4⟩ := hw b (by simp)
    rw [List.cons_append, lex, if_neg (by simp [h4]), if_neg (by simp [h4]), if_neg h2, if_neg h3, if_neg h1,
      lex_wordBytes w _ rest (fun x hx => hw x (by simp [hx]))]
    simp

theorem sep_facts {c : UInt8} (hc : c ∈ separatorBytes) : c ≠ 47 ∧ c ≠ 34 ∧ c ≠ 96 := by
  refine ⟨?_, ?_, ?_⟩ <;> rintro rfl <;> revert hc <;> decide

theorem lex_sep {c : UInt8} (hc : c ∈ separatorBytes) (buf rest : Bytes) :
    lex .code buf (c :: rest) = word buf ++ ⟨[c], false⟩ :: lexAll rest := by
  obtain ⟨h1, h2, h3⟩ := sep_facts hc
  rw [lex, if_neg (by simp [h1]), if_neg (by simp [h1]), if_neg h2, if_neg h3, if_pos hc]
  rfl

/-- A word and a separator. -/
theorem lexAll_word {w : Bytes} (hw : ∀ b ∈ w, WordByte b) (ne : w ≠ []) {c : UInt8} (hc : c ∈ separatorBytes)
    (rest : Bytes) : lexAll (w ++ c :: rest) = ⟨w, false⟩ :: ⟨[c], false⟩ :: lexAll rest := by
  rw [lexAll, lex_wordBytes w [] _ hw, lex_sep hc, List.nil_append, word, if_neg ne]
  rfl

theorem lexAll_sep {c : UInt8} (hc : c ∈ separatorBytes) (rest : Bytes) :
    lexAll (c :: rest) = ⟨[c], false⟩ :: lexAll rest := by
  rw [lexAll, lex_sep hc]; rfl

/-- Letters and digits only extend words. -/
theorem wordByte_ident : ∀ b : UInt8, isLetter b ∨ isDigit b → WordByte b := by decide +kernel

theorem Ident.wordBytes {s : Bytes} (i : Ident s) : ∀ b ∈ s, WordByte b := fun b hb => wordByte_ident b (i.rest b hb)

theorem Ident.ne_nil {s : Bytes} (i : Ident s) : s ≠ [] := by
  obtain ⟨b, t, e, _⟩ := i.head
  rw [e]; simp

/-- Pieces that make up the beginning of a text are nodes of every group with that text. -/
theorem pieces_prefix : ∀ (xs ys : List Lexeme) (g l₂ : List Addr) (kt : Addr → Kind × Bytes) (rest : Bytes),
    (g ++ l₂).map kt = (xs ++ ys).map Lexeme.kt → ((g.map fun a => (kt a).2).flatten = pieces xs ++ rest) →
    (∀ x ∈ xs, x.text ≠ []) → ∃ g₁ g₂, g = g₁ ++ g₂ ∧ g₁.map kt = xs.map Lexeme.kt
  | [], ys, g, l₂, kt, rest, _, _, _ => ⟨[], g, rfl, rfl⟩
  | x :: xs, ys, [], l₂, kt, rest, e, t, ne => by
    simp only [List.map_nil, List.flatten_nil, pieces_cons] at t
    have t' := congrArg List.length t
    have : x.text.length ≠ 0 := fun hh => ne x (by simp) (List.length_eq_zero_iff.1 hh)
    simp only [List.length_nil, List.length_append] at t'
    omega
  | x :: xs, ys, a :: g, l₂, kt, rest, e, t, ne => by
    simp only [List.cons_append, List.map_cons, List.cons.injEq, pieces_cons, List.flatten_cons] at e t
    have e1 : (kt a).2 = x.text := by rw [e.1]; rfl
    rw [e1, List.append_assoc] at t
    obtain ⟨g₁, g₂, rfl, h2⟩ := pieces_prefix xs ys g l₂ kt rest e.2 (List.append_cancel_left t) (fun y hy => ne y (by simp [hy]))
    exact ⟨a :: g₁, g₂, rfl, by simp [h2, e.1]⟩

variable {ord : Nat → List (Bytes × Ext)} {h : Heap}

/-- A group of nodes by its original text. -/
theorem Parsed.group_front {startLine : Int} {text : Bytes} {h1 h' : Heap} {p : Ptr} {l : List Addr} {st : ParseSt}
    (ho : MapOrder ord) (P : Parsed ord h startLine text h1 p l st h') {g : List Addr}
    (hg : g ∈ (divide h1 (startLine - 1) l).2) {xs : List Lexeme} {rest : Bytes} (ht : textOf h1 g = pieces xs ++ rest)
    (hx : ∀ more, ∃ ys, lexAll (pieces xs ++ rest ++ more) = xs ++ ys) (ne : ∀ x ∈ xs, x.text ≠ []) :
    ∃ g₁ g₂, g = g₁ ++ g₂ ∧ g₁.map (fun a => (h1.kind (some a), h1.text (some a))) = xs.map Lexeme.kt := by
  obtain ⟨l₁, l₂, el⟩ : ∃ l₁ l₂, l = l₁ ++ (g ++ l₂) := by
    obtain ⟨a, b, e⟩ := List.append_of_mem hg
    have := divide_flatten h1 l (startLine - 1)
    rw [e] at this
    exact ⟨(divide h1 (startLine - 1) l).1 ++ a.flatten, b.flatten, by rw [List.flatten_append, List.flatten_cons] at this; rw [List.append_assoc]; exact this.symm⟩
  have f := P.fwd
  have hx' := P.texts
  rw [el] at f
  rw [el, textOf_append, textOf_append] at hx'
  have e := P.extract
  rw [← hx'] at e
  have k := known_lit ho e f rfl
  obtain ⟨ys, hy⟩ := hx (textOf h1 l₂)
  rw [ht, hy] at k
  exact pieces_prefix xs ys g l₂ _ rest k ht ne

/-- A scope of a parse is made of a group of nodes. -/
theorem Parsed.scope {startLine : Int} {text : Bytes} {h1 h' : Heap} {p : Ptr} {l : List Addr} {st : ParseSt}
    (P : Parsed ord h startLine text h1 p l st h') {sc : ScopeRec} (hsc : sc ∈ st.scs) :
    ∃ a g, (a :: g) ∈ (divide h1 (startLine - 1) l).2 ∧ sc.node = some a ∧ sc = scopeOf h1 (a :: g) ∧
      chainText st.heap sc.node = some (textOf h1 (a :: g)) := by
  rw [P.scs, List.mem_map] at hsc
  obtain ⟨g, hg, rfl⟩ := hsc
  obtain ⟨a, g, rfl⟩ := List.exists_cons_of_ne_nil (divide_ne_nil _ _ _ g hg)
  refine ⟨a, g, hg, rfl, rfl, ?_⟩
  have := chainText_eq (P.groups _ hg).fwd
  simp only [scopeOf] at this ⊢
  rw [this]
  simp only [textOf, (P.data2.2 _).2.2]

end Goast
