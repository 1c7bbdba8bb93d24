import Verif.Proofs.Compose
import Verif.Proofs.Front
import Verif.Proofs.Labels
import Verif.Proofs.Keywords
import Verif.Spec.Brackets

/-!
# The sections of a text are the scopes of a parse
-/

namespace Goast
open Heap

variable {ord : Nat → List (Bytes × Ext)} {h : Heap}

theorem tokText_kt (h : Heap) (l : List Addr) : tokText (l.map (kt h)) = textOf h l := by
  simp [tokText, textOf, kt, Function.comp_def]

theorem sections_eq (h : Heap) : ∀ (l : List Addr) (prev : Int),
    sections prev (l.map fun a => (h.line (some a), kt h a)) = ((divide h prev l).1.map (kt h), (divide h prev l).2.map (List.map (kt h)))
  | [], _ => rfl
  | a :: l, prev => by
    have ih := sections_eq h l (h.line (some a))
    simp only [List.map_cons, sections, ih, divide, startsScope_iff]
    by_cases hc : Opens h prev a
    · rw [if_pos (show h.line (some a) ≠ prev ∧ newScopeKind (kt h a).2 ≠ .unknown from hc), if_pos hc]; rfl
    · rw [if_neg (show ¬ (h.line (some a) ≠ prev ∧ newScopeKind (kt h a).2 ≠ .unknown) from hc), if_neg hc]; rfl

theorem placed_eq (text : Bytes) : placed text = (toks text).map fun t => (t.line, t.kind, t.text) := by
  rw [placed, toks, show tokens text = (lexAll text).map Lexeme.kt from rfl, List.map_zipWith, List.zip, ← List.zipWith_map_right]
  simp only [List.zipWith_map_right, Lexeme.kt]

theorem Parsed.placed_nodes {startLine : Int} {text : Bytes} {h1 : Heap} {p : Ptr} {l : List Addr} {st : ParseSt} {h' : Heap} (ho : MapOrder ord)
    (P : Parsed ord h startLine text h1 p l st h') : placed text = l.map fun a => (h1.line (some a), kt h1 a) := by
  obtain ⟨ts, h1', p', l', e, _, _, _, f, _, d, k, _, _, ln⟩ := extract_nodes ho h text
  rw [P.extract] at e
  simp only [Option.some.injEq, Prod.mk.injEq] at e
  obtain ⟨rfl, rfl⟩ := e
  cases P.fwd.det f
  rw [placed_eq, toks_eq k ln, ← d]
  rfl

theorem Parsed.sections {startLine : Int} {text : Bytes} {h1 : Heap} {p : Ptr} {l : List Addr} {st : ParseSt} {h' : Heap} (ho : MapOrder ord)
    (P : Parsed ord h startLine text h1 p l st h') : sectionsOf startLine text =
      ((divide h1 (startLine - 1) l).1.map (kt h1), (divide h1 (startLine - 1) l).2.map (List.map (kt h1))) := by
  rw [sectionsOf, P.placed_nodes ho, sections_eq]

/-- Scope number `i` before its kinds are reset: its nodes are section number `i` of the text. -/
theorem section_at (ho : MapOrder ord) (w : WF h) (ac : Acyclic h) {startLine : Int} {text : Bytes} {h' : Heap} {scs : List ScopeRec}
    (e : parseScopeOrd ord h startLine text = some (h', scs)) {i : Nat} {sc : ScopeRec} (hsc : scs[i]? = some sc) {g : List Token}
    (hg : (sectionsOf startLine text).2[i]? = some g) :
    ∃ h1 p st, extractOrd ord h text = some (h1, p) ∧ splitScopes h1 startLine p = some st ∧ st.scs = scs ∧ sc ∈ st.scs ∧
      chainText st.heap sc.node = some (tokText g) ∧ ∀ l, Fwd st.heap sc.node l → kindsOf st.heap l = g.map Prod.fst := by
  obtain ⟨h1, p, l, st, h'', P⟩ := parsed ho w ac startLine text
  have ep := P.parse
  rw [e] at ep
  simp only [Option.some.injEq, Prod.mk.injEq] at ep
  obtain ⟨rfl, rfl⟩ := ep
  refine ⟨h1, p, st, P.extract, P.split, rfl, List.mem_of_getElem? hsc, ?_⟩
  rw [P.scs, List.getElem?_map] at hsc
  rw [P.sections ho, List.getElem?_map] at hg
  cases hd : (divide h1 (startLine - 1) l).2[i]? with
  | none => rw [hd] at hsc; cases hsc
  | some gg =>
    rw [hd] at hsc hg
    simp only [Option.map_some, Option.some.injEq] at hsc hg
    subst hsc hg
    have hm := List.mem_of_getElem? hd
    obtain ⟨a, gg, rfl⟩ := List.exists_cons_of_ne_nil (divide_ne_nil _ _ _ gg hm)
    have f := (P.groups _ hm).fwd
    refine ⟨?_, ?_⟩
    · have := chainText_eq f
      show chainText st.heap (some a) = _
      rw [List.head?_cons] at this
      rw [this, tokText_kt]
      simp only [textOf, (P.data2.2 _).2.2]
    · intro l' f'
      cases f'.det f
      simp only [kindsOf, kt, List.map_map, Function.comp_def, (P.data2.2 _).2.1]

end Goast
