import Verif.Props.Rewrite
import Verif.Props.SectionsCheck

/-!
# C67, C68: cases that meet the hypotheses
-/

namespace Goast
open Heap

set_option maxRecDepth 1000000

/-- The last function of trie.go behind its name and a bracket. -/
def trieRest : Bytes := b!"T comparable](set map[string]T) trie[T] {\n\troot := &trie_[T]{}\n\tfor k, v := range set {\n\t\t_ = root.AddText(k, v)\n\t}\n\n\treturn root\n}\n"

/-- trie.go up to its last function. -/
def trieHead : Bytes := trieGo.take (trieGo.length - (trieRest.length + 13))

/-- trie.go with another name of its last function. -/
def trieNamed (name : Bytes) : Bytes := trieHead ++ (b!"func " ++ name ++ 91 :: trieRest)

theorem trieNamed_old : trieNamed b!"newTrie" = trieGo := by decide +kernel

/-- The table of contents of that file. -/
def trieNamedEntries (name : Bytes) : List Entry := trieEntries.dropLast ++ [.func name]

/-- **C67** Rename a function of goast's own trie.go: parse, rename, save, parse again.  (Assumed of the environment: the file can be read and
written, and gofmt leaves both files alone.) -/
theorem C67_trie_go (env : Env) (spare spare' : Nat) (fs : FS) (st : AState) (w : WF st.heap) (ac : Acyclic st.heap) {file name new : Bytes} (wn : Word new)
    (hn : IsGoName file name) (hf : fs name = some trieGo) (o1 : env.openDenied name = false) (o2 : env.readFails name = false)
    (o3 : env.formatSource trieGo = some trieGo) (o3' : env.formatSource (trieNamed new) = some (trieNamed new))
    (o4 : env.mkdirOk (env.dir name) = true) (o5 : env.createOk name = true) (o6 : env.writeFailsAfter name (trieNamed new) = none) :
    ∃ st1 ast st2 fs' st3 ast', parseAst env spare fs st file = some (.ok (st1, ast)) ∧ rewriteAll (renameFunc b!"newTrie" new) st1 ast = some st2 ∧
      ast.save env fs st2 file [] = some (fs', none) ∧ fs' name = some (trieNamed new) ∧ (∀ other, other ≠ name → fs' other = fs other) ∧
      parseAst env spare' fs' st2 file = some (.ok (st3, ast')) ∧
      (ast'.scopes st3).map (ScopeRec.card st3.heap) = (trieNamedEntries new).map fun en => some en.card := by
  have en : ∀ x, [(trieHead, trieEntries.dropLast)].flatMap Prod.fst ++ (b!"func " ++ x ++ 91 :: trieRest) ++ ([] : List (Bytes × List Entry)).flatMap Prod.fst = trieNamed x := by
    intro x
    simp [trieNamed]
  obtain ⟨g₁, hg₁⟩ : ∃ g₁, labelSections (sectionsOf 0 trieHead).2 = some g₁ := Option.isSome_iff_exists.1 (by decide +kernel)
  obtain ⟨g₀, hg₀⟩ : ∃ g₀, labelSections (sectionsOf 0 (b!"func " ++ b!"newTrie" ++ 91 :: trieRest)).2 = some g₀ := Option.isSome_iff_exists.1 (by decide +kernel)
  have c0 : (labelSections (sectionsOf 0 (b!"func " ++ b!"newTrie" ++ 91 :: trieRest)).2).any (fun g =>
      match g with
      | [(.func_, a) :: (.space, b) :: (.funcName, c) :: g] => decide (a = b!"func") && decide (b = b!" ") && decide (c = b!"newTrie") && decide ((.funcName, b!"newTrie") ∉ g)
      | _ => false) = true := by decide +kernel
  have c1 : (labelSections (sectionsOf 0 trieHead).2).any (fun g => decide ((.funcName, b!"newTrie") ∉ g.flatten)) = true := by decide +kernel
  rw [hg₁] at c1
  rw [hg₀] at c0
  simp only [Option.any_some, decide_eq_true_eq] at c1 c0
  split at c0
  · rename_i a b c g
    simp only [Bool.and_eq_true, decide_eq_true_eq] at c0
    obtain ⟨⟨⟨rfl, rfl⟩, rfl⟩, c0⟩ := c0
    have := C67_rename env spare spare' fs st w ac (file := file) (name := name) (ds₁ := [(trieHead, trieEntries.dropLast)]) (ds₂ := []) (es := [])
      (old := b!"newTrie") (new := new) (rest := trieRest) (c := 91) (by decide) ⟨by decide, by decide, by decide⟩ wn
      (by
        intro d hd
        rw [List.mem_singleton] at hd
        subst hd
        exact ⟨by decide +kernel, ⟨⟨⟨b!"package", false⟩, by decide +kernel⟩, by decide +kernel⟩, readEntries_sound (by decide +kernel)⟩)
      (by simp) (by decide +kernel) (readEntries_sound (by decide +kernel))
      ⟨trieHead.drop 8, (trieHead, trieEntries.dropLast), by simp, by decide +kernel⟩
      (g₁ := g₁) (g₂ := []) (g₃ := []) (g := g) (by simpa using labelSections_sound hg₁) (labelSections_sound hg₀) .nil
      ⟨c1, c0, by simp, by simp⟩ hn (by rw [en, trieNamed_old]; exact hf) o1 o2 (by rw [en, trieNamed_old]; exact o3) (by rw [en]; exact o3') o4 o5 (by rw [en]; exact o6)
    simp only [en] at this
    simpa [trieNamedEntries] using this
  · cases c0

example : Word b!"makeTrie" ∧ IsGoName b!"trie" b!"trie.go" ∧ demoEnv.formatSource (trieNamed b!"makeTrie") = some (trieNamed b!"makeTrie") :=
  ⟨⟨by decide, by decide, by decide⟩, .inr ⟨by rintro ⟨t, ht⟩; have := congrArg (fun l => l.getLast?) ht; simp at this, rfl⟩, rfl⟩

/-- **C68** A tool that rewrites the words of trie.go by their labels, whatever it writes instead. -/
theorem C68_trie_go (env : Env) (spare : Nat) (fs : FS) (st : AState) (w : WF st.heap) (ac : Acyclic st.heap) {file name : Bytes}
    (hn : IsGoName file name) (hf : fs name = some trieGo)
    (o1 : env.openDenied name = false) (o2 : env.readFails name = false) (o3 : env.formatSource trieGo = some trieGo) (g : Kind → Bytes → Bytes) :
    ∃ gs' st' ast st'', labelSections (sectionsOf 0 trieGo).2 = some gs' ∧ parseAst env spare fs st file = some (.ok (st', ast)) ∧
      rewriteAll g st' ast = some st'' ∧ Saves st'' ast (gs'.flatten.map fun t => g t.1 t.2).flatten := by
  obtain ⟨gs', hg⟩ : ∃ g₁, labelSections (sectionsOf 0 trieGo).2 = some g₁ := Option.isSome_iff_exists.1 (by decide +kernel)
  have hp : ∃ g ∈ (sectionsOf 0 trieGo).2, ∃ t, g.head? = some t ∧ b!"package".isPrefixOf t.2 := by
    have : ((sectionsOf 0 trieGo).2.any fun g => g.head?.any fun t => b!"package".isPrefixOf t.2) = true := by decide +kernel
    simp only [List.any_eq_true, Option.any_eq_true] at this
    exact this
  obtain ⟨st', ast, st'', a1, a2, _, _, a3⟩ := C68_file env spare fs st w ac (labelSections_sound hg) hp hn hf o1 o2 o3 g
  exact ⟨gs', st', ast, st'', hg, a1, a2, a3⟩

end Goast
