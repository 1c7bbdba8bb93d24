import Verif.Props.RewriteCheck

/-!
# C68: rewrite, save and parse again
-/

namespace Goast
open Heap

set_option maxRecDepth 1000000

/-- **C68** Rewrite the words of a file by their labels, save and parse again, for every tool `g`: the saved file is the text of the labelled tokens, each
rewritten; and if that is formatted and its sections declare `ens`, the getters of the new `Ast` answer so. -/
theorem C68_again (env : Env) (spare spare' : Nat) (fs : FS) (st : AState) (w : WF st.heap) (ac : Acyclic st.heap) {file name data : Bytes}
    {gs' : List (List Token)} (L : LabelledAll (sectionsOf 0 data).2 gs')
    (hp : ∃ g ∈ (sectionsOf 0 data).2, ∃ t, g.head? = some t ∧ b!"package".isPrefixOf t.2)
    (hn : IsGoName file name) (hf : fs name = some data)
    (o1 : env.openDenied name = false) (o2 : env.readFails name = false) (o3 : env.formatSource data = some data)
    (g : Kind → Bytes → Bytes) {new : Bytes} (en : new = (gs'.flatten.map fun t => g t.1 t.2).flatten) {ens : List Entry}
    (D : DeclaresAll (sectionsOf 0 new).2 ens) (hp' : ∃ g ∈ (sectionsOf 0 new).2, ∃ t, g.head? = some t ∧ b!"package".isPrefixOf t.2)
    (o3' : env.formatSource new = some new) (o4 : env.mkdirOk (env.dir name) = true) (o5 : env.createOk name = true)
    (o6 : env.writeFailsAfter name new = none) :
    ∃ st1 ast st2 fs' st3 ast', parseAst env spare fs st file = some (.ok (st1, ast)) ∧ rewriteAll g st1 ast = some st2 ∧
      ast.save env fs st2 file [] = some (fs', none) ∧ fs' name = some new ∧ (∀ other, other ≠ name → fs' other = fs other) ∧
      parseAst env spare' fs' st2 file = some (.ok (st3, ast')) ∧
      (ast'.scopes st3).map (ScopeRec.card st3.heap) = ens.map fun e => some e.card := by
  obtain ⟨st1, ast, st2, p1, p2, w2, ac2, p3⟩ := C68_file env spare fs st w ac L hp hn hf o1 o2 o3 g
  rw [← en] at p3
  have hne : new ≠ [] := by
    rintro rfl
    obtain ⟨x, hx, -⟩ := hp'
    have : (sectionsOf 0 []).2 = [] := by decide
    rw [this] at hx
    cases hx
  have ok := C37_save_ok env fs file new name new [] hn (by unfold IsOutput; rw [if_neg (by simp)]; exact .inl o3')
  have hno := ok.1.2 ⟨hne, o4, o5, o6⟩
  obtain ⟨c1, c2⟩ := ok.2 hno
  have p4 := p3 env fs file []
  obtain ⟨h3, scs3, q1, q2⟩ := C66_contents mapOrder_id w2 ac2 D
  obtain ⟨h3', scs3', r1, _, r3⟩ := C39_parsed env spare' (saveFile env fs file new []).1 st2 w2 ac2 hn c1 o1 o2 o3'
  have r1 : parseScopeOrd (fun _ => commonDeeperExtract) st2.heap 0 new = some (h3', scs3') := r1
  rw [q1] at r1
  simp only [Option.some.injEq, Prod.mk.injEq] at r1
  obtain ⟨rfl, rfl⟩ := r1
  obtain ⟨st3, ast', s1, _, _, _, _, s2, s3, _⟩ := r3 (package_scope w2 ac2 hp' q1)
  refine ⟨st1, ast, st2, _, st3, ast', p1, p2, ?_, c1, fun other ho => c2 other ho, s1, by rw [s2, s3, q2]⟩
  rw [p4, Option.some.injEq, Prod.ext_iff]
  exact ⟨rfl, hno⟩

/-! ## Renaming a type -/

/-- Rename the types called `old`: where they are declared, as the type of a parameter or result, and as receiver. -/
def renameType (old new : Bytes) (k : Kind) (t : Bytes) : Bytes := if (k = .typeName ∨ k = .paramType ∨ k = .methodReceiverType) ∧ t = old then new else t

/-- A file with a type `T`. -/
def withType (name : Bytes) : Bytes :=
  b!"package a\n\ntype " ++ name ++ b!" struct {\n\tT int\n}\n\nfunc (t " ++ name ++ b!") M(u " ++ name ++ b!") " ++ name ++ b!" {\n\treturn u\n}\n"

/-- **C68** The instance: the type `T` is renamed in a file where it is declared, receiver, parameter and result; the field called `T` is left alone.  The saved file
is the one with `Node` for `T`, and parsed again it has the type `Node` with the method `M`. -/
theorem C68_rename_type (env : Env) (spare spare' : Nat) (fs : FS) (st : AState) (w : WF st.heap) (ac : Acyclic st.heap) {file name : Bytes}
    (hn : IsGoName file name) (hf : fs name = some (withType b!"T")) (o1 : env.openDenied name = false) (o2 : env.readFails name = false)
    (o3 : env.formatSource (withType b!"T") = some (withType b!"T")) (o3' : env.formatSource (withType b!"Node") = some (withType b!"Node"))
    (o4 : env.mkdirOk (env.dir name) = true) (o5 : env.createOk name = true) (o6 : env.writeFailsAfter name (withType b!"Node") = none) :
    ∃ st1 ast st2 fs' st3 ast', parseAst env spare fs st file = some (.ok (st1, ast)) ∧ rewriteAll (renameType b!"T" b!"Node") st1 ast = some st2 ∧
      ast.save env fs st2 file [] = some (fs', none) ∧ fs' name = some (withType b!"Node") ∧ (∀ other, other ≠ name → fs' other = fs other) ∧
      parseAst env spare' fs' st2 file = some (.ok (st3, ast')) ∧
      (ast'.scopes st3).map (ScopeRec.card st3.heap) = [Entry.other, .type b!"Node", .method b!"Node" b!"M"].map fun e => some e.card := by
  obtain ⟨gs', hg⟩ : ∃ g₁, labelSections (sectionsOf 0 (withType b!"T")).2 = some g₁ := Option.isSome_iff_exists.1 (by decide +kernel)
  have en : ((labelSections (sectionsOf 0 (withType b!"T")).2).map fun gs => (gs.flatten.map fun t => renameType b!"T" b!"Node" t.1 t.2).flatten) =
      some (withType b!"Node") := by decide +kernel
  rw [hg, Option.map_some, Option.some.injEq] at en
  have pk : ∀ x, ((sectionsOf 0 (withType x)).2.any fun g => g.head?.any fun t => b!"package".isPrefixOf t.2) = true →
      ∃ g ∈ (sectionsOf 0 (withType x)).2, ∃ t, g.head? = some t ∧ b!"package".isPrefixOf t.2 := by
    intro x this
    simp only [List.any_eq_true, Option.any_eq_true] at this
    exact this
  exact C68_again env spare spare' fs st w ac (labelSections_sound hg) (pk _ (by decide +kernel)) hn hf o1 o2 o3 _ en.symm
    (readEntries_sound (by decide +kernel)) (pk _ (by decide +kernel)) o3' o4 o5 o6

example : IsGoName b!"a.go" b!"a.go" ∧ demoEnv.formatSource (withType b!"T") = some (withType b!"T") ∧
    demoEnv.formatSource (withType b!"Node") = some (withType b!"Node") := ⟨.inl ⟨⟨b!"a", rfl⟩, rfl⟩, rfl, rfl⟩

end Goast
