import Verif.Proofs.RelocateView
import Verif.Props.Ast

/-!
# C59: a parse depends on the text only
-/

set_option linter.unusedSimpArgs false
set_option linter.unusedVariables false

namespace Goast
open Heap

variable {ord ord' : Nat → List (Bytes × Ext)}

/-- The parse of a text in the empty heap, with all that later proofs use of it. -/
theorem parse_alone (ho : MapOrder ord) (sl : Int) (text : Bytes) :
    ∃ h0 scs0, parseScope Heap.empty sl text = some (h0, scs0) ∧ WF h0 ∧ Acyclic h0 ∧ (∀ sc ∈ scs0, ∃ l, Fwd h0 sc.node l) ∧
      ∀ o : Heap, parseScopeOrd ord o sl text = some (o.beside h0, scs0.map (ScopeRec.moved o.size)) := by
  obtain ⟨h0, scs0, e⟩ := C09_total mapOrder_id wf_empty acyclic_empty sl text
  obtain ⟨w, ac, _⟩ := C12_separate mapOrder_id wf_empty acyclic_empty e
  refine ⟨h0, scs0, e, w, ac, parseScope_nodes mapOrder_id wf_empty acyclic_empty e, fun o => ?_⟩
  have := Reloc.parseScopeOrd (o := o) e
  rw [C09_deterministic mapOrder_id ho] at this
  rwa [show o.beside Heap.empty = o from Reloc.beside_empty o] at this

/-- **C59** `ParseScope` never looks at or changes what was there before it: in any state `o` of the program's nodes (also
one with cycles or broken links), and in whatever order Go iterates over its map, it returns, all earlier nodes stay as they
are, and the new nodes and scopes are those of a parse in the empty state, at other addresses. -/
theorem C59_parse (ho : MapOrder ord) (o : Heap) (startLine : Int) (text : Bytes) :
    ∃ h0 scs0, parseScope Heap.empty startLine text = some (h0, scs0) ∧
      parseScopeOrd ord o startLine text = some (o.beside h0, scs0.map (ScopeRec.moved o.size)) ∧
      Extends o (o.beside h0) := by
  obtain ⟨h0, scs0, e, _, _, _, a⟩ := parse_alone ho startLine text
  exact ⟨h0, scs0, e, a o, extends_beside o h0⟩

/-- **C59** What the API shows of the result is a function of the start line and the text: two parses, in any two states and
with any two map orders, show the same; and every call returns. -/
theorem C59_view (ho : MapOrder ord) (ho' : MapOrder ord') (o o' : Heap) (startLine : Int) (text : Bytes) :
    ∃ h1 scs1 h2 scs2, parseScopeOrd ord o startLine text = some (h1, scs1) ∧
      parseScopeOrd ord' o' startLine text = some (h2, scs2) ∧
      scopesView h1 scs1 = scopesView h2 scs2 ∧ (scopesView h1 scs1).Answered := by
  obtain ⟨h0, scs0, e, _, _, hl, a⟩ := parse_alone ho startLine text
  obtain ⟨h0', scs0', e', _, _, hl', a'⟩ := parse_alone ho' startLine text
  rw [e] at e'
  simp only [Option.some.injEq, Prod.mk.injEq] at e'
  obtain ⟨rfl, rfl⟩ := e'
  have hl2 : ∀ sc ∈ scs0, ∃ l, Fwd h0 sc.node l ∧ ∀ a, sc.node = some a → True :=
    fun sc hsc => (hl sc hsc).imp fun l f => ⟨f, fun _ _ => trivial⟩
  have v1 := (Emb.beside o h0).scopesView hl2
  have v2 := (Emb.beside o' h0).scopesView hl2
  have v1' : scopesView (o.beside h0) (scs0.map (ScopeRec.moved o.size)) = scopesView h0 scs0 := v1.1
  have v2' : scopesView (o'.beside h0) (scs0.map (ScopeRec.moved o'.size)) = scopesView h0 scs0 := v2.1
  exact ⟨_, _, _, _, a o, a' o', by rw [v1', v2'], by rw [v1']; exact v1.2⟩

/-- Parse several texts one after the other; each time Go may iterate over its map in another order. -/
def parseMany : Heap → List ((Nat → List (Bytes × Ext)) × Int × Bytes) → Option (Heap × List (List ScopeRec))
  | h, [] => some (h, [])
  | h, (ord, sl, t) :: rest =>
    match parseScopeOrd ord h sl t with
    | none => none
    | some (h, scs) => (parseMany h rest).map fun r => (r.1, scs :: r.2)

theorem parseMany_spec : ∀ (jobs : List ((Nat → List (Bytes × Ext)) × Int × Bytes)), (∀ j ∈ jobs, MapOrder j.1) → ∀ o : Heap,
    ∃ k scss, parseMany o jobs = some (o.beside k, scss) ∧
      scss.map (fun scs => some (scopesView (o.beside k) scs)) =
        jobs.map (fun j => (parseScope Heap.empty j.2.1 j.2.2).map fun r => scopesView r.1 r.2)
  | [], _, o => ⟨Heap.empty, [], by rw [show o.beside Heap.empty = o from Reloc.beside_empty o]; rfl, rfl⟩
  | (ord, sl, t) :: jobs, ho, o => by
    obtain ⟨h0, scs0, e, w, _, hl, a⟩ := parse_alone (ho (ord, sl, t) (by simp)) sl t
    obtain ⟨k, scss, e1, e2⟩ := parseMany_spec jobs (fun j hj => ho j (by simp [hj])) (o.beside h0)
    rw [beside_assoc] at e1 e2
    refine ⟨h0.beside k, scs0.map (ScopeRec.moved o.size) :: scss, ?_, ?_⟩
    · simp only [parseMany, a o, e1, Option.map_some]
    · simp only [List.map_cons, e2, e, Option.map_some]
      congr 2
      have hl1 : ∀ sc ∈ scs0, ∃ l, Fwd h0 sc.node l ∧ ∀ a, sc.node = some a → a < h0.size :=
        fun sc hsc => (hl sc hsc).imp fun l f => ⟨f, fun a ha => by rw [ha] at f; cases f; assumption⟩
      have E := Emb.of_extends w (extends_beside h0 k)
      have e3 := E.scopesView hl1
      have hid : scs0.map (ScopeRec.at id) = scs0 := by
        rw [show (ScopeRec.at id) = id from funext fun sc => by simp [ScopeRec.at]]
        simp
      rw [hid] at e3
      rw [← e3.1]
      have hl2 : ∀ sc ∈ scs0, ∃ l, Fwd (h0.beside k) sc.node l ∧ ∀ a, sc.node = some a → True := by
        intro sc hsc
        obtain ⟨l, f, hp⟩ := hl1 sc hsc
        have := (E.fwd f hp).1
        simp only [Option.map_id_fun, id_eq, List.map_id_fun] at this
        exact ⟨l, this, fun _ _ => trivial⟩
      exact ((Emb.beside o (h0.beside k)).scopesView hl2).1

/-- **C59** Parses do not disturb each other.  Any number of texts, parsed one after the other from any state: every parse
returns, and what the API shows of each result when all are done is what it shows of a parse of that text alone. -/
theorem C59_history (o : Heap) (jobs : List ((Nat → List (Bytes × Ext)) × Int × Bytes)) (ho : ∀ j ∈ jobs, MapOrder j.1) :
    ∃ h' scss, parseMany o jobs = some (h', scss) ∧ Extends o h' ∧
      scss.map (fun scs => some (scopesView h' scs)) =
        jobs.map (fun j => (parseScope Heap.empty j.2.1 j.2.2).map fun r => scopesView r.1 r.2) := by
  obtain ⟨k, scss, e1, e2⟩ := parseMany_spec jobs ho o
  exact ⟨_, scss, e1, extends_beside o k, e2⟩

/-- **C59** Parsing what was printed.  If the texts of the scopes of a parse give back its input (C14 says when), then parsing
that output again, in the state left by the first parse or any other, shows the same scopes, labels, lines and names. -/
theorem C59_reparse (ho : MapOrder ord) (ho' : MapOrder ord') (o : Heap) {startLine : Int} {text : Bytes} {h1 : Heap} {scs1 : List ScopeRec}
    (e : parseScopeOrd ord o startLine text = some (h1, scs1)) {out : Bytes} (hs : scopesText h1 scs1 = some out) (same : out = text) :
    ∃ h2 scs2, parseScopeOrd ord' h1 startLine out = some (h2, scs2) ∧ scopesView h2 scs2 = scopesView h1 scs1 ∧
      scopesText h2 scs2 = some text := by
  subst same
  obtain ⟨h1', scs1', h2, scs2, e1, e2, v, _⟩ := C59_view ho ho' o h1 startLine out
  rw [e] at e1
  simp only [Option.some.injEq, Prod.mk.injEq] at e1
  obtain ⟨rfl, rfl⟩ := e1
  refine ⟨h2, scs2, e2, v.symm, ?_⟩
  have := congrArg ParseView.text v
  rw [← hs]
  exact this.symm

/-- **C59** `ParseAst` depends on the file's contents only: on two file systems with the same contents at the path, in any two
states, it returns the same error, or two `Ast`s with the same paths and the same scopes as the API shows them. -/
theorem C59_ast (env : Env) (spare spare' : Nat) (fs fs' : FS) (st st' : AState) {file name : Bytes} (hn : IsGoName file name)
    (same : fs name = fs' name) :
    (∃ er, parseAst env spare fs st file = some (.error er) ∧ parseAst env spare' fs' st' file = some (.error er)) ∨
    (∃ s1 f1 s2 f2, parseAst env spare fs st file = some (.ok (s1, f1)) ∧ parseAst env spare' fs' st' file = some (.ok (s2, f2)) ∧
      f1.file = f2.file ∧ f1.dir = f2.dir ∧ f1.name = f2.name ∧ f1.ext = f2.ext ∧
      scopesView s1.heap (f1.scopes s1) = scopesView s2.heap (f2.scopes s2) ∧ (scopesView s1.heap (f1.scopes s1)).Answered) := by
  have e := goName_unique hn
  have hr : readFile env fs file = readFile env fs' file := by simp only [readFile, e, same]
  unfold parseAst
  rw [hr]
  split
  · exact Or.inl ⟨_, rfl, rfl⟩
  · rename_i data _
    obtain ⟨h1, scs1, h2, scs2, e1, e2, v, va⟩ := C59_view mapOrder_id mapOrder_id st.heap st'.heap 0 data
    rw [show parseScope st.heap 0 data = _ from e1, show parseScope st'.heap 0 data = _ from e2]
    have hp : findPackageName h1 scs1 = findPackageName h2 scs2 := congrArg ParseView.package v
    have hx := va.package
    simp only [scopesView] at hx
    obtain ⟨r, hr⟩ := Option.isSome_iff_exists.1 hx
    simp only [← hp, hr, Option.map_some]
    cases r with
    | error er => exact Or.inl ⟨er, rfl, rfl⟩
    | ok t =>
      refine Or.inr ⟨_, _, _, _, rfl, rfl, rfl, rfl, rfl, rfl, ?_⟩
      simp only [AstRec.scopes, AState.elems, AState.newSlice]
      simp
      exact ⟨v, va⟩

/-! ## The hypotheses can be met, and the view distinguishes results -/

set_option maxRecDepth 100000 in
example : (parseMany Heap.empty [((fun _ => commonDeeperExtract), 0, b!"package a\n"), ((fun _ => commonDeeperExtract), 0, b!"type T int\n")]).map (fun r =>
      r.2.map (fun scs => (scopesView r.1 scs).text)) = some [some b!"package a\n", some b!"type T int\n"] := by decide +kernel

set_option maxRecDepth 100000 in
example : ((parseScope Heap.empty 0 b!"package a\nfunc (s *S) Get() {}\n").map fun r => (scopesView r.1 r.2).scopes.map fun v => (v.methodName, v.methodReceiver))
      = some [(some (b!"", false), some (b!"", false)), (some (b!"Get", true), some (b!"*S", true))] := by decide +kernel

end Goast
