import Verif.Spec.Pick
import Verif.Props.EditOne

/-!
# C88: declarations picked out of several files
-/

namespace Goast
open Heap

variable {h : Heap}

/-! ## The text a look shows -/

/-- The text in a look. -/
def Look.text (v : Look) : Option Bytes := v.nodes.map fun l => (l.map fun x => x.2.2).flatten

theorem loop_concat {β : Type} (nx : Addr → Ptr) (f : Addr → β) (t : β → Bytes) : ∀ (fuel : Nat) (s : List β) (n : Ptr),
    (loop (fun _ a => nx a) (fun (s : List β) a => some (s ++ [f a], true)) fuel s n).map (fun r => (r.1.map t).flatten) =
      (loop (fun _ a => nx a) (fun (s : Bytes) a => some (s ++ t (f a), true)) fuel (s.map t).flatten n).map (·.1)
  | _, _, none => by simp [loop]
  | 0, _, some _ => by simp [loop]
  | fuel + 1, s, some a => by
    have := loop_concat nx f t fuel (s ++ [f a]) (nx a)
    simp only [loop]
    simpa using this

theorem look_text (h : Heap) (sc : ScopeRec) : (sc.look h).text = chainText h sc.node := by
  have := loop_concat (fun a => h.next (some a)) (fun a => (h.line (some a), h.kind (some a), h.text (some a))) (fun x => x.2.2) (h.size + 1) [] sc.node
  simp only [Look.text, ScopeRec.look, chainText, iterNext, Option.map_map]
  exact this

theorem Look.below_text (n : Int) (v : Look) : (v.below n).text = v.text := by
  cases v with | mk k li nd _ _ _ _ _ _ =>
  cases nd with
  | none => rfl
  | some xs => simp [Look.text, Look.below, Function.comp_def]

theorem Look.below_below (n m : Int) (v : Look) : (v.below n).below m = v.below (n + m) := by
  cases v with | mk k li nd _ _ _ _ _ _ =>
  cases nd with
  | none => simp [Look.below, Int.add_assoc]
  | some xs => simp [Look.below, Int.add_assoc, Function.comp_def]

/-- The text in several looks. -/
def looksText : List Look → Option Bytes
  | [] => some []
  | v :: vs => match v.text with
    | none => none
    | some t => (looksText vs).map (t ++ ·)

theorem looksText_eq (h : Heap) : ∀ T : List ScopeRec, looksText (T.map (ScopeRec.look h)) = scopesText h T
  | [] => rfl
  | sc :: T => by simp only [List.map_cons, looksText, look_text, looksText_eq h T, scopesText]; rfl

theorem looksText_below (n : Int) : ∀ vs : List Look, looksText (vs.map (Look.below n)) = looksText vs
  | [] => rfl
  | v :: vs => by simp only [List.map_cons, looksText, Look.below_text, looksText_below n vs]

theorem part_looksText {d : Bytes} (p : Part d) : looksText (looks 0 d) = some d := by
  obtain ⟨h0, scs0, e, l⟩ := parse_looks_empty 0 d
  rw [← l, looksText_eq]
  exact part_text p e rfl

/-! ## The declarations of a file -/

theorem split_file : ∀ (ds : List Bytes), (∀ d ∈ ds, Whole d ∧ BeginsScope d) → ∀ (n : Int) (scs : List ScopeRec),
    oneByOne n ds = some (scs.map (ScopeRec.look h)) →
    ∃ bs : List (List ScopeRec), bs.flatten = scs ∧ bs.length = ds.length ∧
      ∀ d off b, (d, off, b) ∈ ds.zip ((linesAbove n ds).zip bs) → b.map (ScopeRec.look h) = (looks 0 d).map (Look.below off)
  | [], _, n, scs, e => by
    simp only [oneByOne, Option.some.injEq] at e
    exact ⟨[], by simpa using e, rfl, by simp⟩
  | d :: ds, hd, n, scs, e => by
    obtain ⟨h0, scs0, e0, l0⟩ := parse_looks_empty 0 d
    simp only [oneByOne, e0] at e
    cases ho : oneByOne (n + countNL d) ds with
    | none => rw [ho] at e; cases e
    | some vs =>
      rw [ho] at e
      simp only [Option.some.injEq] at e
      obtain ⟨b, rest, rfl, e1, e2⟩ := List.map_eq_append_iff.1 e.symm
      obtain ⟨bs, f1, f2, f3⟩ := split_file ds (fun x hx => hd x (by simp [hx])) (n + countNL d) rest (by rw [ho, e2])
      refine ⟨b :: bs, by simp [f1], by simp [f2], ?_⟩
      intro d' off b' hm
      simp only [linesAbove, List.zip_cons_cons, List.mem_cons, Prod.mk.injEq] at hm
      rcases hm with ⟨rfl, rfl, rfl⟩ | hm
      · rw [e1, ← l0, List.map_map]; rfl
      · exact f3 d' off b' hm

/-! ## C88 -/

theorem picked_text : ∀ {sel : List Decl}, (∀ d ∈ sel, Part d.text ∧ d.scopes.map (ScopeRec.look h) = (looks 0 d.text).map (Look.below d.above)) →
    scopesText h (sel.flatMap Decl.scopes) = some (sel.flatMap Decl.text)
  | [], _ => rfl
  | d :: sel, hs => by
    obtain ⟨p, l⟩ := hs d (by simp)
    rw [List.flatMap_cons, List.flatMap_cons]
    refine scopesText_append' _ _ ?_ (picked_text fun x hx => hs x (by simp [hx]))
    rw [← looksText_eq, l, looksText_below, part_looksText p]

theorem picked_looks : ∀ {sel : List Decl}, (∀ d ∈ sel, d.scopes.map (ScopeRec.look h) = (looks 0 d.text).map (Look.below d.above)) → ∀ n : Int,
    oneByOne n (sel.map Decl.text) = some (restacked h n sel)
  | [], _, _ => rfl
  | d :: sel, hs, n => by
    have l := hs d (by simp)
    obtain ⟨h0, scs0, e, l0⟩ := parse_looks_empty 0 d.text
    have ih := picked_looks (sel := sel) (fun x hx => hs x (by simp [hx])) (n + countNL d.text)
    simp only [List.map_cons, oneByOne, e, ih, restacked]
    rw [show (scs0.map fun sc => (sc.look h0).below n) = (scs0.map (ScopeRec.look h0)).map (Look.below n) from by rw [List.map_map]; rfl, l0,
      show (d.scopes.map fun sc => (sc.look h).below (n - d.above)) = (d.scopes.map (ScopeRec.look h)).map (Look.below (n - d.above)) from by rw [List.map_map]; rfl,
      l, List.map_map]
    congr 2
    refine List.map_congr_left fun v _ => ?_
    rw [Function.comp_apply, Look.below_below]
    congr 1
    omega

/-- The declarations of a file, with the lines above each and its scopes. -/
def declsOf (ds : List Bytes) (bs : List (List ScopeRec)) : List Decl := (ds.zip ((linesAbove 0 ds).zip bs)).map fun x => ⟨x.1, x.2.1, x.2.2⟩

theorem linesAbove_length : ∀ (ds : List Bytes) (n : Int), (linesAbove n ds).length = ds.length
  | [], _ => rfl
  | _ :: ds, n => by simp [linesAbove, linesAbove_length ds]

theorem declsOf_scopes : ∀ (ds : List Bytes) (n : Int) (bs : List (List ScopeRec)), bs.length = ds.length →
    ((ds.zip ((linesAbove n ds).zip bs)).map fun x => (⟨x.1, x.2.1, x.2.2⟩ : Decl)).flatMap Decl.scopes = bs.flatten ∧
    ((ds.zip ((linesAbove n ds).zip bs)).map fun x => (⟨x.1, x.2.1, x.2.2⟩ : Decl)).map (fun d => (d.text, d.above)) = ds.zip (linesAbove n ds)
  | [], _, [], _ => by simp
  | d :: ds, n, b :: bs, hl => by
    obtain ⟨a, c⟩ := declsOf_scopes ds (n + d.count 10) bs (by simpa using hl)
    simp only [linesAbove, List.zip_cons_cons, List.map_cons, List.flatMap_cons, List.flatten_cons]
    exact ⟨by rw [a], by rw [c]⟩

theorem pick (o : Heap) {jobs : List ((Nat → List (Bytes × Ext)) × List Bytes)} (ho : ∀ j ∈ jobs, MapOrder j.1)
    (hj : ∀ j ∈ jobs, ∀ d ∈ j.2, Whole d ∧ BeginsScope d) :
    ∃ h, ∃ files : List (List Decl), parseMany o (jobs.map fun j => (j.1, 0, j.2.flatten)) = some (h, files.map fun ds : List Decl => ds.flatMap Decl.scopes) ∧
      (files.map fun ds => ds.map fun d => (d.text, d.above)) = jobs.map (fun j => j.2.zip (linesAbove 0 j.2)) ∧
      (∀ ds ∈ files, ∀ d ∈ ds, d.scopes.map (ScopeRec.look h) = (looks 0 d.text).map (Look.below d.above)) ∧
      ∀ sel : List Decl, (∀ d ∈ sel, Part d.text ∧ ∃ ds ∈ files, d ∈ ds) →
        scopesText h (sel.flatMap Decl.scopes) = some (sel.flatMap Decl.text) ∧ oneByOne 0 (sel.map Decl.text) = some (restacked h 0 sel) := by
  obtain ⟨h, scss, e, _, v⟩ := C59_history o (jobs.map fun j => (j.1, 0, j.2.flatten)) (by
    intro j hj
    obtain ⟨i, hi, rfl⟩ := List.mem_map.1 hj
    exact ho i hi)
  have key : ∀ (jobs : List ((Nat → List (Bytes × Ext)) × List Bytes)) (scss : List (List ScopeRec)), (∀ j ∈ jobs, ∀ d ∈ j.2, Whole d ∧ BeginsScope d) →
      scss.map (fun scs => some (scopesView h scs)) =
        (jobs.map fun j => (j.1, (0 : Int), j.2.flatten)).map (fun j => (parseScope Heap.empty j.2.1 j.2.2).map fun r => scopesView r.1 r.2) →
      ∃ files : List (List Decl), (files.map fun ds : List Decl => ds.flatMap Decl.scopes) = scss ∧
        (files.map fun ds => ds.map fun d => (d.text, d.above)) = jobs.map (fun j => j.2.zip (linesAbove 0 j.2)) ∧
        ∀ ds ∈ files, ∀ d ∈ ds, d.scopes.map (ScopeRec.look h) = (looks 0 d.text).map (Look.below d.above) := by
    intro jobs
    induction jobs with
    | nil =>
      intro scss _ v
      cases scss with
      | nil => exact ⟨[], rfl, rfl, by simp⟩
      | cons _ _ => simp at v
    | cons j jobs ih =>
      intro scss hj v
      cases scss with
      | nil => simp at v
      | cons scs scss =>
        simp only [List.map_cons, List.cons.injEq] at v
        obtain ⟨files, f1, f2, f3⟩ := ih scss (fun x hx => hj x (by simp [hx])) v.2
        obtain ⟨h0, scs0, e0, l0⟩ := parse_looks_empty 0 j.2.flatten
        rw [e0, Option.map_some, Option.some.injEq] at v
        have lk := part_looks e0 v.1
        obtain ⟨bs, b1, b2, b3⟩ := split_file (h := h) j.2 (hj j (by simp)) 0 scs (by
          rw [(looks_file j.2 (hj j (by simp)) 0).1, lk, show Look.below 0 = id from funext Look.below_zero, List.map_id])
        obtain ⟨c1, c2⟩ := declsOf_scopes j.2 0 bs b2
        refine ⟨declsOf j.2 bs :: files, ?_, ?_, ?_⟩
        · rw [List.map_cons, f1, declsOf, c1, b1]
        · rw [List.map_cons, List.map_cons, f2, declsOf, c2]
        · intro ds hds d hd
          rcases List.mem_cons.1 hds with rfl | hds
          · obtain ⟨x, hx, rfl⟩ := List.mem_map.1 hd
            exact b3 x.1 x.2.1 x.2.2 hx
          · exact f3 ds hds d hd
  obtain ⟨files, f1, f2, f3⟩ := key jobs scss hj v
  refine ⟨h, files, by rw [e, f1], f2, f3, fun sel hs => ⟨picked_text fun d hd => ?_, picked_looks (fun d hd => ?_) 0⟩⟩
  · obtain ⟨p, ds, h1, h2⟩ := hs d hd
    exact ⟨p, f3 ds h1 d h2⟩
  · obtain ⟨p, ds, h1, h2⟩ := hs d hd
    exact f3 ds h1 d h2

theorem picked_package : ∀ {scs : List ScopeRec}, (∃ t, scopesText h scs = some t) → (∃ sc ∈ scs, sc.kind = .package_) →
    ∃ p, findPackageName h scs = some (.ok p) := by
  intro scs ht hk
  have total : ∀ (nx : Addr → Ptr) {σ τ : Type} (f : σ → Addr → σ × Bool) (g : τ → Addr → τ) (fuel : Nat) (n : Ptr) (s : σ) (t : τ),
      (loop (fun _ a => nx a) (fun t a => some (g t a, true)) fuel t n).isSome → (loop (fun _ a => nx a) (fun s a => some (f s a)) fuel s n).isSome := by
    intro nx σ τ f g fuel
    induction fuel with
    | zero =>
      intro n s t e
      cases n with
      | none => simp [loop]
      | some a => simp [loop] at e
    | succ fuel ih =>
      intro n s t e
      cases n with
      | none => simp [loop]
      | some a =>
        simp only [loop] at e ⊢
        rcases hf : f s a with ⟨s', b⟩
        cases b
        · simp
        · exact ih (nx a) s' _ e
  have chain : ∀ (scs : List ScopeRec), (∃ t, scopesText h scs = some t) → ∀ sc ∈ scs, (chainText h sc.node).isSome := by
    intro scs
    induction scs with
    | nil => intro _ sc hsc; cases hsc
    | cons x scs ih =>
      rintro ⟨t, ht⟩ sc hsc
      simp only [scopesText] at ht
      cases hc : chainText h x.node with
      | none => rw [hc] at ht; cases ht
      | some u =>
        rw [hc] at ht
        simp only at ht
        rcases List.mem_cons.1 hsc with rfl | hsc
        · rw [hc]; rfl
        · cases hs : scopesText h scs with
          | none => rw [hs] at ht; cases ht
          | some s => exact ih ⟨s, hs⟩ sc hsc
  unfold findPackageName
  cases hf : scs.find? (fun sc => decide (sc.kind = .package_)) with
  | none =>
    obtain ⟨sc, hsc, hk⟩ := hk
    have := List.find?_eq_none.1 hf sc hsc
    simp [hk] at this
  | some sc =>
    have c := chain scs ht sc (List.mem_of_find?_eq_some hf)
    simp only [chainText, iterNext, Option.isSome_map] at c
    have := total (fun a => h.next (some a)) (fun (appeared : Bool) a =>
      if appeared && decide (h.kind (some a) = .raw) then (appeared, false)
      else if h.kind (some a) = .package_ then (true, true)
      else (appeared, true)) (fun (buf : Bytes) a => buf ++ h.text (some a)) (h.size + 1) sc.node false [] c
    simp only [findPackageNode, iterNext]
    obtain ⟨r, hr⟩ := Option.isSome_iff_exists.1 this
    rw [hr]
    exact ⟨_, rfl⟩

/-- `ParseAst` on a file of declarations. -/
theorem read_again (env : Env) (spare : Nat) (fs : FS) (st : AState) {ds : List Bytes} (hd : ∀ d ∈ ds, Whole d ∧ BeginsScope d)
    (hp : ∃ rest, b!"package " ++ rest ∈ ds) {file name : Bytes} (hn : IsGoName file name) (c1 : fs name = some ds.flatten)
    (o3 : env.formatSource ds.flatten = some ds.flatten) (o1 : env.openDenied name = false) (o2 : env.readFails name = false) :
    ∃ st' ast', parseAst env spare fs st file = some (.ok (st', ast')) ∧ (ast'.scopes st').map (ScopeRec.look st'.heap) = looks 0 ds.flatten := by
  obtain ⟨h2, scs2, r1, _, r3⟩ := C39_parsed env spare fs ⟨Heap.empty, []⟩ wf_empty acyclic_empty hn c1 o1 o2 o3
  obtain ⟨st2, f2, s1, _, _, _, _, s2, s3, _⟩ := r3 (package_scope wf_empty acyclic_empty (package_section hd hp) r1)
  rcases C59_ast env spare spare fs fs st ⟨Heap.empty, []⟩ hn rfl with ⟨er, _, b⟩ | ⟨st', ast', st3, f3, a, b, _, _, _, _, v, _⟩
  · rw [s1] at b; cases b
  rw [s1] at b
  simp only [Option.some.injEq, Except.ok.injEq, Prod.mk.injEq] at b
  obtain ⟨rfl, rfl⟩ := b
  rw [s2, s3] at v
  exact ⟨st', ast', a, part_looks r1 v⟩

/-- **C88** A program parses any number of files made of declarations, one after another, from any state.  The scopes of each file are those of its
declarations, one after another, and each declaration stands below the lines of those above it.  Now let it put together the scopes of any declarations,
from any of the files, in any order, also several times: if each picked declaration keeps its text (C64), `Save` of an `Ast` with these scopes
concatenates their texts; and what a parse of these texts one by one shows is what the scopes show now, moved to their new lines. -/
theorem C88_pick (o : Heap) {jobs : List ((Nat → List (Bytes × Ext)) × List Bytes)} (ho : ∀ j ∈ jobs, MapOrder j.1)
    (hj : ∀ j ∈ jobs, ∀ d ∈ j.2, Whole d ∧ BeginsScope d) :
    ∃ h, ∃ files : List (List Decl), parseMany o (jobs.map fun j => (j.1, 0, j.2.flatten)) = some (h, files.map fun ds => ds.flatMap Decl.scopes) ∧
      (files.map fun ds => ds.map fun d => (d.text, d.above)) = jobs.map (fun j => j.2.zip (linesAbove 0 j.2)) ∧
      (∀ ds ∈ files, ∀ d ∈ ds, oneByOne d.above [d.text] = some (d.scopes.map (ScopeRec.look h))) ∧
      ∀ sel : List Decl, (∀ d ∈ sel, Part d.text ∧ ∃ ds ∈ files, d ∈ ds) →
        scopesText h (sel.flatMap Decl.scopes) = some (sel.flatMap Decl.text) ∧ oneByOne 0 (sel.map Decl.text) = some (restacked h 0 sel) := by
  obtain ⟨h, files, e, f2, f3, f4⟩ := pick o ho hj
  refine ⟨h, files, e, f2, fun ds hds d hd => ?_, f4⟩
  have : Whole d.text ∧ BeginsScope d.text := by
    have : (ds.map fun d => (d.text, d.above)) ∈ jobs.map (fun j => j.2.zip (linesAbove 0 j.2)) := by
      rw [← f2]; exact List.mem_map.2 ⟨ds, hds, rfl⟩
    obtain ⟨j, hjm, ej⟩ := List.mem_map.1 this
    have : (d.text, d.above) ∈ j.2.zip (linesAbove 0 j.2) := by rw [ej]; exact List.mem_map.2 ⟨d, hd, rfl⟩
    exact hj j hjm _ (List.of_mem_zip this).1
  rw [(looks_file [d.text] (by intro x hx; rw [List.mem_singleton] at hx; rw [hx]; exact this) d.above).1, f3 ds hds d hd]
  simp

/-- **C88** Reorganise two files.  A program parses any files made of declarations and makes two `Ast`s, each from the scopes of declarations picked
out of any of the files: to move a declaration from one file to another, to sort a file, to split it, to copy parts of it.  Every picked declaration keeps its text
(C64), and there is a package clause in both selections.  `NewAst` accepts both; after `Save` of the first under one name and of the second under another, the files hold
exactly the picked texts, no other file has changed; and if both are formatted, `ParseAst` on each shows the picked scopes as they were, only on their new lines. -/
theorem C88_save (o : Heap) {jobs : List ((Nat → List (Bytes × Ext)) × List Bytes)} (ho : ∀ j ∈ jobs, MapOrder j.1)
    (hj : ∀ j ∈ jobs, ∀ d ∈ j.2, Whole d ∧ BeginsScope d) :
    ∃ h, ∃ files : List (List Decl), parseMany o (jobs.map fun j => (j.1, 0, j.2.flatten)) = some (h, files.map fun ds => ds.flatMap Decl.scopes) ∧
      (files.map fun ds => ds.map fun d => (d.text, d.above)) = jobs.map (fun j => j.2.zip (linesAbove 0 j.2)) ∧
      ∀ a b : List Decl, (∀ d ∈ a ++ b, Part d.text ∧ ∃ ds ∈ files, d ∈ ds) → (∃ d ∈ a, ∃ rest, d.text = b!"package " ++ rest) →
        (∃ d ∈ b, ∃ rest, d.text = b!"package " ++ rest) →
        ∀ (st : AState) (f g : AstRec), st.heap = h → f.scopes st = a.flatMap Decl.scopes → g.scopes st = b.flatMap Decl.scopes →
          newAst st f.scope = some (.ok ⟨[], [], [], [], f.scope⟩) ∧ newAst st g.scope = some (.ok ⟨[], [], [], [], g.scope⟩) ∧
          ∀ (env : Env) (spare spare' : Nat) (fs : FS) (fileA fileB nameA nameB : Bytes), IsGoName fileA nameA → IsGoName fileB nameB → nameA ≠ nameB →
            (∀ t, t = a.flatMap Decl.text ∨ t = b.flatMap Decl.text → env.formatSource t = some t ∧ ∀ name, env.writeFailsAfter name t = none) →
            (∀ name, name = nameA ∨ name = nameB → env.mkdirOk (env.dir name) = true ∧ env.createOk name = true ∧ env.openDenied name = false ∧
              env.readFails name = false) →
            ∃ fs1 fs2 stA astA stB astB, f.save env fs st fileA [] = some (fs1, none) ∧ g.save env fs1 st fileB [] = some (fs2, none) ∧
              fs2 nameA = some (a.flatMap Decl.text) ∧ fs2 nameB = some (b.flatMap Decl.text) ∧
              (∀ other, other ≠ nameA → other ≠ nameB → fs2 other = fs other) ∧
              parseAst env spare fs2 st fileA = some (.ok (stA, astA)) ∧ (astA.scopes stA).map (ScopeRec.look stA.heap) = restacked h 0 a ∧
              parseAst env spare' fs2 stA fileB = some (.ok (stB, astB)) ∧ (astB.scopes stB).map (ScopeRec.look stB.heap) = restacked h 0 b := by
  obtain ⟨h, files, e, f2, f3, f4⟩ := pick o ho hj
  refine ⟨h, files, e, f2, fun a b hs pa pb st f g eh ef eg => ?_⟩
  have good : ∀ sel : List Decl, (∀ d ∈ sel, Part d.text ∧ ∃ ds ∈ files, d ∈ ds) → ∀ d ∈ sel.map Decl.text, Whole d ∧ BeginsScope d := by
    intro sel hs d hd
    obtain ⟨x, hx, rfl⟩ := List.mem_map.1 hd
    exact ⟨(hs x hx).1.whole, (hs x hx).1.begins⟩
  have flat : ∀ sel : List Decl, sel.flatMap Decl.text = (sel.map Decl.text).flatten := fun sel => by rw [List.flatMap_def]
  have hpk : ∀ sel : List Decl, (∃ d ∈ sel, ∃ rest, d.text = b!"package " ++ rest) → ∃ rest, b!"package " ++ rest ∈ sel.map Decl.text := by
    rintro sel ⟨d, hd, rest, er⟩
    exact ⟨rest, List.mem_map.2 ⟨d, hd, er⟩⟩
  have na : ∀ (sel : List Decl) (x : AstRec), (∀ d ∈ sel, Part d.text ∧ ∃ ds ∈ files, d ∈ ds) → (∃ d ∈ sel, ∃ rest, d.text = b!"package " ++ rest) →
      x.scopes st = sel.flatMap Decl.scopes → newAst st x.scope = some (.ok ⟨[], [], [], [], x.scope⟩) := by
    intro sel x hs hp ex
    obtain ⟨p, ep⟩ := picked_package (h := h) ⟨_, (f4 sel hs).1⟩ (by
      obtain ⟨d, hd, rest, er⟩ := hp
      obtain ⟨pt, ds, h1, h2⟩ := hs d hd
      obtain ⟨h0, scs0, e0, l0⟩ := parse_looks_empty 0 d.text
      have q := package_section (ds := [d.text]) (by
        intro y hy
        rw [List.mem_singleton] at hy
        subst hy
        exact ⟨pt.whole, pt.begins⟩) ⟨rest, by rw [er]; simp⟩
      rw [List.flatten_singleton] at q
      obtain ⟨sc, hsc, hk⟩ := package_scope wf_empty acyclic_empty q e0
      have m : (sc.look h0).below d.above ∈ d.scopes.map (ScopeRec.look h) := by
        rw [f3 ds h1 d h2, ← l0, List.map_map]
        exact List.mem_map.2 ⟨sc, hsc, rfl⟩
      obtain ⟨sc', hsc', e'⟩ := List.mem_map.1 m
      refine ⟨sc', List.mem_flatMap.2 ⟨d, hd, hsc'⟩, ?_⟩
      have := congrArg Look.kind e'
      exact this.trans hk)
    have ex' : st.elems x.scope = sel.flatMap Decl.scopes := ex
    rw [newAst, ex', eh, ep]
    rfl
  have ha : ∀ d ∈ a, Part d.text ∧ ∃ ds ∈ files, d ∈ ds := fun d hd => hs d (by simp [hd])
  have hb : ∀ d ∈ b, Part d.text ∧ ∃ ds ∈ files, d ∈ ds := fun d hd => hs d (by simp [hd])
  have lk : ∀ sel : List Decl, (∀ d ∈ sel, Part d.text ∧ ∃ ds ∈ files, d ∈ ds) → looks 0 (sel.map Decl.text).flatten = restacked h 0 sel := by
    intro sel hs
    have := (f4 sel hs).2
    rw [(looks_file _ (good sel hs) 0).1, Option.some.injEq, show Look.below 0 = id from funext Look.below_zero, List.map_id] at this
    exact this
  refine ⟨na a f ha pa ef, na b g hb pb eg, ?_⟩
  intro env spare spare' fs fileA fileB nameA nameB nA nB hne ok okn
  obtain ⟨a3, a4⟩ := ok _ (.inl rfl)
  obtain ⟨b3, b4⟩ := ok _ (.inr rfl)
  obtain ⟨a5, a6, a7, a8⟩ := okn _ (.inl rfl)
  obtain ⟨b5, b6, b7, b8⟩ := okn _ (.inr rfl)
  rw [flat] at a3 b3 ⊢
  rw [flat b]
  obtain ⟨fs1, _, _, u1, u2, u3, _, _⟩ := save_again env spare fs st f (good a ha) (hpk a pa) (by rw [eh, ef, (f4 a ha).1, flat]) nA a3 a5 a6
    (by rw [← flat]; exact a4 nameA) a7 a8
  obtain ⟨fs2, _, _, v1, v2, v3, _, _⟩ := save_again env spare fs1 st g (good b hb) (hpk b pb) (by rw [eh, eg, (f4 b hb).1, flat]) nB b3 b5 b6
    (by rw [← flat]; exact b4 nameB) b7 b8
  obtain ⟨stA, astA, x1, x2⟩ := read_again env spare fs2 st (good a ha) (hpk a pa) nA (by rw [v3 nameA hne, u2]) a3 a7 a8
  obtain ⟨stB, astB, y1, y2⟩ := read_again env spare' fs2 stA (good b hb) (hpk b pb) nB v2 b3 b7 b8
  exact ⟨fs1, fs2, stA, astA, stB, astB, u1, v1, by rw [v3 nameA hne, u2], v2, fun other h1 h2 => by rw [v3 other h2, u3 other h1], x1,
    by rw [x2, lk a ha], y1, by rw [y2, lk b hb]⟩

/-! ## The hypotheses can be met -/

set_option maxRecDepth 100000 in
/-- The declarations of two files. -/
example : ∀ d ∈ [b!"package a\n\n", b!"func F() {}\n\n", b!"type T int\n", b!"func G() {}\n\n"], Part d ∧ Whole d ∧ BeginsScope d := by
  have : ∀ d ∈ [b!"package a\n\n", b!"func F() {}\n\n", b!"type T int\n", b!"func G() {}\n\n"], Part d := by
    intro d hd
    simp only [List.mem_cons, List.not_mem_nil, or_false] at hd
    rcases hd with rfl | rfl | rfl | rfl
    · exact ⟨by decide +kernel, ⟨⟨⟨b!"package", false⟩, by decide +kernel⟩, by decide +kernel⟩, checked (by decide +kernel)⟩
    · exact ⟨by decide +kernel, ⟨⟨⟨b!"func", false⟩, by decide +kernel⟩, by decide +kernel⟩, checked (by decide +kernel)⟩
    · exact ⟨by decide +kernel, ⟨⟨⟨b!"type", false⟩, by decide +kernel⟩, by decide +kernel⟩, checked (by decide +kernel)⟩
    · exact ⟨by decide +kernel, ⟨⟨⟨b!"func", false⟩, by decide +kernel⟩, by decide +kernel⟩, checked (by decide +kernel)⟩
  exact fun d hd => ⟨this d hd, (this d hd).whole, (this d hd).begins⟩

set_option maxRecDepth 100000 in
/-- `F` moves from the first file to the end of the second, behind `G`: the package clause of the second file, `G`, and `F`, which was on line 3 of its file and is on
line 5 now. -/
example : (parseMany Heap.empty [(fun _ => commonDeeperExtract, 0, b!"package a\n\nfunc F() {}\n\ntype T int\n"),
      (fun _ => commonDeeperExtract, 0, b!"package a\n\nfunc G() {}\n\n")]).bind (fun r =>
    match r.2 with
    | [[_, f, _], [p, g]] => some ((restacked r.1 0 [⟨b!"package a\n\n", 0, [p]⟩, ⟨b!"func G() {}\n\n", 2, [g]⟩, ⟨b!"func F() {}\n\n", 2, [f]⟩]).map
        fun v => (v.kind, v.line, v.funcName))
    | _ => none) =
    some [(.package_, 1, some ([], false)), (.func_, 3, some (b!"G", true)), (.func_, 5, some (b!"F", true))] := by cbv

/-- The lines above the declarations of a file. -/
example : linesAbove 0 [b!"package a\n\n", b!"func F() {}\n\n", b!"type T int\n"] = [0, 2, 4] := by decide +kernel

end Goast
