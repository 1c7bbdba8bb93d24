import Verif.Spec.Assemble
import Verif.Props.SurviveCheck
import Verif.Props.Pure
import Verif.Props.Rewrite

/-!
# C85: a file assembled from parts that were parsed on their own
-/

namespace Goast
open Heap

variable {ord : Nat → List (Bytes × Ext)} {h : Heap}

/-! ## What a view shows includes the look -/

/-- The look in a view. -/
def ScopeView.look (v : ScopeView) : Look :=
  { kind := v.kind
    line := v.line
    nodes := v.nodes.map (List.map fun x => (x.1.line, x.1.kind, x.1.text))
    funcName := v.funcName
    typeName := v.typeName
    structName := v.structName
    interfaceName := v.interfaceName
    methodReceiver := v.methodReceiver
    methodName := v.methodName }

theorem loop_collect {β γ : Type} (nx : Addr → Ptr) (f : Addr → β) (ρ : β → γ) : ∀ (fuel : Nat) (s : List β) (n : Ptr),
    (loop (fun _ a => nx a) (fun (s : List β) a => some (s ++ [f a], true)) fuel s n).map (fun r => r.1.map ρ) =
      (loop (fun _ a => nx a) (fun (s : List γ) a => some (s ++ [ρ (f a)], true)) fuel (s.map ρ) n).map (·.1)
  | _, _, none => by simp [loop]
  | 0, _, some _ => by simp [loop]
  | fuel + 1, s, some a => by
    have := loop_collect nx f ρ fuel (s ++ [f a]) (nx a)
    simp only [loop]
    simpa using this

theorem view_look (h : Heap) (sc : ScopeRec) : (sc.view h).look = sc.look h := by
  have := loop_collect (fun a => h.next (some a)) (fun a => (h.nodeView (some a), h.nodeView (h.prev (some a))))
    (fun x => (x.1.line, x.1.kind, x.1.text)) (h.size + 1) [] sc.node
  simp only [ScopeView.look, ScopeRec.view, ScopeRec.look, iterNext, Option.map_map]
  exact congrArg (fun x => Look.mk _ _ x _ _ _ _ _ _) this


/-! ## One part -/

/-- A part: a text of whole lines with all its brackets closed, beginning with the first word of a declaration, whose sections all survive. -/
structure Part (text : Bytes) : Prop where
  whole : Whole text
  begins : BeginsScope text
  survives : ∀ g ∈ (sectionsOf 0 text).2, Survives g

/-- What is shown of the scopes of a part after all the parses. -/
theorem part_view {o h : Heap} {jobs : List ((Nat → List (Bytes × Ext)) × Bytes)} (ho : ∀ j ∈ jobs, MapOrder j.1) {scss : List (List ScopeRec)}
    (e : parseMany o (jobs.map fun j => (j.1, 0, j.2)) = some (h, scss)) : scss.length = jobs.length ∧
    ∀ text scs, (text, scs) ∈ (jobs.map Prod.snd).zip scss →
      ∃ h0 scs0, parseScope Heap.empty 0 text = some (h0, scs0) ∧ scopesView h scs = scopesView h0 scs0 := by
  obtain ⟨h', scss', e', _, v⟩ := C59_history o (jobs.map fun j => (j.1, 0, j.2)) (by
    intro j hj
    obtain ⟨i, hi, rfl⟩ := List.mem_map.1 hj
    exact ho i hi)
  rw [e] at e'
  simp only [Option.some.injEq, Prod.mk.injEq] at e'
  obtain ⟨rfl, rfl⟩ := e'
  refine ⟨by simpa using congrArg List.length v, fun text scs hm => ?_⟩
  obtain ⟨i, hi⟩ := List.mem_iff_getElem?.1 hm
  rw [List.getElem?_zip_eq_some, List.getElem?_map] at hi
  obtain ⟨h1, h2⟩ := hi
  have hv := congrArg (fun l => l[i]?) v
  simp only [List.getElem?_map, h2, Option.map_some] at hv
  cases hj : jobs[i]? with
  | none => rw [hj] at h1; cases h1
  | some j =>
    rw [hj] at h1 hv
    simp only [Option.map_some, Option.some.injEq] at h1 hv
    subst h1
    cases hp : parseScope Heap.empty 0 j.2 with
    | none => rw [hp] at hv; cases hv
    | some r =>
      rw [hp] at hv
      exact ⟨r.1, r.2, rfl, by simpa using hv⟩

theorem part_looks {text : Bytes} {scs : List ScopeRec} {h0 : Heap} {scs0 : List ScopeRec} (e : parseScope Heap.empty 0 text = some (h0, scs0))
    (v : scopesView h scs = scopesView h0 scs0) : scs.map (ScopeRec.look h) = looks 0 text := by
  obtain ⟨h1, scs1, e1, l⟩ := parse_looks_empty 0 text
  rw [e] at e1
  simp only [Option.some.injEq, Prod.mk.injEq] at e1
  obtain ⟨rfl, rfl⟩ := e1
  have := congrArg (fun v => v.scopes.map ScopeView.look) v
  simp only [scopesView, List.map_map] at this
  rw [← l]
  have f : ∀ h, (ScopeView.look ∘ ScopeRec.view h) = ScopeRec.look h := fun h => funext fun sc => view_look h sc
  rwa [f, f] at this

theorem part_text {text : Bytes} (p : Part text) {scs : List ScopeRec} {h0 : Heap} {scs0 : List ScopeRec} (e : parseScope Heap.empty 0 text = some (h0, scs0))
    (v : scopesView h scs = scopesView h0 scs0) : scopesText h scs = some text := by
  obtain ⟨h1, scs1, e1, t⟩ := C64_file mapOrder_id wf_empty acyclic_empty (ds := [text]) (by
    intro d hd
    rw [List.mem_singleton] at hd
    subst hd
    exact ⟨p.whole, p.begins⟩) (by
    intro d hd
    rw [List.mem_singleton] at hd
    subst hd
    exact p.survives)
  rw [List.flatten_singleton] at e1 t
  have e1 : parseScope Heap.empty 0 text = some (h1, scs1) := e1
  rw [e] at e1
  simp only [Option.some.injEq, Prod.mk.injEq] at e1
  obtain ⟨rfl, rfl⟩ := e1
  exact (congrArg ParseView.text v).trans t

/-! ## Parts together -/

theorem scopesText_append' : ∀ (a b : List ScopeRec) {s t : Bytes}, scopesText h a = some s → scopesText h b = some t → scopesText h (a ++ b) = some (s ++ t)
  | [], _, _, _, h1, h2 => by cases h1; exact h2
  | sc :: a, b, s, t, h1, h2 => by
    simp only [scopesText, List.cons_append] at h1 ⊢
    cases hc : chainText h sc.node with
    | none => rw [hc] at h1; cases h1
    | some u =>
      rw [hc] at h1
      simp only at h1 ⊢
      cases hs : scopesText h a with
      | none => rw [hs] at h1; cases h1
      | some s' =>
        rw [hs] at h1
        simp only [Option.map_some, Option.some.injEq] at h1
        subst h1
        rw [scopesText_append' a b hs h2]
        simp

theorem parts_text : ∀ {sel : List (Bytes × List ScopeRec)}, (∀ x ∈ sel, scopesText h x.2 = some x.1) →
    scopesText h (sel.flatMap Prod.snd) = some (sel.flatMap Prod.fst)
  | [], _ => rfl
  | x :: sel, hx => by
    rw [List.flatMap_cons, List.flatMap_cons]
    exact scopesText_append' _ _ (hx x (by simp)) (parts_text fun y hy => hx y (by simp [hy]))

theorem parts_stacked : ∀ {sel : List (Bytes × List ScopeRec)}, (∀ x ∈ sel, x.2.map (ScopeRec.look h) = looks 0 x.1) → ∀ n : Int,
    oneByOne n (sel.map Prod.fst) = some (stacked h n sel)
  | [], _, _ => rfl
  | (text, scs) :: sel, hx, n => by
    obtain ⟨h0, scs0, e, l⟩ := parse_looks_empty 0 text
    have ih := parts_stacked (sel := sel) (fun y hy => hx y (by simp [hy])) (n + countNL text)
    simp only [List.map_cons, oneByOne, e, ih, stacked]
    have : scs.map (ScopeRec.look h) = looks 0 text := hx (text, scs) (by simp)
    rw [← l] at this
    rw [show (scs0.map fun sc => (sc.look h0).below n) = (scs0.map (ScopeRec.look h0)).map (Look.below n) from by rw [List.map_map]; rfl, ← this, List.map_map]
    rfl

/-- `Package` of scopes put together: that of the first part that has one. -/
theorem findPackageName_append (h : Heap) (a b : List ScopeRec) :
    (findPackageName h a = some (.error .ErrNoPackage) → findPackageName h (a ++ b) = findPackageName h b) ∧
    (findPackageName h a ≠ some (.error .ErrNoPackage) → findPackageName h (a ++ b) = findPackageName h a) := by
  unfold findPackageName
  rw [List.find?_append]
  cases ha : a.find? (fun sc => decide (sc.kind = .package_)) with
  | none => simp
  | some sc =>
    simp only [Option.some_or, ne_eq, implies_true, and_true]
    intro e
    cases hf : findPackageNode h sc.node <;> rw [hf] at e <;> cases e

theorem findPackageName_or (h : Heap) (a : List ScopeRec) (an : (findPackageName h a).isSome) :
    findPackageName h a = some (.error .ErrNoPackage) ∨ ∃ p, findPackageName h a = some (.ok p) := by
  cases e : findPackageName h a with
  | none => rw [e] at an; cases an
  | some r =>
    cases r with
    | ok p => exact .inr ⟨p, rfl⟩
    | error x =>
      unfold findPackageName at e
      split at e
      · exact .inl e.symm
      · cases hf : findPackageNode h _ with
        | none => rw [hf] at e; cases e
        | some _ => rw [hf] at e; cases e

theorem parts_package : ∀ {sel : List (Bytes × List ScopeRec)}, (∀ x ∈ sel, (findPackageName h x.2).isSome) →
    (∃ x ∈ sel, findPackageName h x.2 ≠ some (.error .ErrNoPackage)) → ∃ p, findPackageName h (sel.flatMap Prod.snd) = some (.ok p)
  | [], _, hp => by obtain ⟨x, hx, _⟩ := hp; cases hx
  | x :: sel, hx, hp => by
    rw [List.flatMap_cons]
    rcases findPackageName_or h x.2 (hx x (by simp)) with e | ⟨p, e⟩
    · rw [(findPackageName_append h _ _).1 e]
      refine parts_package (fun y hy => hx y (by simp [hy])) ?_
      obtain ⟨y, hy, hne⟩ := hp
      rcases List.mem_cons.1 hy with rfl | hy
      · exact absurd e hne
      · exact ⟨y, hy, hne⟩
    · rw [(findPackageName_append h _ _).2 (by rw [e]; simp), e]
      exact ⟨p, rfl⟩

/-! ## Save and parse again -/

/-- A package clause among the parts gives a section with that keyword. -/
theorem package_section {ds : List Bytes} (hd : ∀ d ∈ ds, Whole d ∧ BeginsScope d) (hp : ∃ rest, b!"package " ++ rest ∈ ds) :
    ∃ g ∈ (sectionsOf 0 ds.flatten).2, ∃ t, g.head? = some t ∧ b!"package".isPrefixOf t.2 := by
  obtain ⟨rest, hr⟩ := hp
  have hk : (b!"package", ScopeKind.package_) ∈ scopeKeywords := by decide
  obtain ⟨x, xs, t, hx, ht⟩ := lexAll_keyword hk (32 :: rest)
  have hx' : lexAll (b!"package " ++ rest) = x :: xs := hx
  obtain ⟨_, g, gs, hg⟩ := sections_begin (x := x) (hd _ hr).2 (by rw [hx']; rfl)
  refine ⟨x.kt :: g, ?_, x.kt, rfl, ?_⟩
  · rw [C64_sections ds hd]
    exact List.mem_flatMap.2 ⟨_, hr, by rw [hg]; simp⟩
  · exact List.isPrefixOf_iff_prefix.2 ⟨t, by simp only [Lexeme.kt]; exact ht.symm⟩

/-- `Save` of an `Ast` whose text is put together from declarations, and `ParseAst` on what it wrote. -/
theorem save_again (env : Env) (spare : Nat) (fs : FS) (st : AState) (f : AstRec) {ds : List Bytes} (hd : ∀ d ∈ ds, Whole d ∧ BeginsScope d)
    (hp : ∃ rest, b!"package " ++ rest ∈ ds) (tx : scopesText st.heap (f.scopes st) = some ds.flatten) {file name : Bytes} (hn : IsGoName file name)
    (o3 : env.formatSource ds.flatten = some ds.flatten) (o4 : env.mkdirOk (env.dir name) = true) (o5 : env.createOk name = true)
    (o6 : env.writeFailsAfter name ds.flatten = none) (o1 : env.openDenied name = false) (o2 : env.readFails name = false) :
    ∃ fs' st' ast', f.save env fs st file [] = some (fs', none) ∧ fs' name = some ds.flatten ∧ (∀ other, other ≠ name → fs' other = fs other) ∧
      parseAst env spare fs' st file = some (.ok (st', ast')) ∧ (ast'.scopes st').map (ScopeRec.look st'.heap) = looks 0 ds.flatten := by
  have pk := package_section hd hp
  have hne : ds.flatten ≠ [] := by
    obtain ⟨rest, hr⟩ := hp
    intro h0
    have := List.flatten_eq_nil_iff.1 h0 _ hr
    simp at this
  have ok := C37_save_ok env fs file ds.flatten name ds.flatten [] hn (by
    unfold IsOutput; rw [if_neg (by simp)]; exact .inl o3)
  have hno := ok.1.2 ⟨hne, o4, o5, o6⟩
  obtain ⟨c1, c2⟩ := ok.2 hno
  -- `ParseAst`, in the empty state and in this one
  obtain ⟨h2, scs2, r1, _, r3⟩ := C39_parsed env spare (saveFile env fs file ds.flatten []).1 ⟨Heap.empty, []⟩ wf_empty acyclic_empty hn c1 o1 o2 o3
  obtain ⟨st2, f2, s1, _, _, _, _, s2, s3, _⟩ := r3 (package_scope wf_empty acyclic_empty pk r1)
  rcases C59_ast env spare spare (saveFile env fs file ds.flatten []).1 (saveFile env fs file ds.flatten []).1 st ⟨Heap.empty, []⟩ hn rfl
    with ⟨er, _, b⟩ | ⟨st', ast', st3, f3, a, b, _, _, _, _, v, _⟩
  · rw [s1] at b; cases b
  rw [s1] at b
  simp only [Option.some.injEq, Except.ok.injEq, Prod.mk.injEq] at b
  obtain ⟨rfl, rfl⟩ := b
  refine ⟨_, st', ast', ?_, c1, fun other hno => c2 other hno, a, ?_⟩
  · simp only [AstRec.save, tx, Option.map_some, Option.some.injEq, Prod.ext_iff]
    exact ⟨trivial, hno⟩
  · rw [s2, s3] at v
    exact part_looks r1 v

/-! ## C85 -/

/-- **C85** What a program gets that parses any number of texts one after another (from any state, each with any map order) and then puts
the scopes of some of them together, in any order, also several times.  If those it selects are parts, `Save` of an `Ast` with these
scopes concatenates the texts of the selected parts, and the scopes show what each shows in a parse of its text alone. -/
theorem C85_text (o : Heap) {jobs : List ((Nat → List (Bytes × Ext)) × Bytes)} (ho : ∀ j ∈ jobs, MapOrder j.1) :
    ∃ h scss, parseMany o (jobs.map fun j => (j.1, 0, j.2)) = some (h, scss) ∧ scss.length = jobs.length ∧ Extends o h ∧
      ∀ sel : List (Bytes × List ScopeRec), (∀ x ∈ sel, x ∈ (jobs.map Prod.snd).zip scss ∧ Part x.1) →
        scopesText h (sel.flatMap Prod.snd) = some (sel.flatMap Prod.fst) ∧
        oneByOne 0 (sel.map Prod.fst) = some (stacked h 0 sel) := by
  obtain ⟨h, scss, e, ex, _⟩ := C59_history o (jobs.map fun j => (j.1, 0, j.2)) (by
    intro j hj
    obtain ⟨i, hi, rfl⟩ := List.mem_map.1 hj
    exact ho i hi)
  obtain ⟨l, pv⟩ := part_view ho e
  refine ⟨h, scss, e, l, ex, fun sel hs => ⟨parts_text fun x hx => ?_, parts_stacked (fun x hx => ?_) 0⟩⟩
  · obtain ⟨h0, scs0, e0, v⟩ := pv x.1 x.2 (hs x hx).1
    exact part_text (hs x hx).2 e0 v
  · obtain ⟨h0, scs0, e0, v⟩ := pv x.1 x.2 (hs x hx).1
    exact part_looks e0 v

/-- **C85** Assemble, save, parse again.  Let a program parse any number of texts one after another, and let `f` be an `Ast` whose scopes are
those of some of these texts, in any order, also several times; let the selected texts be parts, one of them a package clause.  Then
`NewAst` accepts the scopes, `Save` writes the selected texts one below the other and leaves all other files alone, and if what it writes is
formatted, `ParseAst` on that file returns an `Ast` that shows the very scopes that were put in: kinds, nodes, labels and names, with
only the lines changed to those in the new file. -/
theorem C85_save (o : Heap) {jobs : List ((Nat → List (Bytes × Ext)) × Bytes)} (ho : ∀ j ∈ jobs, MapOrder j.1) :
    ∃ h scss, parseMany o (jobs.map fun j => (j.1, 0, j.2)) = some (h, scss) ∧ scss.length = jobs.length ∧
      ∀ (sel : List (Bytes × List ScopeRec)), (∀ x ∈ sel, x ∈ (jobs.map Prod.snd).zip scss ∧ Part x.1) →
        (∃ x ∈ sel, ∃ rest, x.1 = b!"package " ++ rest) →
        ∀ (st : AState) (f : AstRec), st.heap = h → f.scopes st = sel.flatMap Prod.snd →
          newAst st f.scope = some (.ok ⟨[], [], [], [], f.scope⟩) ∧
          ∀ (env : Env) (spare : Nat) (fs : FS) (file name : Bytes), IsGoName file name →
            env.formatSource (sel.flatMap Prod.fst) = some (sel.flatMap Prod.fst) → env.mkdirOk (env.dir name) = true → env.createOk name = true →
            env.writeFailsAfter name (sel.flatMap Prod.fst) = none → env.openDenied name = false → env.readFails name = false →
            ∃ fs' st' ast', f.save env fs st file [] = some (fs', none) ∧
              fs' name = some (sel.flatMap Prod.fst) ∧ (∀ other, other ≠ name → fs' other = fs other) ∧
              parseAst env spare fs' st file = some (.ok (st', ast')) ∧
              (ast'.scopes st').map (ScopeRec.look st'.heap) = stacked h 0 sel := by
  obtain ⟨h, scss, e, l, ex, key⟩ := C85_text o ho
  refine ⟨h, scss, e, l, fun sel hs hp st f eh ef => ?_⟩
  obtain ⟨tx, ob⟩ := key sel hs
  obtain ⟨_, pv⟩ := part_view ho e
  have good : ∀ d ∈ sel.map Prod.fst, Whole d ∧ BeginsScope d := by
    intro d hd
    obtain ⟨x, hx, rfl⟩ := List.mem_map.1 hd
    exact ⟨(hs x hx).2.whole, (hs x hx).2.begins⟩
  have flat : (sel.map Prod.fst).flatten = sel.flatMap Prod.fst := by rw [List.flatMap_def]
  have hpk : ∃ rest, b!"package " ++ rest ∈ sel.map Prod.fst := by
    obtain ⟨x, hx, rest, er⟩ := hp
    exact ⟨rest, List.mem_map.2 ⟨x, hx, er⟩⟩
  -- `NewAst`
  have na : ∃ p, findPackageName h (sel.flatMap Prod.snd) = some (.ok p) := by
    refine parts_package (fun x hx => ?_) ?_
    · obtain ⟨h0, scs0, e0, v⟩ := pv x.1 x.2 (hs x hx).1
      obtain ⟨h1, scs1, h2, scs2, a1, a2, _, an⟩ := C59_view mapOrder_id mapOrder_id Heap.empty Heap.empty 0 x.1
      have a1 : parseScope Heap.empty 0 x.1 = some (h1, scs1) := a1
      rw [e0] at a1
      simp only [Option.some.injEq, Prod.mk.injEq] at a1
      obtain ⟨rfl, rfl⟩ := a1
      rw [show findPackageName h x.2 = findPackageName h0 scs0 from congrArg ParseView.package v]
      exact an.package
    · obtain ⟨x, hx, rest, er⟩ := hp
      refine ⟨x, hx, ?_⟩
      obtain ⟨h0, scs0, e0, v⟩ := pv x.1 x.2 (hs x hx).1
      rw [show findPackageName h x.2 = findPackageName h0 scs0 from congrArg ParseView.package v]
      have q := package_section (ds := [x.1]) (by
        intro d hd
        rw [List.mem_singleton] at hd
        subst hd
        exact ⟨(hs x hx).2.whole, (hs x hx).2.begins⟩) ⟨rest, by rw [er]; simp⟩
      rw [List.flatten_singleton] at q
      obtain ⟨sc, hsc, hk⟩ := package_scope wf_empty acyclic_empty q e0
      unfold findPackageName
      cases hf : scs0.find? (fun sc => decide (sc.kind = .package_)) with
      | none =>
        have := List.find?_eq_none.1 hf sc hsc
        simp [hk] at this
      | some sc' => cases findPackageNode h0 sc'.node <;> simp
  obtain ⟨p, na⟩ := na
  refine ⟨?_, fun env spare fs file name hn o3 o4 o5 o6 o1 o2 => ?_⟩
  · have ef' : st.elems f.scope = sel.flatMap Prod.snd := ef
    rw [newAst, ef', eh, na]
    rfl
  rw [← flat] at tx o3 o6 ⊢
  obtain ⟨fs', st', ast', a1, a2, a3, a4, a5⟩ := save_again env spare fs st f good hpk (by rw [eh, ef, tx]) hn o3 o4 o5 o6 o1 o2
  refine ⟨fs', st', ast', a1, a2, a3, a4, ?_⟩
  rw [a5]
  have := (looks_file (sel.map Prod.fst) good 0).1
  rw [ob, Option.some.injEq, show Look.below 0 = id from funext Look.below_zero, List.map_id] at this
  exact this.symm

/-- `AppendScope` with several lists of scopes, one call after the other. -/
def appendEach (grow : Nat → Nat) : AState → AstRec → List (List ScopeRec) → AState × AstRec
  | st, f, [] => (st, f)
  | st, f, scs :: scss => appendEach grow (f.appendScope grow st scs).1 (f.appendScope grow st scs).2 scss

theorem appendEach_scopes (grow : Nat → Nat) : ∀ (scss : List (List ScopeRec)) (st : AState) (f : AstRec), SliceOK st f.scope →
    (appendEach grow st f scss).2.scopes (appendEach grow st f scss).1 = f.scopes st ++ scss.flatten ∧ (appendEach grow st f scss).1.heap = st.heap
  | [], st, f, _ => by simp [appendEach]
  | scs :: scss, st, f, ok => by
    obtain ⟨a, b, c, _⟩ := C41_appendScope grow st f scs ok
    obtain ⟨d, e⟩ := appendEach_scopes grow scss _ _ b
    refine ⟨?_, e.trans c⟩
    rw [appendEach, d, a, List.flatten_cons, List.append_assoc]

/-- **C85** How such an `Ast` comes about: `NewAst` with the scopes of the first part (in a slice of any spare capacity) and one `AppendScope`
for each of the others, whatever capacity Go chooses for the arrays. -/
theorem C85_append (grow : Nat → Nat) (st : AState) (spare : Nat) (first : Bytes × List ScopeRec) (sel : List (Bytes × List ScopeRec)) {f : AstRec}
    (e : newAst (st.newSlice first.2 spare).1 (st.newSlice first.2 spare).2 = some (.ok f)) :
    let r := appendEach grow (st.newSlice first.2 spare).1 f (sel.map Prod.snd)
    r.2.scopes r.1 = (first :: sel).flatMap Prod.snd ∧ r.1.heap = st.heap := by
  have hf : f.scope = (st.newSlice first.2 spare).2 := by
    unfold newAst at e
    cases hp : findPackageName (st.newSlice first.2 spare).1.heap ((st.newSlice first.2 spare).1.elems (st.newSlice first.2 spare).2) with
    | none => rw [hp] at e; cases e
    | some x =>
      rw [hp] at e
      cases x with
      | error x => cases e
      | ok x => cases e; rfl
  have ok : SliceOK (st.newSlice first.2 spare).1 f.scope := by
    rw [hf]
    exact ⟨by simp [AState.newSlice], first.2 ++ List.replicate spare default, by simp [AState.newSlice], by simp [AState.newSlice]⟩
  obtain ⟨a, b⟩ := appendEach_scopes grow (sel.map Prod.snd) _ f ok
  refine ⟨?_, b⟩
  rw [a, List.flatMap_cons, AstRec.scopes, hf]
  congr 1
  simp [AState.elems, AState.newSlice]

/-- **C85** The package of such an `Ast` is that of its first part. -/
theorem C85_package {o h : Heap} {jobs : List ((Nat → List (Bytes × Ext)) × Bytes)} (ho : ∀ j ∈ jobs, MapOrder j.1) {scss : List (List ScopeRec)}
    (e : parseMany o (jobs.map fun j => (j.1, 0, j.2)) = some (h, scss)) {pkg rest : Bytes} {c : UInt8} (hn : Ident pkg) (hc : c ∈ separatorBytes)
    {scs more : List ScopeRec} (hm : (b!"package " ++ pkg ++ c :: rest, scs) ∈ (jobs.map Prod.snd).zip scss)
    {st : AState} {f : AstRec} (eh : st.heap = h) (ef : f.scopes st = scs ++ more) : f.package st = some (.ok pkg) := by
  obtain ⟨h0, scs0, e0, v⟩ := (part_view ho e).2 _ _ hm
  have p : findPackageName h0 scs0 = some (.ok pkg) := C36_parsed_name mapOrder_id wf_empty acyclic_empty (by omega) hn hc e0
  have p' : findPackageName h scs = some (.ok pkg) := (congrArg ParseView.package v).trans p
  have ef' : st.elems f.scope = scs ++ more := ef
  rw [AstRec.package, ef', eh, (findPackageName_append h _ _).2 (by rw [p']; simp), p']

/-! ## The hypotheses can be met -/

theorem checked {gs : List (List Token)} (e : gs.all survives = true) : ∀ g ∈ gs, Survives g := fun g hg => C64_check (List.all_eq_true.1 e g hg)

set_option maxRecDepth 100000 in
/-- A package clause, a type, a function. -/
example : ∀ d ∈ [b!"package a\n\n", b!"type T struct {\n\tx int\n}\n\n", b!"func F(a int, b string) (int, error) {\n\treturn 0, nil\n}\n"], Part d := by
  intro d hd
  simp only [List.mem_cons, List.not_mem_nil, or_false] at hd
  rcases hd with rfl | rfl | rfl
  · exact ⟨by decide +kernel, ⟨⟨⟨b!"package", false⟩, by decide +kernel⟩, by decide +kernel⟩, checked (by decide +kernel)⟩
  · exact ⟨by decide +kernel, ⟨⟨⟨b!"type", false⟩, by decide +kernel⟩, by decide +kernel⟩, checked (by decide +kernel)⟩
  · exact ⟨by decide +kernel, ⟨⟨⟨b!"func", false⟩, by decide +kernel⟩, by decide +kernel⟩, checked (by decide +kernel)⟩

set_option maxRecDepth 100000 in
/-- The three parsed one after another, and put together as package clause, function, type, function. -/
example : (parseMany Heap.empty ([b!"package a\n\n", b!"type T struct {\n\tx int\n}\n\n", b!"func F(a int) int {\n\treturn a\n}\n"].map
      fun d => (fun _ => commonDeeperExtract, 0, d))).bind (fun r =>
    match r.2 with
    | [p, t, f] => some ((stacked r.1 0 [(b!"package a\n\n", p), (b!"func F(a int) int {\n\treturn a\n}\n", f), (b!"type T struct {\n\tx int\n}\n\n", t),
        (b!"func F(a int) int {\n\treturn a\n}\n", f)]).map fun v => ((v.kind, v.line), (v.funcName, v.typeName)))
    | _ => none) =
    some [((.package_, 1), (some ([], false), some ([], false))), ((.func_, 3), (some (b!"F", true), some ([], false))),
      ((.type_, 6), (some ([], false), some (b!"T", true))), ((.func_, 10), (some (b!"F", true), some ([], false)))] := by cbv

end Goast
