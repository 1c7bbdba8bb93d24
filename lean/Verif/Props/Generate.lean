import Verif.Props.Assemble

/-!
# C86: a file generated from scopes made by hand
-/

namespace Goast
open Heap

/-- A scope made by hand: the arguments of `NewScope`, and those of the `NewNodes` that makes its nodes. -/
structure HandMade where
  line : Int
  kind : ScopeKind
  startLine : Int
  texts : List Bytes

/-- `NewScope(line, kind, NewNodes(startLine, texts...))`, one after another. -/
def makeScopes : Heap → List HandMade → Heap × List ScopeRec
  | h, [] => (h, [])
  | h, m :: ms =>
    let r := h.newNodes m.startLine m.texts
    let rs := makeScopes r.1 ms
    (rs.1, newScope m.line m.kind r.2 :: rs.2)

theorem newNodes_text {h : Heap} (w : WF h) (L : Int) (ts : List Bytes) :
    WF (h.newNodes L ts).1 ∧ Extends h (h.newNodes L ts).1 ∧ ∃ l, Fwd (h.newNodes L ts).1 (h.newNodes L ts).2 l ∧ textOf (h.newNodes L ts).1 l = ts.flatten := by
  cases ts with
  | nil => exact ⟨w, ⟨Nat.le_refl _, fun _ _ => ⟨rfl, rfl, rfl⟩⟩, [], .nil, rfl⟩
  | cons t ts =>
    obtain ⟨h', e, ex, w', ch, d0, d⟩ := C33_newNodes w L t ts
    rw [e]
    refine ⟨w', ex, _, ch.fwd, ?_⟩
    have ht : ∀ a x, data h' a = x → h'.text (some a) = x.2.2 := by
      intro a x hx
      rw [← hx]; rfl
    have key : (List.range' (h.size + 1) ts.length).map (fun a => h'.text (some a)) = ts := by
      apply List.ext_getElem?
      intro i
      rw [List.getElem?_map]
      by_cases hi : i < ts.length
      · rw [List.getElem?_range' hi, List.getElem?_eq_getElem hi, Option.map_some, Nat.one_mul]
        rw [ht _ _ (d i ts[i] (List.getElem?_eq_getElem hi))]
      · rw [List.getElem?_eq_none (by simp; omega), List.getElem?_eq_none (by omega)]
        rfl
    simp only [textOf, List.map_cons, List.flatten_cons]
    rw [key, ht _ _ d0]

theorem makeScopes_text : ∀ (ms : List HandMade) (h : Heap), WF h → WF (makeScopes h ms).1 ∧ Extends h (makeScopes h ms).1 ∧
    ∃ lss, ScopeNodes (makeScopes h ms).1 (makeScopes h ms).2 lss ∧ allText (makeScopes h ms).1 lss = ms.flatMap fun m => m.texts.flatten
  | [], h, w => ⟨w, ⟨Nat.le_refl _, fun _ _ => ⟨rfl, rfl, rfl⟩⟩, [], .nil, rfl⟩
  | m :: ms, h, w => by
    obtain ⟨w1, ex1, l, f, tx⟩ := newNodes_text w m.startLine m.texts
    obtain ⟨w2, ex2, lss, sn, ty⟩ := makeScopes_text ms _ w1
    refine ⟨w2, ex1.trans ex2, l :: lss, .cons (f.congr (fun a ha => Nat.lt_of_lt_of_le (f.lt a ha) ex2.1) (fun a ha => (ex2.2 a (f.lt a ha)).1)) sn, ?_⟩
    have : textOf (makeScopes h (m :: ms)).1 l = m.texts.flatten := by
      rw [← tx, textOf, textOf]
      congr 1
      refine List.map_congr_left fun a ha => ?_
      have := (ex2.2 a (f.lt a ha)).2.2
      simp only [data, Prod.mk.injEq] at this
      exact this.2.2
    rw [List.flatMap_cons, ← ty, ← this]
    simp [allText, textOf, makeScopes]

/-- **C86** A program that makes scopes by hand, from any texts in any pieces, with any lines and any kinds, and puts them in an `Ast`:
`Save` writes the texts one after another; no node that existed before changes; `NewAst` accepts the scopes if one was made with the kind `Package`. -/
theorem C86_made (st : AState) (w : WF st.heap) (ms : List HandMade) (spare : Nat) :
    let r := makeScopes st.heap ms
    let sl := AState.newSlice { st with heap := r.1 } r.2 spare
    Extends st.heap r.1 ∧ WF r.1 ∧ r.2.map (fun sc => (sc.line, sc.kind)) = ms.map (fun m => (m.line, m.kind)) ∧
    scopesText r.1 r.2 = some (ms.flatMap fun m => m.texts.flatten) ∧
    ((∃ m ∈ ms, m.kind = .package_) → ∃ f, newAst sl.1 sl.2 = some (.ok f) ∧ f.scopes sl.1 = r.2 ∧ sl.1.heap = r.1) := by
  intro r sl
  obtain ⟨w', ex, lss, sn, tx⟩ := makeScopes_text ms st.heap w
  have hk : ∀ (ms : List HandMade) (h : Heap), (makeScopes h ms).2.map (fun sc => (sc.line, sc.kind)) = ms.map (fun m => (m.line, m.kind)) := by
    intro ms
    induction ms with
    | nil => intro h; rfl
    | cons m ms ih => intro h; simp [makeScopes, newScope, ih]
  have hel : sl.1.elems sl.2 = r.2 := by simp [sl, AState.elems, AState.newSlice]
  refine ⟨ex, w', hk ms st.heap, by rw [scopesText_eq sn, tx], ?_⟩
  rintro ⟨m, hm, hmk⟩
  refine ⟨⟨[], [], [], [], sl.2⟩, ?_, hel, rfl⟩
  obtain ⟨sc, hsc, hsk⟩ : ∃ sc ∈ r.2, sc.kind = .package_ := by
    have : (m.line, m.kind) ∈ r.2.map (fun sc => (sc.line, sc.kind)) := by
      rw [hk ms st.heap]
      exact List.mem_map.2 ⟨m, hm, rfl⟩
    obtain ⟨sc, hsc, e⟩ := List.mem_map.1 this
    exact ⟨sc, hsc, by rw [← hmk]; exact congrArg Prod.snd e⟩
  have hfind : ∃ sc', r.2.find? (fun sc => decide (sc.kind = .package_)) = some sc' := by
    cases hf : r.2.find? (fun sc => decide (sc.kind = .package_)) with
    | none =>
      have := List.find?_eq_none.1 hf sc hsc
      simp [hsk] at this
    | some x => exact ⟨x, rfl⟩
  obtain ⟨sc', hf⟩ := hfind
  have fw : ∀ (scs : List ScopeRec) (lss : List (List Addr)), ScopeNodes r.1 scs lss → ∀ x ∈ scs, ∃ l, Fwd r.1 x.node l := by
    intro scs lss sn
    induction sn with
    | nil => intro x hx; cases hx
    | cons f _ ih =>
      intro x hx
      rcases List.mem_cons.1 hx with rfl | hx
      · exact ⟨_, f⟩
      · exact ih x hx
  obtain ⟨l, f⟩ := fw _ _ sn sc' (List.mem_of_find?_eq_some hf)
  have : findPackageName sl.1.heap (sl.1.elems sl.2) = some (.ok (r.1.text (packageNode r.1 l))) := by
    rw [hel]
    unfold findPackageName
    simp only [hf]
    rw [show sl.1.heap = r.1 from rfl, findPackageNode_eq f]
    rfl
  rw [newAst, this]
  rfl

/-- **C86** Generate, save, parse.  If the texts of the scopes a program made by hand (in any pieces, with any lines and kinds) make up, one after
another, declarations `ds` with a package clause, `Save` writes these declarations and leaves all other files alone, and if that is formatted,
`ParseAst` on the file returns an `Ast` that shows the scopes of the declarations, each as parsed alone, on their lines in the file. -/
theorem C86_generate (env : Env) (spare : Nat) (fs : FS) (st : AState) (w : WF st.heap) (ms : List HandMade) {ds : List Bytes}
    (hd : ∀ d ∈ ds, Whole d ∧ BeginsScope d) (hp : ∃ rest, b!"package " ++ rest ∈ ds) (e : (ms.flatMap fun m => m.texts.flatten) = ds.flatten)
    (st1 : AState) (f : AstRec) (eh : st1.heap = (makeScopes st.heap ms).1) (ef : f.scopes st1 = (makeScopes st.heap ms).2)
    {file name : Bytes} (hn : IsGoName file name)
    (o3 : env.formatSource ds.flatten = some ds.flatten) (o4 : env.mkdirOk (env.dir name) = true) (o5 : env.createOk name = true)
    (o6 : env.writeFailsAfter name ds.flatten = none) (o1 : env.openDenied name = false) (o2 : env.readFails name = false) :
    ∃ fs' st' ast', f.save env fs st1 file [] = some (fs', none) ∧ fs' name = some ds.flatten ∧ (∀ other, other ≠ name → fs' other = fs other) ∧
      parseAst env spare fs' st1 file = some (.ok (st', ast')) ∧ oneByOne 0 ds = some ((ast'.scopes st').map (ScopeRec.look st'.heap)) := by
  have tx := (C86_made st w ms 0).2.2.2.1
  obtain ⟨fs', st', ast', a1, a2, a3, a4, a5⟩ := save_again env spare fs st1 f hd hp (by rw [eh, ef, tx, e]) hn o3 o4 o5 o6 o1 o2
  refine ⟨fs', st', ast', a1, a2, a3, a4, ?_⟩
  rw [a5, (looks_file ds hd 0).1, show Look.below 0 = id from funext Look.below_zero, List.map_id]

/-! ## The hypotheses can be met -/

/-- A package clause and a function from a template in four pieces. -/
def generated : List HandMade :=
  [⟨0, .package_, 0, [b!"package a\n\n"]⟩, ⟨7, .variable, 3, [b!"func ", b!"Get", b!"A() int {\n", b!"\treturn 1\n}\n"]⟩]

example : (generated.flatMap fun m => m.texts.flatten) = [b!"package a\n\n", b!"func GetA() int {\n\treturn 1\n}\n"].flatten ∧
    ∀ d ∈ [b!"package a\n\n", b!"func GetA() int {\n\treturn 1\n}\n"], Whole d ∧ BeginsScope d := by
  refine ⟨by decide, fun d hd => ?_⟩
  simp only [List.mem_cons, List.not_mem_nil, or_false] at hd
  rcases hd with rfl | rfl
  · exact ⟨by decide +kernel, ⟨⟨⟨b!"package", false⟩, by decide +kernel⟩, by decide +kernel⟩⟩
  · exact ⟨by decide +kernel, ⟨⟨⟨b!"func", false⟩, by decide +kernel⟩, by decide +kernel⟩⟩

set_option maxRecDepth 100000 in
/-- What the scope made by hand as a variable is when the file is parsed: a function with a name. -/
example : (oneByOne 0 [b!"package a\n\n", b!"func GetA() int {\n\treturn 1\n}\n"]).map (List.map fun v => (v.kind, v.line)) =
    some [(.package_, 1), (.func_, 3)] := by decide +kernel

end Goast
