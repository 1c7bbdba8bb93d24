import Verif.Spec.Survive
import Verif.Proofs.Division
import Verif.Props.Compose
import Verif.Props.Text
import Verif.Props.TypeLabels

/-!
# C64: files of ordinary declarations keep their text
-/

namespace Goast
open Heap

variable {ord : Nat → List (Bytes × Ext)} {h : Heap}

/-! ## Labels do not change texts -/

@[simp] theorem tokText_nil : tokText [] = [] := rfl
@[simp] theorem tokText_cons (t : Token) (ts : List Token) : tokText (t :: ts) = t.2 ++ tokText ts := by simp [tokText]
@[simp] theorem tokText_append (ts us : List Token) : tokText (ts ++ us) = tokText ts ++ tokText us := by simp [tokText]

mutual
theorem Params.text {nk tk : Kind} : ∀ {ts ts' : List Token}, Params nk tk ts ts' → tokText ts' = tokText ts
  | _, _, .nil => rfl
  | _, _, .sep _ p => by simp [p.text]
  | _, _, .param _ q _ p => by rw [tokText_append, tokText_append, q.text, p.text]
theorem Param.text {nk tk : Kind} : ∀ {b : Bool} {ts ts' : List Token}, Param nk tk b ts ts' → tokText ts' = tokText ts
  | _, _, _, .nil => rfl
  | _, _, _, .word _ q => by simp [q.text]
  | _, _, _, .plain _ q => by simp [q.text]
  | _, _, _, .square _ hc q => by rw [(closeAt_split hc).1]; simp [q.text]
  | _, _, _, .func _ _ _ _ p q => by simp [p.text, q.text]
end

theorem Sig.text {R : List Token} {fin seen : Bool} {ts ts' : List Token} (s : Sig R fin seen ts ts') : tokText (ts' ++ R) = tokText ts := by
  induction s with
  | stop => rfl
  | pass hp hc hs hn hb r ih => simpa using ih
  | parens ht hu p r ih => simp [p.text, ← ih]
  | body ht hc r ih => rw [(closeAt_split hc).1]; simp [← ih]
  | square ht hc r ih => rw [(closeAt_split hc).1]; simp [← ih]
  | space ht hc hn r ih => simp [← ih]
  | results hb ht hu p r ih => simp [p.text, ← ih]
  | func hb ht hl hu p r ih => simp [p.text, ← ih]
  | result hb ht hu hn r ih => simp [← ih]; simp [tokText]

theorem Row.text {n : Nat} {ts ts' : List Token} (r : Row n ts ts') : tokText ts' = tokText ts := by
  induction r with
  | nil => rfl
  | word ht r ih => simp [ih]
  | keep ht r ih => simp [ih]
  | @func n t l u ps ps' ts ts' ht hl hu p r ih =>
    have : tokText (ps'.map typeWord) = tokText ps' := by simp [tokText, Function.comp_def, typeWord]
    simp [ih, this, p.text]

theorem Fields.text {R ts ts' : List Token} (f : Fields R ts ts') : tokText (ts' ++ R) = tokText ts := by
  induction f with
  | stop => rfl
  | skip ht r ih => simpa using ih
  | line first f l hn r ih => simp [l.text, ← ih]

theorem Methods.text {R ts ts' : List Token} (f : Methods R ts ts') : tokText (ts' ++ R) = tokText ts := by
  induction f with
  | stop => rfl
  | skip ht r ih => simpa using ih
  | method hn ht hu sig r ih =>
    have := sig.text
    simp only [tokText_cons, tokText_append] at this ih ⊢
    rw [← this, ← ih]; simp
  | embedded first hu hs hn r ih => simp [← ih]

theorem Def.text {R ts ts' : List Token} (d : Def R ts ts') : tokText (ts' ++ R) = tokText ts := by
  induction d with
  | stop => rfl
  | pass ht r ih => simpa using ih
  | square ht hc r ih => rw [(closeAt_split hc).1]; simp [← ih]
  | struct ht hg ho hu f r ih =>
    have := f.text
    simp only [tokText_cons, tokText_append] at this ih ⊢
    rw [← this, ← ih]; simp
  | interface ht hg ho hu f r ih =>
    have := f.text
    simp only [tokText_cons, tokText_append] at this ih ⊢
    rw [← this, ← ih]; simp
  | word ht hu hc hn r ih => simp [← ih]; simp [tokText]

/-! ## One section -/

/-- What `resetKind` leaves of a group whose tokens `Sig` or `Def` can read. -/
theorem reset_text {ha hb : Heap} {r : Ptr} (wa : WF ha) (aca : Acyclic ha) {a : Addr} {g : List Addr} (cha : Chain ha (a :: g))
    {ts : List Token} (S : Survives ts) (ht : (a :: g).map (kt ha) = ts) (hk : ha.kind (some a) = .func_ ∨ ha.kind (some a) = .type_)
    (hc : ¬ ((∀ t ∈ ts, t.1 ≠ .comment) ∧ (∀ t, ts.head? = some t → t.1 = .type_ → Ok .name (ts.map Prod.fst))))
    (er : resetKind ha (some a) = some (hb, r)) {l' : List Addr} (ch' : Chain hb (a :: l')) :
    textOf hb (a :: l') = textOf ha (a :: g) := by
  rw [← tokText_kt, ← tokText_kt, ht]
  have hka : (ts.head?).map Prod.fst = some (ha.kind (some a)) := by rw [← ht]; rfl
  cases S with
  | other h =>
    cases ts with
    | nil => cases hka
    | cons t ts =>
      have := h t rfl
      simp only [List.head?_cons, Option.map_some, Option.some.injEq] at hka
      rw [hka] at this
      rcases hk with hk | hk
      · exact absurd hk this.1
      · exact absurd hk this.2
  | bare h1 h2 => exact absurd ⟨h1, h2⟩ hc
  | func S e =>
    simp only [List.map_cons] at ht
    obtain ⟨ka, ht⟩ := List.cons.inj ht
    obtain ⟨b, g, rfl, kb, ht⟩ := List.map_eq_cons_iff.1 ht
    obtain ⟨n, g, rfl, kn, ht⟩ := List.map_eq_cons_iff.1 ht
    obtain ⟨rest', e1, e2⟩ := func_labels wa aca cha (congrArg Prod.fst ka) (congrArg Prod.fst kb) (congrArg Prod.fst kn) ht S er ch'
    rw [e1, e2 e, ka, kb, show ha.text (some n) = _ from congrArg Prod.snd kn]
    simp only [tokText_cons, S.text]
  | method hcall P S e =>
    have hcall' : ¬ CalledAtOnce (kindsOf ha (a :: g)) := by
      rw [← ht, List.map_map] at hcall
      exact hcall
    simp only [List.map_cons] at ht
    obtain ⟨ka, ht⟩ := List.cons.inj ht
    obtain ⟨b, g, rfl, kb, ht⟩ := List.map_eq_cons_iff.1 ht
    obtain ⟨q, g, rfl, kq, ht⟩ := List.map_eq_cons_iff.1 ht
    obtain ⟨mid, g, rfl, em, ht⟩ := List.map_eq_append_iff.1 ht
    obtain ⟨q2, g, rfl, kq2, ht⟩ := List.map_eq_cons_iff.1 ht
    obtain ⟨s, g, rfl, ks, ht⟩ := List.map_eq_cons_iff.1 ht
    obtain ⟨n, g, rfl, kn, ht⟩ := List.map_eq_cons_iff.1 ht
    obtain ⟨rest', e1, e2⟩ := method_labels wa aca cha (congrArg Prod.fst ka) (congrArg Prod.fst kb) (congrArg Prod.fst kq) (congrArg Prod.fst kq2)
      (congrArg Prod.fst ks) (congrArg Prod.fst kn) hcall' em P ht S er ch'
    rw [e1, e2 e, ka, kb, kq, kq2, ks, show ha.text (some n) = _ from congrArg Prod.snd kn]
    simp only [tokText_cons, tokText_append, P.text, ← S.text]
  | type P D =>
    simp only [List.map_cons] at ht
    obtain ⟨ka, ht⟩ := List.cons.inj ht
    obtain ⟨b, g, rfl, kb, ht⟩ := List.map_eq_cons_iff.1 ht
    obtain ⟨n, g, rfl, kn, ht⟩ := List.map_eq_cons_iff.1 ht
    obtain ⟨rest', e1, e2⟩ := type_labels wa aca cha (congrArg Prod.fst ka) (congrArg Prod.fst kb) (congrArg Prod.fst kn) ht P rfl D er ch'
    have := D.text
    rw [List.append_nil] at this
    rw [e1, e2 rfl, ka, kb, show ha.text (some n) = _ from congrArg Prod.snd kn]
    simp only [tokText_cons, tokText_append, List.append_nil, this]

/-- One section of a parse. -/
theorem section_text {startLine : Int} {text : Bytes} {h1 : Heap} {p : Ptr} {l : List Addr} {st : ParseSt} {h' : Heap}
    (P : Parsed ord h startLine text h1 p l st h') {g : List Addr} (hg : g ∈ (divide h1 (startLine - 1) l).2) (hs : Survives (g.map (kt h1))) :
    ∃ l', Fwd h' g.head? l' ∧ textOf h' l' = textOf h1 g := by
  by_cases hb : (∀ t ∈ g.map (kt h1), t.1 ≠ .comment) ∧ (∀ t, (g.map (kt h1)).head? = some t → t.1 = .type_ → Ok .name ((g.map (kt h1)).map Prod.fst))
  · have ok : Safe h1 g := by
      intro hk
      obtain ⟨a, g', rfl⟩ := List.exists_cons_of_ne_nil (divide_ne_nil _ _ _ g hg)
      have := hb.2 (kt h1 a) rfl hk
      rwa [List.map_map] at this
    obtain ⟨l', kept, f, oc, e, _⟩ := group_text P hg ok
    refine ⟨l', f, ?_⟩
    rw [e, oc.eq (fun a ha => hb.1 (kt h1 a) (List.mem_map.2 ⟨a, ha, rfl⟩))]
  obtain ⟨a, g', rfl⟩ := List.exists_cons_of_ne_nil (divide_ne_nil _ _ _ g hg)
  obtain ⟨x1, x2, r, w, ac, ch, sz, s1, e, s2, sz'⟩ := (P.group3 _ hg).ex
  have d1 : ∀ b ∈ a :: g', kt x1 b = kt h1 b := by
    intro b hb
    have := (s1 b hb).2.2
    simp only [data, Prod.mk.injEq] at this
    simp only [kt, this.2.1, this.2.2, (P.data2.2 _).2.1, (P.data2.2 _).2.2]
  have d2 : ∀ b ∈ a :: g', h'.text (some b) = x2.text (some b) ∧ h'.next (some b) = x2.next (some b) := by
    intro b hb
    have := (s2 b hb).2.2
    simp only [data, Prod.mk.injEq] at this
    exact ⟨this.2.2, (s2 b hb).1⟩
  have et : (a :: g').map (kt x1) = (a :: g').map (kt h1) := List.map_congr_left d1
  have etx : textOf x1 (a :: g') = textOf h1 (a :: g') := by rw [← tokText_kt, ← tokText_kt, et]
  have lt : ∀ b ∈ a :: g', b < h'.size := by
    intro b hb
    rw [P.size3, P.data2.1]
    refine P.chain.1 b ?_
    rw [← divide_flatten h1 l (startLine - 1), List.mem_append, List.mem_flatten]
    exact .inr ⟨_, hg, hb⟩
  rw [List.head?_cons] at e ⊢
  obtain ⟨l2, ch2, sub⟩ := resetKind_chain w ac ch e
  have sub' : ∀ b ∈ a :: l2, b ∈ a :: g' := by
    intro b hb
    rcases List.mem_cons.1 hb with rfl | hb
    · simp
    · simp [sub b hb]
  have f2 : Fwd h' (some a) (a :: l2) := ch2.fwd.congr (fun b hb => lt b (sub' b hb)) (fun b hb => (d2 b (sub' b hb)).2)
  refine ⟨a :: l2, f2, ?_⟩
  rw [textOf_congr (a :: l2) (h := x2) (h' := h') fun b hb => (d2 b (sub' b hb)).1, ← etx]
  by_cases hk : x1.kind (some a) = .func_ ∨ x1.kind (some a) = .type_
  · exact reset_text w ac ch hs et hk hb e ch2
  · rw [not_or] at hk
    have := C17_resetKind_other (h := x1) (n := some a) hk.1 hk.2
    rw [this] at e
    simp only [Option.some.injEq, Prod.mk.injEq] at e
    obtain ⟨rfl, rfl⟩ := e
    cases ch2.fwd.det ch.fwd
    rfl

/-! ## C64 -/

theorem lead_text {startLine : Int} {text : Bytes} {h1 : Heap} {p : Ptr} {l : List Addr} {st : ParseSt} {h' : Heap} (ho : MapOrder ord)
    (P : Parsed ord h startLine text h1 p l st h') : tokText (sectionsOf startLine text).1 ++ ((sectionsOf startLine text).2.map tokText).flatten = text := by
  rw [P.sections ho, tokText_kt, List.map_map]
  rw [show (tokText ∘ List.map (kt h1)) = textOf h1 from funext fun g => tokText_kt h1 g]
  have : ∀ gs : List (List Addr), (gs.map (textOf h1)).flatten = textOf h1 gs.flatten := by
    intro gs
    induction gs with
    | nil => rfl
    | cons g gs ih => rw [List.map_cons, List.flatten_cons, List.flatten_cons, textOf_append, ih]
  rw [this, ← textOf_append, divide_flatten, P.texts]

/-- **C64** The sections of a text, as the specification divides it, are its scopes, and every scope whose section `Survives` has
exactly the text of its section after `ParseScope`, whatever the other sections are. -/
theorem C64_scope (ho : MapOrder ord) (w : WF h) (ac : Acyclic h) (startLine : Int) (text : Bytes) :
    ∃ h' scs, parseScopeOrd ord h startLine text = some (h', scs) ∧
      tokText (sectionsOf startLine text).1 ++ ((sectionsOf startLine text).2.map tokText).flatten = text ∧
      scs.length = (sectionsOf startLine text).2.length ∧
      ∀ (i : Nat) (sc : ScopeRec) (g : List Token), scs[i]? = some sc → (sectionsOf startLine text).2[i]? = some g → Survives g → chainText h' sc.node = some (tokText g) := by
  obtain ⟨h1, p, l, st, h', P⟩ := parsed ho w ac startLine text
  refine ⟨h', st.scs, P.parse, lead_text ho P, by rw [P.scs, P.sections ho]; simp, ?_⟩
  intro i sc g hsc hg S
  rw [P.scs, List.getElem?_map] at hsc
  rw [P.sections ho, List.getElem?_map] at hg
  cases hd : (divide h1 (startLine - 1) l).2[i]? with
  | none => rw [hd] at hg; cases hg
  | some gr =>
    rw [hd] at hg hsc
    simp only [Option.map_some, Option.some.injEq] at hg hsc
    subst hg hsc
    obtain ⟨l', f, e⟩ := section_text P (List.mem_of_getElem? hd) S
    rw [chainText_eq (show Fwd h' (scopeOf h1 gr).node l' from f), tokText_kt, ← e]
    rfl

theorem all_sections {startLine : Int} {text : Bytes} {h1 : Heap} {p : Ptr} {l : List Addr} {st : ParseSt} {h' : Heap}
    (P : Parsed ord h startLine text h1 p l st h') : ∀ (gs : List (List Addr)),
    (∀ g ∈ gs, g ∈ (divide h1 (startLine - 1) l).2) → (∀ g ∈ gs, Survives (g.map (kt h1))) →
    ∃ lss, ScopeNodes h' (gs.map (scopeOf h1)) lss ∧ allText h' lss = textOf h1 gs.flatten
  | [], _, _ => ⟨[], .nil, rfl⟩
  | g :: gs, hm, hs => by
    obtain ⟨lss, a1, a2⟩ := all_sections P gs (fun x hx => hm x (by simp [hx])) (fun x hx => hs x (by simp [hx]))
    obtain ⟨l', b1, b2⟩ := section_text P (hm g (by simp)) (hs g (by simp))
    refine ⟨l' :: lss, .cons b1 a1, ?_⟩
    rw [List.flatten_cons, textOf_append, ← a2, ← b2]
    simp [allText, textOf]

/-- **C64** If every section of a text survives, what `Save` concatenates is the text from its first section on. -/
theorem C64_text (ho : MapOrder ord) (w : WF h) (ac : Acyclic h) (startLine : Int) (text : Bytes)
    (hs : ∀ g ∈ (sectionsOf startLine text).2, Survives g) :
    ∃ h' scs, parseScopeOrd ord h startLine text = some (h', scs) ∧
      ∃ saved, scopesText h' scs = some saved ∧ tokText (sectionsOf startLine text).1 ++ saved = text := by
  obtain ⟨h1, p, l, st, h', P⟩ := parsed ho w ac startLine text
  rw [P.sections ho] at hs
  obtain ⟨lss, a1, a2⟩ := all_sections P (divide h1 (startLine - 1) l).2 (fun _ h => h) (fun g hg => hs _ (List.mem_map.2 ⟨g, hg, rfl⟩))
  refine ⟨h', st.scs, P.parse, allText h' lss, ?_, ?_⟩
  · rw [P.scs]; exact scopesText_eq a1
  · rw [P.sections ho, tokText_kt, a2, ← textOf_append, divide_flatten, P.texts]

/-! ## Files -/

theorem sections_divideT : ∀ (ts : List Tok) (prev : Int), sections prev (ts.map fun t => (t.line, t.kind, t.text)) =
    ((divideT prev ts).1.map Tok.kt, (divideT prev ts).2.map (List.map Tok.kt))
  | [], _ => rfl
  | t :: ts, prev => by
    have ih := sections_divideT ts t.line
    simp only [List.map_cons, sections, ih, divideT, startsScope_iff]
    split <;> rfl

theorem sectionsOf_append {a b : Bytes} (wa : Whole a) (wb : BeginsScope b) (s : Int) :
    sectionsOf s (a ++ b) = ((sectionsOf s a).1, (sectionsOf s a).2 ++ (sectionsOf 0 b).2) := by
  simp only [sectionsOf, placed_eq, sections_divideT, divideT_toks wa wb s (t := 0) (by omega), List.map_append, List.map_map]
  congr 2
  refine List.map_congr_left fun g _ => ?_
  rw [Function.comp_apply, List.map_map]
  rfl

/-- **C64** The sections of a file are those of its declarations. -/
theorem C64_sections : ∀ (ds : List Bytes), (∀ d ∈ ds, Whole d ∧ BeginsScope d) →
    (sectionsOf 0 ds.flatten).2 = ds.flatMap fun d => (sectionsOf 0 d).2 := by
  intro ds hd
  induction ds with
  | nil => rfl
  | cons d ds ih =>
    rw [List.flatten_cons, List.flatMap_cons]
    by_cases hn : ds = []
    · subst hn; simp
    · rw [sectionsOf_append (hd d (by simp)).1 ((looks_file ds (fun x hx => hd x (by simp [hx])) 0).2.2 hn), ih (fun x hx => hd x (by simp [hx]))]

/-- The first section of a text that begins with one. -/
theorem sections_begin {d : Bytes} (b : BeginsScope d) {x : Lexeme} (hx : (lexAll d).head? = some x) :
    (sectionsOf 0 d).1 = [] ∧ ∃ g gs, (sectionsOf 0 d).2 = (x.kt :: g) :: gs := by
  obtain ⟨⟨y, hy, hk⟩, wf⟩ := b
  rw [hx] at hy
  cases hy
  obtain ⟨xs, hxs⟩ : ∃ xs, lexAll d = x :: xs := by
    cases hb : lexAll d with
    | nil => rw [hb] at hx; cases hx
    | cons y ys => rw [hb] at hx; cases hx; exact ⟨ys, rfl⟩
  rw [hxs, List.map_cons] at wf
  obtain ⟨m, rest, hm, h0⟩ := lineList_first wf 0 0
  rw [sectionsOf, placed, tokens_eq, hxs, List.map_cons, hm, List.map_cons, List.zip_cons_cons, sections]
  have : m ≠ 0 - 1 ∧ startsScope (x.kt).2 = true := ⟨by omega, hk⟩
  simp only [this, ne_eq, not_false_eq_true, and_self, if_true]
  exact ⟨trivial, _, _, rfl⟩

/-- **C64** A file of declarations that survive: what `Save` concatenates is the text of the file. -/
theorem C64_file (ho : MapOrder ord) (w : WF h) (ac : Acyclic h) {ds : List Bytes} (hd : ∀ d ∈ ds, Whole d ∧ BeginsScope d)
    (hs : ∀ d ∈ ds, ∀ g ∈ (sectionsOf 0 d).2, Survives g) :
    ∃ h' scs, parseScopeOrd ord h 0 ds.flatten = some (h', scs) ∧ scopesText h' scs = some ds.flatten := by
  obtain ⟨h', scs, e, saved, e1, e2⟩ := C64_text ho w ac 0 ds.flatten (by
    rw [C64_sections ds hd]
    intro g hg
    obtain ⟨d, hd', hg⟩ := List.mem_flatMap.1 hg
    exact hs d hd' g hg)
  refine ⟨h', scs, e, ?_⟩
  have : (sectionsOf 0 ds.flatten).1 = [] := by
    by_cases hn : ds = []
    · subst hn; rfl
    · have b := (looks_file ds hd 0).2.2 hn
      obtain ⟨x, hx, _⟩ := b.1
      exact (sections_begin b hx).1
  rw [e1, ← e2, this]
  rfl

/-- **C64** Parse and save: if a file is formatted, begins with a section, has a package clause, and all its sections survive, all files
stay as they were. -/
theorem C64_save (env : Env) (spare : Nat) (fs : FS) (st : AState) (w : WF st.heap) (ac : Acyclic st.heap)
    {file name data : Bytes} (hs : ∀ g ∈ (sectionsOf 0 data).2, Survives g) (hl : (sectionsOf 0 data).1 = [])
    (hp : ∃ g ∈ (sectionsOf 0 data).2, ∃ t, g.head? = some t ∧ b!"package".isPrefixOf t.2)
    (hn : IsGoName file name) (hf : fs name = some data)
    (o1 : env.openDenied name = false) (o2 : env.readFails name = false) (o3 : env.formatSource data = some data)
    (o4 : env.mkdirOk (env.dir name) = true) (o5 : env.createOk name = true) (o6 : env.writeFailsAfter name data = none) :
    ∃ st' ast, parseAst env spare fs st file = some (.ok (st', ast)) ∧ ast.save env fs st' file [] = some (fs, none) := by
  obtain ⟨h', scs, q1, saved, q2, q3⟩ := C64_text mapOrder_id w ac 0 data hs
  rw [hl] at q3
  have q3 : saved = data := q3
  subst q3
  obtain ⟨h2, scs2, r1, _, r3⟩ := C39_parsed env spare fs st w ac hn hf o1 o2 o3
  have r1' : parseScopeOrd (fun _ => commonDeeperExtract) st.heap 0 saved = some (h2, scs2) := r1
  rw [q1] at r1'
  simp only [Option.some.injEq, Prod.mk.injEq] at r1'
  obtain ⟨rfl, rfl⟩ := r1'
  have hne : saved ≠ [] := by
    rintro rfl
    obtain ⟨g, hg, _⟩ := hp
    have : (sectionsOf 0 []).2 = [] := rfl
    rw [this] at hg
    cases hg
  have hpk : ∃ sc ∈ scs, sc.kind = .package_ := by
    obtain ⟨g, hm, t, ht, hpre⟩ := hp
    have hk : (b!"package", ScopeKind.package_) ∈ scopeKeywords := by decide
    obtain ⟨h1, p, l, sx, h'x, P⟩ := parsed mapOrder_id w ac 0 saved
    have e2 := P.parse
    rw [q1] at e2
    simp only [Option.some.injEq, Prod.mk.injEq] at e2
    obtain ⟨rfl, rfl⟩ := e2
    rw [P.sections mapOrder_id] at hm
    obtain ⟨gr, hgr, rfl⟩ := List.mem_map.1 hm
    refine ⟨scopeOf h1 gr, by rw [P.scs]; exact List.mem_map.2 ⟨gr, hgr, rfl⟩, ?_⟩
    cases gr with
    | nil => cases ht
    | cons a gr =>
      simp only [List.map_cons, List.head?_cons, Option.some.injEq] at ht
      subst ht
      obtain ⟨u, hu⟩ := List.isPrefixOf_iff_prefix.1 hpre
      have : h1.text (some a) = b!"package" ++ u := hu.symm
      rw [scopeOf, List.head?_cons, this]
      exact (C45_newScopeKind_some _ _ (by decide)).2 ⟨_, u, hk, rfl⟩
  obtain ⟨st', ast, s1, _, _, _, _, s2, s3, _⟩ := r3 hpk
  refine ⟨st', ast, s1, ?_⟩
  have := C37_save_ok env fs file saved name saved [] hn (by
    unfold IsOutput; rw [if_neg (by simp)]; exact .inl o3)
  have ok := this.1.2 ⟨hne, o4, o5, o6⟩
  obtain ⟨c1, c2⟩ := this.2 ok
  simp only [AstRec.save, s2, s3, q2, Option.map_some]
  rw [Option.some.injEq, Prod.ext_iff]
  refine ⟨?_, ok⟩
  funext g
  by_cases hg : g = name
  · rw [hg]; exact c1.trans hf.symm
  · exact c2 g hg

/-- **C64** A file put together from declarations that survive is such a file. -/
theorem C64_declarations {ds : List Bytes} (hd : ∀ d ∈ ds, Whole d ∧ BeginsScope d) (hs : ∀ d ∈ ds, ∀ g ∈ (sectionsOf 0 d).2, Survives g)
    (hp : ∃ rest, b!"package " ++ rest ∈ ds) :
    (∀ g ∈ (sectionsOf 0 ds.flatten).2, Survives g) ∧ (sectionsOf 0 ds.flatten).1 = [] ∧
      ∃ g ∈ (sectionsOf 0 ds.flatten).2, ∃ t, g.head? = some t ∧ b!"package".isPrefixOf t.2 := by
  refine ⟨?_, ?_, ?_⟩
  · rw [C64_sections ds hd]
    intro g hg
    obtain ⟨d, hd', hg⟩ := List.mem_flatMap.1 hg
    exact hs d hd' g hg
  · obtain ⟨rest, hr⟩ := hp
    have b := (looks_file ds hd 0).2.2 (by rintro rfl; cases hr)
    obtain ⟨x, hx, _⟩ := b.1
    exact (sections_begin b hx).1
  · obtain ⟨rest, hr⟩ := hp
    have hk : (b!"package", ScopeKind.package_) ∈ scopeKeywords := by decide
    obtain ⟨x, xs, t, hx, ht⟩ := lexAll_keyword hk (32 :: rest)
    have hx' : lexAll (b!"package " ++ rest) = x :: xs := hx
    obtain ⟨_, g, gs, hg⟩ := sections_begin (x := x) (hd _ hr).2 (by rw [hx']; rfl)
    refine ⟨x.kt :: g, ?_, x.kt, rfl, ?_⟩
    · rw [C64_sections ds hd]
      exact List.mem_flatMap.2 ⟨_, hr, by rw [hg]; simp⟩
    · exact List.isPrefixOf_iff_prefix.2 ⟨t, by simp only [Lexeme.kt]; exact ht.symm⟩

end Goast
