import Verif.Props.Sections
import Verif.Props.Strip

/-!
# C67, C68: a file saved as it was parsed is parsed as before; tools that rewrite words by their labels
-/

namespace Goast
open Heap

/-! ## A client of the API

Not part of the repository: the loop that every tool built on it has.  It visits all nodes of all scopes with `IterScope` and `IterNext`, asks
for `Kind` and `Text` and calls `SetText`. -/

/-- The callback on nodes. -/
def rewriteStep (g : Kind → Bytes → Bytes) (w : Heap × Unit) (a : Addr) : (Heap × Unit) × Bool :=
  ((w.1.setText (some a) (g (w.1.kind (some a)) (w.1.text (some a))), ()), true)

/-- The callback on scopes (`none`: an iteration did not end). -/
def rewriteScope (g : Kind → Bytes → Bytes) (s : Option Heap) (sc : ScopeRec) : Option Heap × Bool :=
  match s with
  | none => (none, true)
  | some h =>
    match h.iterEdit (rewriteStep g) () sc.node with
    | none => (none, true)
    | some r => (some r.1.1, true)

/-- The whole loop. -/
def rewriteAll (g : Kind → Bytes → Bytes) (st : AState) (f : AstRec) : Option AState :=
  (AstRec.iterScope (rewriteScope g) (f.scopes st) (some st.heap)).map st.edited

/-! ## Lemmas -/

/-- Same links, kinds and lines. -/
structure SameShape (h h' : Heap) : Prop where
  size : h'.size = h.size
  next : ∀ p, h'.next p = h.next p
  prev : ∀ p, h'.prev p = h.prev p
  kind : ∀ p, h'.kind p = h.kind p
  line : ∀ p, h'.line p = h.line p

theorem SameShape.refl (h : Heap) : SameShape h h := ⟨rfl, fun _ => rfl, fun _ => rfl, fun _ => rfl, fun _ => rfl⟩

theorem SameShape.trans {h h1 h2 : Heap} (a : SameShape h h1) (b : SameShape h1 h2) : SameShape h h2 :=
  ⟨b.size.trans a.size, fun p => (b.next p).trans (a.next p), fun p => (b.prev p).trans (a.prev p), fun p => (b.kind p).trans (a.kind p),
    fun p => (b.line p).trans (a.line p)⟩

theorem SameShape.setText (h : Heap) (p : Ptr) (t : Bytes) : SameShape h (h.setText p t) := by
  constructor <;> simp

theorem SameShape.fwd {h h' : Heap} (s : SameShape h h') {p : Ptr} {l : List Addr} (f : Fwd h p l) : Fwd h' p l :=
  f.congr (fun x hx => by rw [s.size]; exact f.lt x hx) (fun x _ => s.next _)

theorem SameShape.acyclic {h h' : Heap} (s : SameShape h h') (ac : Acyclic h) : Acyclic h' := by
  intro a ha
  rw [s.size] at ha
  obtain ⟨l, f⟩ := ac a ha
  exact ⟨l, s.fwd f⟩

theorem SameShape.scopeNodes {h h' : Heap} (s : SameShape h h') {scs : List ScopeRec} {lss : List (List Addr)} (n : ScopeNodes h scs lss) :
    ScopeNodes h' scs lss := n.frame s.size fun x _ => s.next _

theorem rewrite_run (g : Kind → Bytes → Bytes) : ∀ (l : List Addr) {h : Heap} {p : Ptr} {fuel : Nat}, WF h → Fwd h p l → l.Nodup → l.length < fuel →
    ∃ h', loop (fun (w : Heap × Unit) a => w.1.next (some a)) (fun w a => some (rewriteStep g w a)) fuel (h, ()) p = some ((h', ()), none) ∧
      WF h' ∧ SameShape h h' ∧ (∀ x ∈ l, h'.text (some x) = g (h.kind (some x)) (h.text (some x))) ∧ ∀ x, x ∉ l → h'.text (some x) = h.text (some x)
  | [], h, p, fuel, w, f, nd, hf => by
    cases f
    refine ⟨h, ?_, w, .refl h, by simp, fun _ _ => rfl⟩
    cases fuel <;> rfl
  | a :: l, h, p, fuel, w, f, nd, hf => by
    obtain ⟨fuel, rfl⟩ : ∃ n, fuel = n + 1 := ⟨fuel - 1, by omega⟩
    obtain rfl := f.head
    obtain ⟨la, nx, fl⟩ := Fwd.at (B := []) f
    rw [List.nodup_cons] at nd
    simp only [List.length_cons] at hf
    let h1 := h.setText (some a) (g (h.kind (some a)) (h.text (some a)))
    have s1 : SameShape h h1 := .setText ..
    have t1 : ∀ x, h1.text (some x) = if x = a then g (h.kind (some a)) (h.text (some a)) else h.text (some x) := by
      intro x
      rw [text_setText _ _ _ _ la]
      simp
    obtain ⟨h', e, w', s', r1, r2⟩ := rewrite_run g l (fuel := fuel) (h := h1) (p := l.head?) (wf_setText w ..) (s1.fwd fl) nd.2 (by omega)
    refine ⟨h', ?_, w', s1.trans s', ?_, ?_⟩
    · simp only [List.head?_cons, loop]
      have : h1.next (some a) = l.head? := (s1.next _).trans nx
      show loop _ _ fuel (h1, ()) (h1.next (some a)) = _
      rw [this]
      exact e
    · intro x hx
      rcases List.mem_cons.1 hx with rfl | hm
      · rw [r2 _ nd.1, t1, if_pos rfl]
      · rw [r1 x hm, s1.kind, t1, if_neg (fun e : x = a => nd.1 (e ▸ hm))]
    · intro x hx
      simp only [List.mem_cons, not_or] at hx
      rw [r2 x hx.2, t1, if_neg hx.1]

theorem rewrite_scopes (g : Kind → Bytes → Bytes) {scs : List ScopeRec} : ∀ {h : Heap} {lss : List (List Addr)}, WF h → ScopeNodes h scs lss →
    lss.flatten.Nodup → ∃ h', AstRec.iterScope (rewriteScope g) scs (some h) = some h' ∧ WF h' ∧ SameShape h h' ∧
      (∀ x ∈ lss.flatten, h'.text (some x) = g (h.kind (some x)) (h.text (some x))) ∧ ∀ x, x ∉ lss.flatten → h'.text (some x) = h.text (some x) := by
  induction scs with
  | nil =>
    intro h lss w sn nd
    cases sn
    exact ⟨h, rfl, w, .refl h, by simp, fun _ _ => rfl⟩
  | cons sc scs ih =>
    intro h lss w sn nd
    cases sn with
    | cons f sn =>
      rename_i l lss
      simp only [List.flatten_cons, List.nodup_append] at nd
      obtain ⟨n1, n2, n3⟩ := nd
      have hl := f.length_le
      obtain ⟨h1, e1, w1, s1, a1, b1⟩ := rewrite_run g l (fuel := h.size + 1) w f n1 (by omega)
      obtain ⟨h2, e2, w2, s2, a2, b2⟩ := ih w1 (s1.scopeNodes sn) n2
      refine ⟨h2, ?_, w2, s1.trans s2, ?_, ?_⟩
      · rw [AstRec.iterScope]
        have : h.iterEdit (rewriteStep g) () sc.node = some ((h1, ()), none) := e1
        simp only [rewriteScope, this, e2]
      · intro x hx
        simp only [List.flatten_cons, List.mem_append] at hx
        by_cases hm : x ∈ lss.flatten
        · rw [a2 x hm, s1.kind, b1 x (fun hh => n3 x hh x hm rfl)]
        · rw [b2 x hm, a1 x (hx.resolve_right hm)]
      · intro x hx
        simp only [List.flatten_cons, List.mem_append, not_or] at hx
        rw [b2 x hx.2, b1 x hx.1]

/-! ## C68 -/

/-- **C68** The loop on any document: it ends, the nodes stay in their places with their kinds and lines, every node has the text that the
tool computed from its kind and text, and that is what is saved. -/
theorem C68_rewrite {st : AState} {f : AstRec} {lss : List (List Addr)} (d : Doc st f lss) (g : Kind → Bytes → Bytes) :
    ∃ st', rewriteAll g st f = some st' ∧ Doc st' f lss ∧ (Acyclic st.heap → Acyclic st'.heap) ∧ f.scopes st' = f.scopes st ∧
      (∀ p, st'.heap.kind p = st.heap.kind p ∧ st'.heap.line p = st.heap.line p ∧ st'.heap.next p = st.heap.next p ∧ st'.heap.prev p = st.heap.prev p) ∧
      Saves st' f (lss.flatten.map fun a => g (st.heap.kind (some a)) (st.heap.text (some a))).flatten := by
  obtain ⟨h', e, w, s, t1, _⟩ := rewrite_scopes g d.wf d.nodes d.nodup
  refine ⟨st.edited h', by rw [rewriteAll, e]; rfl, ?_, s.acyclic, rfl, fun p => ⟨s.kind p, s.line p, s.next p, s.prev p⟩, ?_⟩
  · exact ⟨w, s.scopeNodes d.nodes, d.nodup⟩
  · have d' : Doc (st.edited h') f lss := ⟨w, s.scopeNodes d.nodes, d.nodup⟩
    have := d'.saves
    have e : allText (st.edited h').heap lss = (lss.flatten.map fun a => g (st.heap.kind (some a)) (st.heap.text (some a))).flatten := by
      rw [allText]
      congr 1
      exact List.map_congr_left fun a ha => t1 a ha
    rwa [e] at this

/-! ## From file to file -/

theorem Labelled.text {g g' : List Token} (L : Labelled g g') : tokText g' = tokText g := by
  cases L with
  | other => rfl
  | func S e => simp only [tokText_cons, S.text]
  | method hc P S e => simp only [tokText_cons, tokText_append, P.text, ← S.text]
  | type P D =>
    have := D.text
    rw [List.append_nil] at this
    simp only [tokText_cons, tokText_append, this]

theorem LabelledAll.text {gs gs' : List (List Token)} (L : LabelledAll gs gs') : tokText gs'.flatten = tokText gs.flatten := by
  induction L with
  | nil => rfl
  | cons l _ ih => rw [List.flatten_cons, List.flatten_cons, tokText_append, tokText_append, l.text, ih]

/-- A section that begins with `package` is a package scope. -/
theorem package_scope {h : Heap} (w : WF h) (ac : Acyclic h) {data : Bytes}
    (hp : ∃ g ∈ (sectionsOf 0 data).2, ∃ t, g.head? = some t ∧ b!"package".isPrefixOf t.2) {h' : Heap} {scs : List ScopeRec}
    (e : parseScopeOrd (fun _ => commonDeeperExtract) h 0 data = some (h', scs)) : ∃ sc ∈ scs, sc.kind = .package_ := by
  obtain ⟨g, hm, t, ht, hpre⟩ := hp
  have hk : (b!"package", ScopeKind.package_) ∈ scopeKeywords := by decide
  obtain ⟨h1, p, l, sx, h'x, P⟩ := parsed mapOrder_id w ac 0 data
  have e2 := P.parse
  rw [e] at e2
  simp only [Option.some.injEq, Prod.mk.injEq] at e2
  obtain ⟨rfl, rfl⟩ := e2
  rw [P.sections mapOrder_id] at hm
  obtain ⟨gr, hgr, rfl⟩ := List.mem_map.1 hm
  refine ⟨scopeOf h1 gr, by rw [P.scs]; exact List.mem_map.2 ⟨gr, hgr, rfl⟩, ?_⟩
  cases gr with
  | nil => cases ht
  | cons a gr =>
    simp only [List.map_cons, List.head?_cons, Option.some.injEq] at ht
    subst ht
    obtain ⟨u, hu⟩ := List.isPrefixOf_iff_prefix.1 hpre
    have : h1.text (some a) = b!"package" ++ u := hu.symm
    rw [scopeOf, List.head?_cons, this]
    exact (C45_newScopeKind_some _ _ (by decide)).2 ⟨_, u, hk, rfl⟩

/-- **C68** Parse, rewrite, save: for a formatted file that begins with a section, has a package clause, and whose sections the specification
can read, what is saved is the text of its tokens after the parse, each rewritten by its label. -/
theorem C68_file (env : Env) (spare : Nat) (fs : FS) (st : AState) (w : WF st.heap) (ac : Acyclic st.heap) {file name data : Bytes}
    {gs' : List (List Token)} (L : LabelledAll (sectionsOf 0 data).2 gs')
    (hp : ∃ g ∈ (sectionsOf 0 data).2, ∃ t, g.head? = some t ∧ b!"package".isPrefixOf t.2)
    (hn : IsGoName file name) (hf : fs name = some data)
    (o1 : env.openDenied name = false) (o2 : env.readFails name = false) (o3 : env.formatSource data = some data) (g : Kind → Bytes → Bytes) :
    ∃ st' ast st'', parseAst env spare fs st file = some (.ok (st', ast)) ∧ rewriteAll g st' ast = some st'' ∧ WF st''.heap ∧ Acyclic st''.heap ∧
      Saves st'' ast (gs'.flatten.map fun t => g t.1 t.2).flatten := by
  obtain ⟨h', scs, r1, _, r3⟩ := C39_parsed env spare fs st w ac hn hf o1 o2 o3
  have r1' : parseScopeOrd (fun _ => commonDeeperExtract) st.heap 0 data = some (h', scs) := r1
  have hpk := package_scope w ac hp r1'
  obtain ⟨st', ast, s1, _, _, _, _, s2, s3, _⟩ := r3 hpk
  obtain ⟨lss, data', d, hr, _⟩ := C61_parsed w ac s1
  obtain ⟨h2, scs2, lss2, q1, q2, q3⟩ := C65_all mapOrder_id w ac L
  rw [r1'] at q1
  simp only [Option.some.injEq, Prod.mk.injEq] at q1
  obtain ⟨rfl, rfl⟩ := q1
  rw [← s2, ← s3] at q2
  cases q2.det d.nodes
  obtain ⟨st'', e1, d', a', _, _, e2⟩ := C68_rewrite d g
  have ac' := (C12_separate mapOrder_id w ac r1').2.1
  refine ⟨st', ast, st'', s1, e1, d'.wf, a' (by rw [s3]; exact ac'), ?_⟩
  rw [← q3, ← List.map_flatten, List.map_map, ← s3]
  exact e2

/-- Rename the functions (and methods, and methods of interfaces) called `old`. -/
def renameFunc (old new : Bytes) (k : Kind) (t : Bytes) : Bytes := if k = .funcName ∧ t = old then new else t

/-- **C68** Renaming a function: if exactly one word of the file is labelled as the name of a function called `old`, the tool saves the file with that
word replaced. -/
theorem C68_rename (env : Env) (spare : Nat) (fs : FS) (st : AState) (w : WF st.heap) (ac : Acyclic st.heap) {file name data : Bytes}
    {gs' : List (List Token)} (L : LabelledAll (sectionsOf 0 data).2 gs') (hl : (sectionsOf 0 data).1 = [])
    (hp : ∃ g ∈ (sectionsOf 0 data).2, ∃ t, g.head? = some t ∧ b!"package".isPrefixOf t.2)
    (hn : IsGoName file name) (hf : fs name = some data)
    (o1 : env.openDenied name = false) (o2 : env.readFails name = false) (o3 : env.formatSource data = some data)
    {old : Bytes} {A B : List Token} (one : gs'.flatten = A ++ (.funcName, old) :: B) (nA : (.funcName, old) ∉ A) (nB : (.funcName, old) ∉ B) (new : Bytes) :
    data = tokText A ++ old ++ tokText B ∧
    ∃ st' ast st'', parseAst env spare fs st file = some (.ok (st', ast)) ∧ rewriteAll (renameFunc old new) st' ast = some st'' ∧ WF st''.heap ∧ Acyclic st''.heap ∧
      Saves st'' ast (tokText A ++ new ++ tokText B) := by
  have keep : ∀ ts : List Token, (.funcName, old) ∉ ts → (ts.map fun t => renameFunc old new t.1 t.2).flatten = tokText ts := by
    intro ts hts
    rw [tokText]
    congr 1
    refine List.map_congr_left fun t ht => ?_
    rw [renameFunc, if_neg]
    rintro ⟨h1, h2⟩
    exact hts (by rw [← h1, ← h2]; exact ht)
  constructor
  · obtain ⟨h1, p, l, sx, h'x, P⟩ := parsed mapOrder_id w ac 0 data
    have := lead_text mapOrder_id P
    rw [hl, tokText_nil, List.nil_append] at this
    have e : ((sectionsOf 0 data).2.map tokText).flatten = tokText (sectionsOf 0 data).2.flatten := by
      rw [tokText, List.map_flatten, List.flatten_flatten, List.map_map]
      rfl
    rw [← this, e, ← L.text, one]
    simp
  · have := C68_file env spare fs st w ac L hp hn hf o1 o2 o3 (renameFunc old new)
    rw [one, List.map_append, List.map_cons, List.flatten_append, List.flatten_cons, keep A nA, keep B nB, renameFunc, if_pos ⟨rfl, rfl⟩, ← List.append_assoc] at this
    exact this

/-! ## C67 -/

theorem Word.isWord {s : Bytes} (hw : Word s) : IsWord s := by
  refine ⟨hw.ne_nil, fun b hb => ⟨(hw.bytes b hb).1, (hw.bytes b hb).2.1, (hw.bytes b hb).2.2.1⟩, ?_, ?_⟩ <;>
    (rintro ⟨t, rfl⟩; exact (hw.bytes 47 (by simp)).2.2.2 rfl)

theorem IsWord.no_sep {s : Bytes} (hw : IsWord s) {c : UInt8} (hc : c ∈ separatorBytes) : s ≠ [c] := by
  rintro rfl
  exact (hw.2.1 c (by simp)).1 hc

theorem lineList_word0 {t : Bytes} (ht : IsWord t) (n last : Int) (ts : List Bytes) : lineList n last [] (t :: ts) = n :: lineList n n [] ts := by
  rw [lineList, if_neg (ht.no_sep (by decide)), if_neg (ht.no_sep (by decide)), if_neg (by simp), if_pos ht]

theorem missing_word {t : Bytes} (ht : IsWord t) (ts : List Bytes) : missing [] (t :: ts) = missing [] ts := by
  rw [missing, if_neg (ht.no_sep (by decide)), if_neg (ht.no_sep (by decide)), if_neg (by simp)]

/-- A declaration `func NAME…`, for any name: its sections, and what `Whole` and `BeginsScope` say. -/
theorem func_decl {c : UInt8} (hc : c ∈ separatorBytes) (rest : Bytes) : ∃ ts gs, ∀ name, Word name →
    sectionsOf 0 (b!"func " ++ name ++ c :: rest) = ([], ((.func_, b!"func") :: (.space, b!" ") :: (.raw, name) :: ts) :: gs) ∧
    BeginsScope (b!"func " ++ name ++ c :: rest) ∧
    (Whole (b!"func " ++ name ++ c :: rest) ↔ (lexAll (c :: rest)).getLast? = some ⟨b!"\n", false⟩ ∧ missing [] ((lexAll (c :: rest)).map Lexeme.text) = []) := by
  obtain ⟨X, hX⟩ : ∃ X, X = lexAll (c :: rest) := ⟨_, rfl⟩
  have hX' : X = ⟨[c], false⟩ :: lexAll rest := hX.trans (lexAll_sep hc rest)
  refine ⟨(sections 0 ((lineList 0 0 [] (X.map Lexeme.text)).zip (X.map Lexeme.kt))).1,
    (sections 0 ((lineList 0 0 [] (X.map Lexeme.text)).zip (X.map Lexeme.kt))).2, fun name hn => ?_⟩
  have e : lexAll (b!"func " ++ name ++ c :: rest) = ⟨b!"func", false⟩ :: ⟨[32], false⟩ :: ⟨name, false⟩ :: X := by
    have : b!"func " ++ name ++ c :: rest = b!"func" ++ 32 :: (name ++ c :: rest) := by simp
    rw [this, lexAll_word (by decide) (by decide) space_sep, lexAll_word hn.bytes hn.ne_nil hc, hX']
  have iw := hn.isWord
  have w0 : IsWord b!"func" := by decide
  refine ⟨?_, ⟨⟨⟨b!"func", false⟩, by rw [e]; rfl, by decide⟩, ?_⟩, ?_⟩
  · rw [sectionsOf, placed, tokens_eq, e]
    simp only [List.map_cons]
    rw [lineList_word0 w0]
    have : lineList 0 0 [] ([32] :: name :: X.map Lexeme.text) = 0 :: lineList 0 0 [] (name :: X.map Lexeme.text) := by
      rw [lineList]; simp [IsWord, cutOff]
    rw [this, lineList_word0 iw]
    have k1 : Lexeme.kt ⟨b!"func", false⟩ = (.func_, b!"func") := by decide
    have k2 : Lexeme.kt ⟨[32], false⟩ = (.space, b!" ") := by decide
    have k3 : Lexeme.kt ⟨name, false⟩ = (.raw, name) := by simp [Lexeme.kt, hn.raw]
    simp only [List.zip_cons_cons, sections, k1, k2, k3, ne_eq, not_true_eq_false, false_and, if_false]
    rw [if_pos (by decide)]
  · rw [e]
    simp [wordFirst, w0]
  · rw [Whole, e]
    simp only [List.map_cons]
    rw [missing_word w0]
    have : missing [] ([32] :: name :: X.map Lexeme.text) = missing [] (X.map Lexeme.text) := by
      rw [missing, if_neg (by decide), if_neg (by decide), if_neg (by simp), missing_word iw]
    rw [this, hX']
    simp [List.getLast?_cons_cons, lexAll_sep hc]

/-- **C67** Rename, save and parse again.  A file is put together from declarations `ds₁`, a function `old` and declarations `ds₂`, the
specification can read its labels, and no other name of a function is `old`.  Then the tool writes the file with the function's name
replaced by `new`, and if that is formatted, `ParseAst` on it returns an `Ast` whose getters name everything as before, except that the function
is called `new`. -/
theorem C67_rename (env : Env) (spare spare' : Nat) (fs : FS) (st : AState) (w : WF st.heap) (ac : Acyclic st.heap) {file name : Bytes}
    {ds₁ ds₂ : List (Bytes × List Entry)} {es : List Entry} {old new rest : Bytes} {c : UInt8} (hc : c ∈ separatorBytes) (wo : Word old) (wn : Word new)
    (h1 : ∀ d ∈ ds₁, Whole d.1 ∧ BeginsScope d.1 ∧ DeclaresAll (sectionsOf 0 d.1).2 d.2)
    (h2 : ∀ d ∈ ds₂, Whole d.1 ∧ BeginsScope d.1 ∧ DeclaresAll (sectionsOf 0 d.1).2 d.2)
    (h0 : Whole (b!"func " ++ old ++ c :: rest)) (h0' : DeclaresAll (sectionsOf 0 (b!"func " ++ old ++ c :: rest)).2 (.func old :: es))
    (hp : ∃ rest, ∃ d ∈ ds₁, d.1 = b!"package " ++ rest)
    {g₁ g₂ g₃ : List (List Token)} {g : List Token} (L1 : LabelledAll (ds₁.flatMap fun d => (sectionsOf 0 d.1).2) g₁)
    (L0 : LabelledAll (sectionsOf 0 (b!"func " ++ old ++ c :: rest)).2 (((.func_, b!"func") :: (.space, b!" ") :: (.funcName, old) :: g) :: g₃))
    (L2 : LabelledAll (ds₂.flatMap fun d => (sectionsOf 0 d.1).2) g₂)
    (one : (.funcName, old) ∉ g₁.flatten ∧ (.funcName, old) ∉ g ∧ (.funcName, old) ∉ g₃.flatten ∧ (.funcName, old) ∉ g₂.flatten)
    (hn : IsGoName file name)
    (hf : fs name = some (ds₁.flatMap Prod.fst ++ (b!"func " ++ old ++ c :: rest) ++ ds₂.flatMap Prod.fst))
    (o1 : env.openDenied name = false) (o2 : env.readFails name = false)
    (o3 : env.formatSource (ds₁.flatMap Prod.fst ++ (b!"func " ++ old ++ c :: rest) ++ ds₂.flatMap Prod.fst) =
      some (ds₁.flatMap Prod.fst ++ (b!"func " ++ old ++ c :: rest) ++ ds₂.flatMap Prod.fst))
    (o3' : env.formatSource (ds₁.flatMap Prod.fst ++ (b!"func " ++ new ++ c :: rest) ++ ds₂.flatMap Prod.fst) =
      some (ds₁.flatMap Prod.fst ++ (b!"func " ++ new ++ c :: rest) ++ ds₂.flatMap Prod.fst))
    (o4 : env.mkdirOk (env.dir name) = true) (o5 : env.createOk name = true)
    (o6 : env.writeFailsAfter name (ds₁.flatMap Prod.fst ++ (b!"func " ++ new ++ c :: rest) ++ ds₂.flatMap Prod.fst) = none) :
    ∃ st1 ast st2 fs' st3 ast', parseAst env spare fs st file = some (.ok (st1, ast)) ∧ rewriteAll (renameFunc old new) st1 ast = some st2 ∧
      ast.save env fs st2 file [] = some (fs', none) ∧
      fs' name = some (ds₁.flatMap Prod.fst ++ (b!"func " ++ new ++ c :: rest) ++ ds₂.flatMap Prod.fst) ∧ (∀ other, other ≠ name → fs' other = fs other) ∧
      parseAst env spare' fs' st2 file = some (.ok (st3, ast')) ∧
      (ast'.scopes st3).map (ScopeRec.card st3.heap) = (ds₁.flatMap Prod.snd ++ (.func new :: es) ++ ds₂.flatMap Prod.snd).map fun en => some en.card := by
  obtain ⟨ts, gs, fd⟩ := func_decl hc rest
  obtain ⟨so, bo, wo'⟩ := fd old wo
  obtain ⟨sn, bn, wn'⟩ := fd new wn
  have h0n : Whole (b!"func " ++ new ++ c :: rest) := wn'.2 (wo'.1 h0)
  -- the declarations of both files
  let decls := fun (x : Bytes) => ds₁.map Prod.fst ++ (b!"func " ++ x ++ c :: rest) :: ds₂.map Prod.fst
  have flat : ∀ x, (decls x).flatten = ds₁.flatMap Prod.fst ++ (b!"func " ++ x ++ c :: rest) ++ ds₂.flatMap Prod.fst := by
    intro x
    simp [decls, List.flatMap_def]
  have good : ∀ x, Whole (b!"func " ++ x ++ c :: rest) → BeginsScope (b!"func " ++ x ++ c :: rest) → ∀ d ∈ decls x, Whole d ∧ BeginsScope d := by
    intro x q1 q2 d hd
    simp only [decls, List.mem_append, List.mem_cons, List.mem_map] at hd
    rcases hd with ⟨y, hy, rfl⟩ | rfl | ⟨y, hy, rfl⟩
    · exact ⟨(h1 y hy).1, (h1 y hy).2.1⟩
    · exact ⟨q1, q2⟩
    · exact ⟨(h2 y hy).1, (h2 y hy).2.1⟩
  have secs : ∀ x, Whole (b!"func " ++ x ++ c :: rest) → BeginsScope (b!"func " ++ x ++ c :: rest) → (sectionsOf 0 (decls x).flatten).2 =
      (ds₁.flatMap fun d => (sectionsOf 0 d.1).2) ++ ((sectionsOf 0 (b!"func " ++ x ++ c :: rest)).2 ++ ds₂.flatMap fun d => (sectionsOf 0 d.1).2) := by
    intro x q1 q2
    rw [C64_sections _ (good x q1 q2)]
    simp only [decls, List.flatMap_append, List.flatMap_cons, List.flatMap_map]
  have begin_ : ∀ x, Whole (b!"func " ++ x ++ c :: rest) → BeginsScope (b!"func " ++ x ++ c :: rest) → (sectionsOf 0 (decls x).flatten).1 = [] := by
    intro x q1 q2
    have b := (looks_file (decls x) (good x q1 q2) 0).2.2 (by simp [decls])
    obtain ⟨y, hy, _⟩ := b.1
    exact (sections_begin b hy).1
  have pack : ∀ x, Whole (b!"func " ++ x ++ c :: rest) → BeginsScope (b!"func " ++ x ++ c :: rest) →
      ∃ g ∈ (sectionsOf 0 (decls x).flatten).2, ∃ t, g.head? = some t ∧ b!"package".isPrefixOf t.2 := by
    intro x q1 q2
    obtain ⟨r, d, hd, e⟩ := hp
    have hk : (b!"package", ScopeKind.package_) ∈ scopeKeywords := by decide
    obtain ⟨y, ys, t, hx, ht⟩ := lexAll_keyword hk (32 :: r)
    have hx' : lexAll d.1 = y :: ys := by rw [e]; exact hx
    obtain ⟨_, g, gs, hg⟩ := sections_begin (x := y) (h1 d hd).2.1 (by rw [hx']; rfl)
    refine ⟨y.kt :: g, ?_, y.kt, rfl, ?_⟩
    · rw [secs x q1 q2]
      exact List.mem_append_left _ (List.mem_flatMap.2 ⟨_, hd, by rw [hg]; simp⟩)
    · exact List.isPrefixOf_iff_prefix.2 ⟨t, by simp only [Lexeme.kt]; exact ht.symm⟩
  -- the first parse
  have LL : LabelledAll (sectionsOf 0 (decls old).flatten).2 (g₁ ++ ((((.func_, b!"func") :: (.space, b!" ") :: (.funcName, old) :: g) :: g₃) ++ g₂)) := by
    rw [secs old h0 bo]
    exact L1.append (L0.append L2)
  have e1 := L1.text
  have e0 := L0.text
  have e2 := L2.text
  have tx : ∀ (ds : List (Bytes × List Entry)), (∀ d ∈ ds, Whole d.1 ∧ BeginsScope d.1 ∧ DeclaresAll (sectionsOf 0 d.1).2 d.2) →
      tokText (ds.flatMap fun d => (sectionsOf 0 d.1).2).flatten = ds.flatMap Prod.fst := by
    intro ds hds
    induction ds with
    | nil => rfl
    | cons d ds ih =>
      rw [List.flatMap_cons, List.flatMap_cons, List.flatten_append, tokText_append, ih fun x hx => hds x (by simp [hx])]
      congr 1
      have b := (hds d (by simp)).2.1
      obtain ⟨y, hy, _⟩ := b.1
      have z := (sections_begin b hy).1
      obtain ⟨hp1, p, l, sx, h'x, P⟩ := parsed mapOrder_id w ac 0 d.1
      have := lead_text mapOrder_id P
      rw [z, tokText_nil, List.nil_append] at this
      refine Eq.trans ?_ this
      rw [tokText, List.map_flatten, List.flatten_flatten, List.map_map]
      rfl
  rw [tx ds₁ h1] at e1
  rw [tx ds₂ h2] at e2
  have e0' : tokText (sectionsOf 0 (b!"func " ++ old ++ c :: rest)).2.flatten = b!"func " ++ old ++ c :: rest := by
    have := tx [(b!"func " ++ old ++ c :: rest, .func old :: es)] (by
      intro d hd
      rw [List.mem_singleton] at hd
      subst hd
      exact ⟨h0, bo, h0'⟩)
    simpa using this
  rw [e0'] at e0
  have e0 : tokText (g ++ g₃.flatten) = c :: rest := by
    simp only [List.flatten_cons, List.cons_append, tokText_cons, List.append_assoc] at e0
    simp only [List.nil_append, List.cons.injEq, true_and] at e0
    exact List.append_cancel_left e0
  obtain ⟨_, st1, ast, st2, p1, p2, w2, ac2, p3⟩ := C68_rename env spare fs st w ac LL (begin_ old h0 bo) (pack old h0 bo) hn (by rw [flat]; exact hf) o1 o2
    (by rw [flat]; exact o3) (old := old) (A := g₁.flatten ++ [(.func_, b!"func"), (.space, b!" ")]) (B := g ++ (g₃.flatten ++ g₂.flatten))
    (by simp) (by simp [one.1]) (by simp [one]) new
  have et : tokText (g₁.flatten ++ [(.func_, b!"func"), (.space, b!" ")]) ++ new ++ tokText (g ++ (g₃.flatten ++ g₂.flatten)) =
      ds₁.flatMap Prod.fst ++ (b!"func " ++ new ++ c :: rest) ++ ds₂.flatMap Prod.fst := by
    rw [← List.append_assoc g, tokText_append (g ++ g₃.flatten), e0, e2, tokText_append, e1]
    simp
  rw [et] at p3
  have ok := C37_save_ok env fs file (ds₁.flatMap Prod.fst ++ (b!"func " ++ new ++ c :: rest) ++ ds₂.flatMap Prod.fst) name
    (ds₁.flatMap Prod.fst ++ (b!"func " ++ new ++ c :: rest) ++ ds₂.flatMap Prod.fst) [] hn (by
    unfold IsOutput; rw [if_neg (by simp)]; exact .inl o3')
  have hno := ok.1.2 ⟨by simp, o4, o5, o6⟩
  obtain ⟨c1, c2⟩ := ok.2 hno
  have p4 := p3 env fs file []
  -- the second parse
  have DD : DeclaresAll (sectionsOf 0 (decls new).flatten).2 (ds₁.flatMap Prod.snd ++ ((.func new :: es) ++ ds₂.flatMap Prod.snd)) := by
    rw [secs new h0n bn]
    refine (DeclaresAll.flatMap _ _ ds₁ fun d hd => (h1 d hd).2.2).append (DeclaresAll.append ?_ (DeclaresAll.flatMap _ _ ds₂ fun d hd => (h2 d hd).2.2))
    rw [so] at h0'
    rw [sn]
    cases h0' with
    | cons _ r => exact .cons .func r
  obtain ⟨h3, scs3, q1, q2⟩ := C66_contents mapOrder_id w2 ac2 DD
  rw [flat] at q1
  obtain ⟨h3', scs3', r1, _, r3⟩ := C39_parsed env spare' (saveFile env fs file
    (ds₁.flatMap Prod.fst ++ (b!"func " ++ new ++ c :: rest) ++ ds₂.flatMap Prod.fst) []).1 st2 w2 ac2 hn c1 o1 o2 o3'
  have r1 : parseScopeOrd (fun _ => commonDeeperExtract) st2.heap 0 (ds₁.flatMap Prod.fst ++ (b!"func " ++ new ++ c :: rest) ++ ds₂.flatMap Prod.fst) =
      some (h3', scs3') := r1
  rw [q1] at r1
  simp only [Option.some.injEq, Prod.mk.injEq] at r1
  obtain ⟨rfl, rfl⟩ := r1
  have hpk : ∃ sc ∈ scs3, sc.kind = .package_ := by
    have := package_scope w2 ac2 (pack new h0n bn) (by rw [flat]; exact q1)
    exact this
  obtain ⟨st3, ast', s1, _, _, _, _, s2, s3, _⟩ := r3 hpk
  refine ⟨st1, ast, st2, _, st3, ast', p1, p2, ?_, c1, fun other ho => c2 other ho, s1, ?_⟩
  · rw [p4, Option.some.injEq, Prod.ext_iff]
    exact ⟨rfl, hno⟩
  · rw [s2, s3, q2]
    simp

end Goast
