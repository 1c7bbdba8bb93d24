import Verif.Proofs.Front
import Verif.Props.Node

/-!
# C36, C39, C40, C41, C52: `Ast`
-/

set_option linter.unusedSimpArgs false
set_option linter.unusedVariables false

namespace Goast
open Heap

/-! ## C36 -/

/-- The node a package name is read from, among the nodes `l` of a scope: the first `Raw` node behind the first
`Package` node, if any. -/
def packageNode (h : Heap) (l : List Addr) : Ptr :=
  (l.dropWhile fun a => decide (h.kind (some a) ≠ .package_)).tail.find? fun a => decide (h.kind (some a) = .raw)

/-- The callback of ast.go:110-121. -/
def packageFn (h : Heap) (appeared : Bool) (a : Addr) : Bool × Bool :=
  if appeared && decide (h.kind (some a) = .raw) then (appeared, false)
  else if h.kind (some a) = .package_ then (true, true)
  else (appeared, true)

theorem findPackageNode_eq {h : Heap} {p : Ptr} {l : List Addr} (f : Fwd h p l) :
    findPackageNode h p = some (packageNode h l) := by
  show (h.iterNext (packageFn h) false p).map (·.2) = _
  rw [iterNext_eq h _ f]
  have after : ∀ l : List Addr, (walk (packageFn h) true l).2 = l.find? fun a => decide (h.kind (some a) = .raw) := by
    intro l
    induction l with
    | nil => rfl
    | cons a l ih =>
      by_cases hr : h.kind (some a) = .raw
      · simp [walk, packageFn, hr]
      · have : packageFn h true a = (true, true) := by simp [packageFn, hr]
        simp only [walk, this, ih, List.find?_cons, hr, decide_false]
  have before : ∀ l : List Addr, (walk (packageFn h) false l).2 = packageNode h l := by
    intro l
    induction l with
    | nil => rfl
    | cons a l ih =>
      by_cases hr : h.kind (some a) = .package_
      · have : packageFn h false a = (true, true) := by simp [packageFn, hr]
        simp only [walk, this, after, packageNode,
          List.dropWhile_cons, hr, ne_eq, not_true_eq_false, decide_false, Bool.false_eq_true, if_false, List.tail_cons]
      · have : packageFn h false a = (false, true) := by simp [packageFn, hr]
        simp only [walk, this, ih, packageNode,
          List.dropWhile_cons, hr, ne_eq, not_false_eq_true, decide_true, if_true]
  simp only [Option.map_some, before]

/-- **C36** `NewAst` and `Package` fail, with `ErrNoPackage`, exactly when no scope has kind `Package`. -/
theorem C36_no_package (st : AState) (sl : Slice) (f : AstRec) :
    (newAst st sl = some (.error .ErrNoPackage) ↔ ∀ sc ∈ st.elems sl, sc.kind ≠ .package_) ∧
    (f.package st = some (.error .ErrNoPackage) ↔ ∀ sc ∈ f.scopes st, sc.kind ≠ .package_) ∧
    (∀ e, newAst st sl = some (.error e) → e = .ErrNoPackage) ∧ (∀ e, f.package st = some (.error e) → e = .ErrNoPackage) := by
  have key : ∀ (h : Heap) (scs : List ScopeRec), (findPackageName h scs = some (.error .ErrNoPackage) ↔
      ∀ sc ∈ scs, sc.kind ≠ .package_) ∧ ∀ e, findPackageName h scs = some (.error e) → e = .ErrNoPackage := by
    intro h scs
    unfold findPackageName
    cases hf : scs.find? (fun sc => decide (sc.kind = .package_)) with
    | none =>
      have := List.find?_eq_none.1 hf
      simp only [decide_eq_true_eq] at this
      exact ⟨⟨fun _ => this, fun _ => rfl⟩, fun e he => by cases he; rfl⟩
    | some sc =>
      have h1 := List.find?_some hf
      have h2 := List.mem_of_find?_eq_some hf
      simp only [decide_eq_true_eq] at h1
      refine ⟨⟨fun hh => ?_, fun hh => absurd h1 (hh sc h2)⟩, fun e he => ?_⟩
      · cases hc : findPackageNode h sc.node <;> simp [hc] at hh
      · cases hc : findPackageNode h sc.node <;> simp [hc] at he
  refine ⟨?_, (key st.heap (f.scopes st)).1, ?_, (key st.heap (f.scopes st)).2⟩
  · rw [← (key st.heap (st.elems sl)).1, newAst]
    cases findPackageName st.heap (st.elems sl) with
    | none => simp
    | some r => cases r <;> simp
  · intro e he
    refine (key st.heap (st.elems sl)).2 e ?_
    rw [newAst] at he
    cases hc : findPackageName st.heap (st.elems sl) with
    | none => simp [hc] at he
    | some r => cases r <;> simp_all

/-- **C36** With a package scope (`sc` the first, `l` its nodes) `NewAst` keeps the scopes, and `Package` returns the
text of the first `Raw` node behind the first package keyword of `sc` (the empty string if there is none). -/
theorem C36_package_name (st : AState) (f : AstRec) {pre post : List ScopeRec} {sc : ScopeRec} {l : List Addr}
    (es : f.scopes st = pre ++ sc :: post) (hp : ∀ x ∈ pre, x.kind ≠ .package_) (hk : sc.kind = .package_)
    (fw : Fwd st.heap sc.node l) :
    f.package st = some (.ok (st.heap.text (packageNode st.heap l))) ∧
    newAst st f.scope = some (.ok ⟨[], [], [], [], f.scope⟩) := by
  have key : findPackageName st.heap (st.elems f.scope) = some (.ok (st.heap.text (packageNode st.heap l))) := by
    rw [AstRec.scopes] at es
    unfold findPackageName
    have : (st.elems f.scope).find? (fun sc => decide (sc.kind = .package_)) = some sc := by
      rw [es, List.find?_append, List.find?_eq_none.2 (by simpa using hp)]
      simp [hk]
    simp only [this, findPackageNode_eq fw, Option.map_some]
  exact ⟨key, by rw [newAst, key]; rfl⟩

/-- **C36** In a file that begins `package NAME` the package scope is found and its name is NAME. -/
theorem C36_parsed_name {ord : Nat → List (Bytes × Ext)} {h h' : Heap} (ho : MapOrder ord) (w : WF h) (ac : Acyclic h)
    {startLine : Int} (hs : startLine ≠ 1) {name rest : Bytes} {c : UInt8} (hn : Ident name) (hc : c ∈ separatorBytes)
    {scs : List ScopeRec} (e : parseScopeOrd ord h startLine (b!"package " ++ name ++ c :: rest) = some (h', scs)) :
    findPackageName h' scs = some (.ok name) := by
  obtain ⟨h1, p, l, st, h'', P⟩ := parsed ho w ac startLine (b!"package " ++ name ++ c :: rest)
  have := P.parse
  rw [e] at this; cases this
  -- the first three nodes
  have hlex : lexAll (b!"package " ++ name ++ c :: rest) =
      ⟨b!"package", false⟩ :: ⟨b!" ", false⟩ :: ⟨name, false⟩ :: ⟨[c], false⟩ :: lexAll rest := by
    have h1 := lexAll_word (w := b!"package") (by decide) (by simp) (c := 32) (by decide) (name ++ c :: rest)
    rw [lexAll_word hn.wordBytes hn.ne_nil hc] at h1
    simpa using h1
  have k := known_lit ho (pre := []) (rest := b!"package " ++ name ++ c :: rest) (l₁ := []) P.extract P.fwd rfl
  rw [hlex] at k
  obtain ⟨a0, a1, a2, a3, l', rfl⟩ : ∃ a0 a1 a2 a3 l', l = a0 :: a1 :: a2 :: a3 :: l' := by
    rcases l with _ | ⟨a0, _ | ⟨a1, _ | ⟨a2, _ | ⟨a3, l'⟩⟩⟩⟩ <;> simp at k
    exact ⟨a0, a1, a2, a3, l', rfl⟩
  simp only [List.map_cons, List.cons.injEq, Lexeme.kt, Prod.mk.injEq, Bool.false_eq_true, if_false] at k
  obtain ⟨⟨k0, t0⟩, ⟨k1, t1⟩, ⟨k2, t2⟩, _⟩ := k
  -- their lines
  have nl : (10 : UInt8) ∉ name := by
    intro hh
    have := hn.rest 10 hh
    revert this; decide
  have line : ∀ l₁ a l₂, a0 :: a1 :: a2 :: a3 :: l' = l₁ ++ a :: l₂ → l₂ ≠ [] → (textOf h1 l₁).count 10 = 0 →
      h1.line (some a) = 0 := by
    intro l₁ a l₂ el ne hcount
    have f := P.fwd
    rw [el] at f
    rcases C06_lines ho P.extract f with h | ⟨_, h, h'⟩ | ⟨h, _⟩
    · rw [h, hcount]; rfl
    · rw [hcount] at h'; simp at h'; omega
    · exact absurd h ne
  have L0 : h1.line (some a0) = 0 := line [] a0 _ rfl (by simp) (by simp [textOf])
  have L1 : h1.line (some a1) = 0 := line [a0] a1 _ rfl (by simp) (by simp [textOf, t0])
  have L2 : h1.line (some a2) = 0 := line [a0, a1] a2 _ rfl (by simp) (by simp [textOf, t0, t1])
  have O0 : Opens h1 (startLine - 1) a0 := ⟨by rw [L0]; omega, by rw [t0]; decide⟩
  -- the first group
  obtain ⟨g, gs, hd, hg2⟩ : ∃ g gs, (divide h1 (startLine - 1) (a0 :: a1 :: a2 :: a3 :: l')).2 = (a0 :: a1 :: a2 :: g) :: gs ∧
      True := by
    have no1 : ¬ Opens h1 0 a1 := fun hh => hh.1 L1
    have no2 : ¬ Opens h1 0 a2 := fun hh => hh.1 L2
    refine ⟨(divide h1 0 (a3 :: l')).1, (divide h1 0 (a3 :: l')).2, ?_, trivial⟩
    conv => lhs; unfold divide; rw [L0]; unfold divide; rw [L1]; unfold divide; rw [L2]
    simp [O0, no1, no2]
  have hgm : (a0 :: a1 :: a2 :: g) ∈ (divide h1 (startLine - 1) (a0 :: a1 :: a2 :: a3 :: l')).2 := by rw [hd]; simp
  -- nothing happens to it
  obtain ⟨x1, x2, r, xw, xac, xch, xs, xsame, xe, xsame', xs'⟩ := (P.group3 _ hgm).ex
  have sd : ∀ a ∈ a0 :: a1 :: a2 :: g, h'.kind (some a) = h1.kind (some a) ∧ h'.text (some a) = h1.text (some a) ∧
      h'.next (some a) = st.heap.next (some a) := by
    intro a ha
    have kx : ∀ a ∈ a0 :: a1 :: a2 :: g, x1.kind (some a) = h1.kind (some a) := by
      intro a ha
      have := (xsame a ha).2.2
      simp only [data, Prod.mk.injEq] at this
      rw [this.2.1, (P.data2.2 _).2.1]
    have hk0 : x1.kind (some a0) = .package_ := by
      rw [kx a0 (by simp), k0]; decide
    rw [List.head?_cons, C17_resetKind_other (by rw [hk0]; decide) (by rw [hk0]; decide)] at xe
    cases xe
    have s1 := xsame a ha
    have s2 := xsame' a ha
    have d1 := s1.2.2
    have d2 := s2.2.2
    simp only [data, Prod.mk.injEq] at d1 d2
    exact ⟨by rw [d2.2.1, kx a ha], by rw [d2.2.2, d1.2.2, (P.data2.2 _).2.2], by rw [s2.1, s1.1]⟩
  have fw : Fwd h' (some a0) (a0 :: a1 :: a2 :: g) := by
    have f2 : Fwd st.heap (some a0) (a0 :: a1 :: a2 :: g) := (P.groups _ hgm).fwd
    exact f2.congr (fun a ha => by rw [P.size3]; exact f2.lt a ha) (fun a ha => (sd a ha).2.2)
  have hel : AState.elems ⟨h', [st.scs]⟩ ⟨0, 0, st.scs.length, st.scs.length⟩ = st.scs := by simp [AState.elems]
  have key := (C36_package_name ⟨h', [st.scs]⟩ ⟨[], [], [], [], ⟨0, 0, st.scs.length, st.scs.length⟩⟩ (pre := [])
    (post := gs.map (scopeOf h1)) (sc := scopeOf h1 (a0 :: a1 :: a2 :: g)) (l := a0 :: a1 :: a2 :: g)
    (hel.trans (by rw [P.scs, hd]; rfl)) (by simp) (by simp only [scopeOf, List.head?_cons, t0]; decide) fw).1
  have pn : packageNode h' (a0 :: a1 :: a2 :: g) = some a2 := by
    have q0 : h'.kind (some a0) = .package_ := by rw [(sd a0 (by simp)).1, k0]; decide
    have q1 : h'.kind (some a1) = .space := by rw [(sd a1 (by simp)).1, k1]; decide
    have q2 : h'.kind (some a2) = .raw := by rw [(sd a2 (by simp)).1, k2]; exact C43_ident_raw _ hn
    simp [packageNode, List.dropWhile, q0, q1, q2, List.find?]
  rw [pn, (sd a2 (by simp)).2.1, t2] at key
  simpa only [AstRec.package, hel] using key

/-- The name must be followed by a separator, the file must begin with the keyword and the start line must not be 1
(as it is in `ParseAst`). -/
example : Ident b!"main" ∧ (10 : UInt8) ∈ separatorBytes ∧
    ((parseScope Heap.empty 0 b!"package main\nvar x = 1").bind fun r => (findPackageName r.1 r.2).bind Except.toOption) =
      some b!"main" := by
  refine ⟨⟨⟨109, _, rfl, by decide⟩, by decide, by decide, by decide, ⟨109, by simp, by decide⟩⟩, by decide, by decide +kernel⟩

/-- A package clause whose name is a keyword-like word: the name is not `Raw`, so a later word is taken. -/
example : ((parseScope Heap.empty 0 b!"package string // x\nfoo").bind fun r => (findPackageName r.1 r.2).bind Except.toOption) =
    some b!"foo" := by decide +kernel

/-! ## C39 -/

theorem goName_unique {file name : Bytes} (hn : IsGoName file name) : goFileName file = name := by
  have h2 := isGoName_goFileName file
  rcases hn with ⟨a, b⟩ | ⟨a, b⟩ <;> rcases h2 with ⟨c, d⟩ | ⟨c, d⟩
  · rw [d, b]
  · exact absurd a c
  · exact absurd c a
  · rw [d, b]

/-- Every scope of a parse has a finite chain. -/
theorem parseScope_nodes {ord : Nat → List (Bytes × Ext)} {h h' : Heap} (ho : MapOrder ord) (w : WF h) (ac : Acyclic h)
    {startLine : Int} {text : Bytes} {scs : List ScopeRec} (e : parseScopeOrd ord h startLine text = some (h', scs)) :
    ∀ sc ∈ scs, ∃ l, Fwd h' sc.node l := by
  obtain ⟨_, _, _, ls, hm, _, hl⟩ := C12_separate ho w ac e
  intro sc hsc
  have : sc.node ∈ ls.map List.head? := by rw [← hm]; exact List.mem_map.2 ⟨sc, hsc, rfl⟩
  obtain ⟨l, hl1, hl2⟩ := List.mem_map.1 this
  exact ⟨l, by rw [← hl2]; exact (hl l hl1).2.1.fwd⟩

/-- **C39** `ParseAst` returns `ErrNotExist` exactly when the file does not exist (`.go` added to its name if
missing) and that is what the operating system says (it may also refuse for another reason, such as permissions). -/
theorem C39_not_exist (env : Env) (spare : Nat) (fs : FS) (st : AState) {file name : Bytes} (hn : IsGoName file name) :
    parseAst env spare fs st file = some (.error .ErrNotExist) ↔ env.openDenied name = false ∧ fs name = none := by
  have e := goName_unique hn
  simp only [parseAst, readFile, e]
  cases hf : fs name with
  | none => cases hd : env.openDenied name <;> simp
  | some buf =>
    simp only [reduceCtorEq, and_false, iff_false]
    split
    · rename_i hh
      split at hh
      · cases hh; simp
      · split at hh
        · cases hh; simp
        · split at hh <;> cases hh; simp
    · split
      · simp
      · rename_i h' scs _
        have := (C36_no_package ⟨h', [scs]⟩ default ⟨[], [], [], [], ⟨0, 0, scs.length, scs.length⟩⟩).2.2.2
        simp only [AstRec.package, AState.elems, List.getElem?_cons_zero, Option.getD_some, List.drop_zero, List.take_length] at this
        cases hp : findPackageName h' scs with
        | none => simp
        | some r =>
          cases r with
          | ok _ => simp
          | error er => rw [this er hp]; simp

/-- **C39** Other errors of reading and formatting are passed on. -/
theorem C39_read_errors (env : Env) (spare : Nat) (fs : FS) (st : AState) {file name buf : Bytes} (hn : IsGoName file name) :
    (env.openDenied name = true → parseAst env spare fs st file = some (.error .os)) ∧
    (fs name = some buf → env.readFails name = true → parseAst env spare fs st file = some (.error .os)) ∧
    (fs name = some buf → env.openDenied name = false → env.readFails name = false → env.formatSource buf = none →
      parseAst env spare fs st file = some (.error .badSource)) := by
  have e := goName_unique hn
  simp only [parseAst, readFile, e]
  refine ⟨fun h => by simp [h], fun hf h => ?_, fun hf h1 h2 h3 => by simp [hf, h1, h2, h3]⟩
  by_cases h2 : env.openDenied name = true <;> simp [hf, h, h2]

/-- **C39** Otherwise, `data` being the formatted contents, and `scs` the scopes of `ParseScope(0, data)`:
`ErrNoPackage` exactly when none of them is a package clause; else an `Ast` with the given path, the path fields of
package `filepath` and these scopes, in a slice of its own. -/
theorem C39_parsed (env : Env) (spare : Nat) (fs : FS) (st : AState) (w : WF st.heap) (ac : Acyclic st.heap)
    {file name buf data : Bytes} (hn : IsGoName file name)
    (hf : fs name = some buf) (h1 : env.openDenied name = false) (h2 : env.readFails name = false)
    (h3 : env.formatSource buf = some data) :
    ∃ h' scs, parseScope st.heap 0 data = some (h', scs) ∧
      (parseAst env spare fs st file = some (.error .ErrNoPackage) ↔ ∀ sc ∈ scs, sc.kind ≠ .package_) ∧
      ((∃ sc ∈ scs, sc.kind = .package_) → ∃ st' f, parseAst env spare fs st file = some (.ok (st', f)) ∧
        f.file = file ∧ f.dir = env.dir file ∧ f.name = env.base file ∧ f.ext = env.ext file ∧
        f.scopes st' = scs ∧ st'.heap = h' ∧
        (∀ i, i < st.arrs.length → st'.arrs[i]? = st.arrs[i]?) ∧ st.arrs.length ≤ f.scope.arr) := by
  have e := goName_unique hn
  obtain ⟨h', scs, hp⟩ := C09_total mapOrder_id w ac 0 data
  have hp : parseScope st.heap 0 data = some (h', scs) := hp
  refine ⟨h', scs, hp, ?_⟩
  have hpa : parseAst env spare fs st file = (findPackageName h' scs).map fun r =>
        match r with
        | .error e => .error e
        | .ok _ =>
          let (st, sl) := AState.newSlice { st with heap := h' } scs spare
          .ok (st, { file, dir := env.dir file, name := env.base file, ext := env.ext file, scope := sl }) := by
    simp only [parseAst, readFile, e, hf, h1, h2, h3, Bool.false_eq_true, if_false, hp]
    rfl
  have hel : AState.elems ⟨h', [scs]⟩ ⟨0, 0, scs.length, scs.length⟩ = scs := by simp [AState.elems]
  have C := (C36_no_package ⟨h', [scs]⟩ default ⟨[], [], [], [], ⟨0, 0, scs.length, scs.length⟩⟩).2
  simp only [AstRec.package, AstRec.scopes, hel] at C
  constructor
  · rw [← C.1, hpa]
    cases hr : findPackageName h' scs with
    | none => simp
    | some r => cases r <;> simp
  · rintro ⟨sc, hsc, hk⟩
    have : ∃ t, findPackageName h' scs = some (.ok t) := by
      unfold findPackageName
      cases hf : scs.find? (fun sc => decide (sc.kind = .package_)) with
      | none => have := List.find?_eq_none.1 hf sc hsc; simp [hk] at this
      | some sc' =>
        obtain ⟨l, fl⟩ := parseScope_nodes mapOrder_id w ac hp sc' (List.mem_of_find?_eq_some hf)
        exact ⟨h'.text (packageNode h' l), by simp only [findPackageNode_eq fl, Option.map_some]⟩
    obtain ⟨t, ht⟩ := this
    refine ⟨_, _, by rw [hpa, ht]; rfl, rfl, rfl, rfl, rfl, ?_, rfl, ?_, Nat.le_refl _⟩
    · simp [AstRec.scopes, AState.elems, AState.newSlice]
    · intro i hi
      simp [AState.newSlice, List.getElem?_append_left hi]

/-- A file system and environment that meet the hypotheses. -/
example : ∃ st' f, parseAst demoEnv 3 (fun f => if f = b!"d/a.go" then some b!"package a\n" else none) ⟨Heap.empty, []⟩ b!"d/a" =
    some (.ok (st', f)) ∧ f.file = b!"d/a" ∧ (f.scopes st').map (·.kind) = [.package_] := by
  exact ⟨_, _, rfl, rfl, rfl⟩

/-! ## C40 -/

/-- The nodes of scopes as they are in a larger heap. -/
theorem ScopeNodes.extends {h h' : Heap} (ex : Extends h h') {scs : List ScopeRec} {lss : List (List Addr)}
    (sn : ScopeNodes h scs lss) : ScopeNodes h' scs lss := by
  induction sn with
  | nil => exact .nil
  | cons f _ ih =>
    refine .cons (f.congr (fun a ha => Nat.lt_of_lt_of_le (f.lt a ha) ex.1) (fun a ha => (ex.2 a (f.lt a ha)).1)) ih

theorem Extends.trans {h1 h2 h3 : Heap} (a : Extends h1 h2) (b : Extends h2 h3) : Extends h1 h3 := by
  refine ⟨Nat.le_trans a.1 b.1, fun x hx => ?_⟩
  have h1 := a.2 x hx
  have h2 := b.2 x (Nat.lt_of_lt_of_le hx a.1)
  exact ⟨h2.1.trans h1.1, h2.2.1.trans h1.2.1, h2.2.2.trans h1.2.2⟩

theorem ScopeNodes.lt {h : Heap} {scs : List ScopeRec} {lss : List (List Addr)} (sn : ScopeNodes h scs lss) :
    ∀ l ∈ lss, ∀ a ∈ l, a < h.size := by
  induction sn with
  | nil => simp
  | cons f _ ih =>
    intro l hl a ha
    rcases List.mem_cons.1 hl with rfl | hl
    · exact f.lt a ha
    · exact ih l hl a ha

theorem copyScopes_post : ∀ (scs : List ScopeRec) (h : Heap) (lss : List (List Addr)), WF h → Acyclic h →
    ScopeNodes h scs lss →
    ∃ h' scs' lss', copyScopes h scs = some (h', scs') ∧ WF h' ∧ Acyclic h' ∧ Extends h h' ∧ ScopeNodes h' scs' lss' ∧
      scs'.map (fun sc => (sc.line, sc.kind)) = scs.map (fun sc => (sc.line, sc.kind)) ∧
      lss'.map (List.map (data h')) = lss.map (List.map (data h)) ∧ (∀ l ∈ lss', ∀ a ∈ l, h.size ≤ a) ∧ lss'.flatten.Nodup := by
  intro scs
  induction scs with
  | nil =>
    intro h lss w ac sn
    cases sn
    exact ⟨h, [], [], rfl, w, ac, ⟨Nat.le_refl _, fun _ _ => ⟨rfl, rfl, rfl⟩⟩, .nil, rfl, rfl, by simp, by simp⟩
  | cons sc scs ih =>
    intro h lss w ac sn
    cases sn with
    | @cons _ l _ lss f sn =>
    -- one scope
    obtain ⟨h1, q, l', e1, w1, ac1, ex1, f1, d1, fr1⟩ : ∃ h1 q l', h.copy sc.node true = some (h1, q) ∧ WF h1 ∧ Acyclic h1 ∧
        Extends h h1 ∧ Fwd h1 q l' ∧ l'.map (data h1) = l.map (data h) ∧ ∀ a ∈ l', h.size ≤ a := by
      generalize sc.node = q0 at f
      cases f with
      | nil =>
        exact ⟨h, none, [], rfl, w, ac, ⟨Nat.le_refl _, fun _ _ => ⟨rfl, rfl, rfl⟩⟩, .nil, rfl, by simp⟩
      | @cons a l ha f =>
        obtain ⟨c, hc, hac⟩ := Acyclic.exists_chain w ac a ha
        obtain ⟨l₁, l₂, rfl⟩ := List.append_of_mem hac
        have : l₂ = l := by
          have := (Fwd.cons_iff.1 (hc.fwd.drop l₁)).2.2
          exact this.det f
        subst this
        obtain ⟨h1, c₁, a', c₂, e1, ch1, _, d1, d2, fr, ex, w1⟩ := C31_copy_chain w hc
        have v : Valid h (some a) := fun x hx => by cases hx; exact ha
        refine ⟨h1, some a', a' :: c₂, e1, w1, acyclic_copy w ac v e1, ex, ch1.fwd.drop c₁, by simp [d1, d2], fun x hx => ?_⟩
        exact fr x (by simp only [List.mem_append]; exact .inr hx)
    have sn1 := sn.extends ex1
    obtain ⟨h', scs', lss', e2, w2, ac2, ex2, sn2, k2, d2, fr2, nd2⟩ := ih h1 lss w1 ac1 sn1
    refine ⟨h', { sc with node := q } :: scs', l' :: lss', ?_, w2, ac2, ex1.trans ex2, ?_, ?_, ?_, ?_, ?_⟩
    · simp only [copyScopes, ScopeRec.copy, e1, Option.map_some, e2]
    · exact .cons (f1.congr (fun a ha => Nat.lt_of_lt_of_le (f1.lt a ha) ex2.1) (fun a ha => (ex2.2 a (f1.lt a ha)).1)) sn2
    · simp [k2]
    · rw [List.map_cons, List.map_cons, d2, ← d1]
      congr 1
      · exact List.map_congr_left fun a ha => (ex2.2 a (f1.lt a ha)).2.2
      · exact List.map_congr_left fun m hm => List.map_congr_left fun a ha => (ex1.2 a (sn.lt m hm a ha)).2.2
    · intro m hm a ha
      rcases List.mem_cons.1 hm with rfl | hm
      · exact fr1 a ha
      · exact Nat.le_trans ex1.1 (fr2 m hm a ha)
    · rw [List.flatten_cons, List.nodup_append]
      refine ⟨f1.nodup, nd2, ?_⟩
      rintro x hx y hy rfl
      obtain ⟨m, hm, hy⟩ := List.mem_flatten.1 hy
      exact Nat.lt_irrefl _ (Nat.lt_of_lt_of_le (f1.lt x hx) (fr2 m hm x hy))

/-- **C40** `Copy` of an `Ast` whose scopes have the nodes `lss`: the same path fields, the same lines and kinds of
scopes, nodes with the same data in the same order, all of them fresh and none of them in two places; the original, its nodes and its array are as
they were. -/
theorem C40_copy (st : AState) (f : AstRec) (w : WF st.heap) (ac : Acyclic st.heap) {lss : List (List Addr)}
    (sn : ScopeNodes st.heap (f.scopes st) lss) :
    ∃ st' f' lss', f.copy st = some (st', f') ∧
      f'.file = f.file ∧ f'.dir = f.dir ∧ f'.name = f.name ∧ f'.ext = f.ext ∧
      (f'.scopes st').map (fun sc => (sc.lineNo, sc.kind)) = (f.scopes st).map (fun sc => (sc.lineNo, sc.kind)) ∧
      ScopeNodes st'.heap (f'.scopes st') lss' ∧
      lss'.map (List.map (data st'.heap)) = lss.map (List.map (data st.heap)) ∧
      (∀ l ∈ lss', ∀ a ∈ l, st.heap.size ≤ a ∧ a < st'.heap.size) ∧ lss'.flatten.Nodup ∧
      WF st'.heap ∧ Acyclic st'.heap ∧ Extends st.heap st'.heap ∧
      (∀ i, i < st.arrs.length → st'.arrs[i]? = st.arrs[i]?) ∧ st.arrs.length ≤ f'.scope.arr := by
  obtain ⟨h', scs', lss', e, w', ac', ex, sn', k, d, fr, nd⟩ := copyScopes_post _ _ _ w ac sn
  have hel : AState.elems (AState.newSlice { st with heap := h' } scs' 0).1 (AState.newSlice { st with heap := h' } scs' 0).2 = scs' := by
    simp [AState.elems, AState.newSlice]
  refine ⟨(AState.newSlice { st with heap := h' } scs' 0).1, { file := f.file, dir := f.dir, name := f.name, ext := f.ext, scope := (AState.newSlice { st with heap := h' } scs' 0).2 },
    lss', by rw [AstRec.copy, e]; rfl, rfl, rfl, rfl, rfl, ?_, ?_, d, fun l hl a ha => ⟨fr l hl a ha, ?_⟩, nd, w', ac', ex, ?_, Nat.le_refl _⟩
  · simp only [AstRec.scopes, hel]
    have := congrArg (List.map fun x : Int × ScopeKind => (x.1 + 1, x.2)) k
    simpa only [List.map_map, Function.comp_def, ScopeRec.lineNo, AstRec.scopes] using this
  · simp only [AstRec.scopes, hel]; exact sn'
  · exact sn'.lt l hl a ha
  · intro i hi
    simp [AState.newSlice, List.getElem?_append_left hi]

/-- **C40** No later sequence of node calls on nodes other than those that existed before `Copy` (the copy, and
whatever nodes are made later) changes anything about the nodes that existed before; and no sequence of calls on nodes
other than the copies changes anything about the copies. -/
theorem C40_independent {h h1 h2 : Heap} (w : WF h1) (w0 : WF h) (ex : Extends h h1) :
    (Run (fun op => ∀ p ∈ op.args, ∀ a, p = some a → h.size ≤ a) h1 h2 → ∀ a, a < h.size →
      h2.next (some a) = h1.next (some a) ∧ h2.prev (some a) = h1.prev (some a) ∧ data h2 a = data h1 a) ∧
    (Run (fun op => ∀ p ∈ op.args, ∀ a, p = some a → a < h.size ∨ h1.size ≤ a) h1 h2 → ∀ a, h.size ≤ a → a < h1.size →
      h2.next (some a) = h1.next (some a) ∧ h2.prev (some a) = h1.prev (some a) ∧ data h2 a = data h1 a) := by
  have old : Closed h1 (· < h.size) := by
    refine ⟨fun a ha => Nat.lt_of_lt_of_le ha ex.1, ?_, ?_⟩
    · intro a b ha e
      rw [(ex.2 a ha).1] at e
      exact w0.valid_next _ _ e
    · intro a b ha e
      rw [(ex.2 a ha).2.1] at e
      exact w0.valid_prev _ _ e
  have mono : ∀ {P Q : Op → Prop}, (∀ op, P op → Q op) → Run P h1 h2 → Run Q h1 h2 := by
    intro P Q hPQ r
    induction r with
    | refl => exact .refl
    | step op _ o v e ih => exact .step op ih (hPQ op o) v e
  constructor
  · intro r a ha
    refine frame_run w old (mono ?_ r) a ha
    intro op ho p hp b hb hh
    have := ho p hp b hh
    omega
  · intro r a ha hb
    have new : Closed h1 (fun x => h.size ≤ x ∧ x < h1.size) := by
      refine ⟨fun a ha => ha.2, ?_, ?_⟩
      · intro a b ha e
        refine ⟨?_, w.valid_next _ _ e⟩
        rcases Nat.lt_or_ge b h.size with hlt | hge
        · have := old.prev b a hlt ((w.inverse a b).1 e); omega
        · exact hge
      · intro a b ha e
        refine ⟨?_, w.valid_prev _ _ e⟩
        rcases Nat.lt_or_ge b h.size with hlt | hge
        · have := old.next b a hlt ((w.inverse b a).2 e); omega
        · exact hge
    refine frame_run w new (mono ?_ r) a ⟨ha, hb⟩
    intro op ho p hp b hb hh
    have := ho p hp b hh
    omega

/-! ## C41 -/

/-- Go's invariant on slices: length within capacity, capacity within the array. -/
def SliceOK (st : AState) (s : Slice) : Prop :=
  s.len ≤ s.cap ∧ ∃ l, st.arrs[s.arr]? = some l ∧ s.off + s.cap ≤ l.length

theorem overwrite_length (l xs : List ScopeRec) (i : Nat) (h : i + xs.length ≤ l.length) :
    (AState.overwrite l i xs).length = l.length := by
  simp [AState.overwrite]; omega

theorem overwrite_get (l xs : List ScopeRec) (i j : Nat) (h : i + xs.length ≤ l.length) :
    (AState.overwrite l i xs)[j]? = if j < i then l[j]? else if j < i + xs.length then xs[j - i]? else l[j]? := by
  unfold AState.overwrite
  have h1 : (l.take i).length = i := by simp; omega
  by_cases c1 : j < i
  · rw [if_pos c1, List.append_assoc, List.getElem?_append_left (by omega), List.getElem?_take_of_lt c1]
  · rw [if_neg c1, List.append_assoc, List.getElem?_append_right (by omega), h1]
    by_cases c2 : j < i + xs.length
    · rw [if_pos c2, List.getElem?_append_left (by omega)]
    · rw [if_neg c2, List.getElem?_append_right (by omega), List.getElem?_drop]
      congr 1; omega

theorem elems_get (st : AState) (s : Slice) (j : Nat) (l : List ScopeRec) (hl : st.arrs[s.arr]? = some l) :
    (st.elems s)[j]? = if j < s.len then l[s.off + j]? else none := by
  simp only [AState.elems, hl, Option.getD_some]
  by_cases c : j < s.len
  · rw [if_pos c, List.getElem?_take_of_lt c, List.getElem?_drop]
  · rw [if_neg c, List.getElem?_take_eq_none (by omega)]

theorem elems_length (st : AState) {s : Slice} (ok : SliceOK st s) : (st.elems s).length = s.len := by
  obtain ⟨h1, l, hl, h2⟩ := ok
  simp only [AState.elems, hl, Option.getD_some, List.length_take, List.length_drop]
  omega

/-- **C41** `SetScope` returns an `Ast` with the given scopes and the receiver's path fields; being a function of the
receiver, it leaves it as it was. -/
theorem C41_setScope (st : AState) (f : AstRec) (sl : Slice) :
    (f.setScope sl).scopes st = st.elems sl ∧ (f.setScope sl).file = f.file ∧ (f.setScope sl).dir = f.dir ∧
    (f.setScope sl).name = f.name ∧ (f.setScope sl).ext = f.ext := ⟨rfl, rfl, rfl, rfl, rfl⟩

/-- **C41** `AppendScope` appends exactly the given scopes, in order, whatever the slice and whatever capacity Go
chooses for a new array; path fields and nodes stay, and the new slice is again well-formed. -/
theorem C41_appendScope (grow : Nat → Nat) (st : AState) (f : AstRec) (scs : List ScopeRec) (ok : SliceOK st f.scope) :
    let r := f.appendScope grow st scs
    r.2.scopes r.1 = f.scopes st ++ scs ∧ SliceOK r.1 r.2.scope ∧ r.1.heap = st.heap ∧
    r.2.file = f.file ∧ r.2.dir = f.dir ∧ r.2.name = f.name ∧ r.2.ext = f.ext := by
  have len := elems_length st ok
  obtain ⟨h1, l, hl, h2⟩ := ok
  have hlt : f.scope.arr < st.arrs.length := by
    rw [List.getElem?_eq_some_iff] at hl; exact hl.1
  by_cases c : f.scope.len + scs.length ≤ f.scope.cap
  · have harr : (st.arrs.modify f.scope.arr fun l => AState.overwrite l (f.scope.off + f.scope.len) scs)[f.scope.arr]? =
        some (AState.overwrite l (f.scope.off + f.scope.len) scs) := by
      simp [List.getElem?_modify, hl]
    have hol := overwrite_length l scs (f.scope.off + f.scope.len) (by omega)
    have e : f.appendScope grow st scs = ({ st with arrs := st.arrs.modify f.scope.arr (fun l => AState.overwrite l (f.scope.off + f.scope.len) scs) }, { f with scope := { f.scope with len := f.scope.len + scs.length } }) := by
      simp [AstRec.appendScope, AState.append, c]
    simp only [e]
    refine ⟨?_, ⟨c, _, harr, by rw [hol]; exact h2⟩, trivial, trivial, trivial, trivial, trivial⟩
    apply List.ext_getElem?
    intro j
    simp only [AstRec.scopes]
    rw [elems_get _ _ j _ (by exact harr), overwrite_get _ _ _ _ (by omega)]
    by_cases c1 : j < f.scope.len
    · rw [if_pos (by simp; omega), if_pos (by simp; omega), List.getElem?_append_left (by omega), elems_get st _ j l hl, if_pos c1]
    · rw [List.getElem?_append_right (by omega), len]
      by_cases c2 : j < f.scope.len + scs.length
      · rw [if_pos (by simpa using c2), if_neg (by simp; omega), if_pos (by simp; omega)]
        congr 1; simp; omega
      · rw [if_neg (by simpa using c2), List.getElem?_eq_none (by omega)]
  · have e : f.appendScope grow st scs = ({ st with arrs := st.arrs ++ [st.elems f.scope ++ scs ++
          List.replicate (grow (f.scope.len + scs.length) - (f.scope.len + scs.length)) default] }, { f with scope :=
        { arr := st.arrs.length, off := 0, len := f.scope.len + scs.length, cap := (f.scope.len + scs.length) + (grow (f.scope.len + scs.length) - (f.scope.len + scs.length)) } }) := by
      simp [AstRec.appendScope, AState.append, c]
    simp only [e]
    refine ⟨?_, ⟨by simp, st.elems f.scope ++ scs ++
          List.replicate (grow (f.scope.len + scs.length) - (f.scope.len + scs.length)) default, by simp, by simp [len]; omega⟩, trivial, trivial, trivial, trivial, trivial⟩
    have hlen : (st.elems f.scope ++ scs).length = f.scope.len + scs.length := by simp [len]
    simp only [AstRec.scopes]
    generalize hE : st.elems f.scope ++ scs = E at hlen ⊢
    simp only [AState.elems, List.getElem?_concat_length, Option.getD_some, List.drop_zero]
    rw [List.take_append_of_le_length (by omega), List.take_of_length_le (by omega)]

/-- **C41** `AppendScope` on one `Ast` is not seen through a slice `t` of another array, nor through one that ends
where the appended part begins or earlier. -/
theorem C41_append_isolated (grow : Nat → Nat) (st : AState) (f : AstRec) (scs : List ScopeRec) (ok : SliceOK st f.scope)
    (t : Slice) (okt : SliceOK st t) (ht : t.arr ≠ f.scope.arr ∨ t.off + t.len ≤ f.scope.off + f.scope.len) :
    (f.appendScope grow st scs).1.elems t = st.elems t := by
  obtain ⟨h1, l, hl, h2⟩ := ok
  obtain ⟨g1, m, hm, g2⟩ := okt
  by_cases c : f.scope.len + scs.length ≤ f.scope.cap
  · have e : (f.appendScope grow st scs).1 = { st with arrs := st.arrs.modify f.scope.arr (fun l => AState.overwrite l (f.scope.off + f.scope.len) scs) } := by
      simp [AstRec.appendScope, AState.append, c]
    rw [e]
    rcases Nat.decEq t.arr f.scope.arr with hne | heq
    · have : (st.arrs.modify f.scope.arr fun l => AState.overwrite l (f.scope.off + f.scope.len) scs)[t.arr]? = some m := by
        simp [List.getElem?_modify, hm, Ne.symm hne]
      simp only [AState.elems, this, hm]
    · have hlm : l = m := by rw [heq, hl] at hm; cases hm; rfl
      subst hlm
      have : (st.arrs.modify f.scope.arr fun l => AState.overwrite l (f.scope.off + f.scope.len) scs)[t.arr]? =
          some (AState.overwrite l (f.scope.off + f.scope.len) scs) := by
        simp [List.getElem?_modify, heq, hl]
      apply List.ext_getElem?
      intro j
      rw [elems_get _ _ j _ this, elems_get st t j l hm, overwrite_get _ _ _ _ (by omega)]
      by_cases c1 : j < t.len
      · have : t.off + j < f.scope.off + f.scope.len := by
          rcases ht with ht | ht
          · exact absurd heq ht
          · omega
        rw [if_pos c1, if_pos c1, if_pos this]
      · rw [if_neg c1, if_neg c1]
  · have e : (f.appendScope grow st scs).1 = { st with arrs := st.arrs ++ [st.elems f.scope ++ scs ++
          List.replicate (grow (f.scope.len + scs.length) - (f.scope.len + scs.length)) default] } := by
      simp [AstRec.appendScope, AState.append, c]
    rw [e]
    have hlt : t.arr < st.arrs.length := by rw [List.getElem?_eq_some_iff] at hm; exact hm.1
    simp only [AState.elems, List.getElem?_append_left hlt]

/-- **C41** Whenever a slice has spare capacity, two `Ast`s on it overwrite each other's appended scope: after
`a.AppendScope(x)` and `b.AppendScope(y)` the first `Ast` ends in `y`. -/
theorem C41_append_overwrites (grow : Nat → Nat) (st : AState) (a b : AstRec) (x y : ScopeRec) (ok : SliceOK st a.scope)
    (shared : b.scope = a.scope) (room : a.scope.len < a.scope.cap) :
    let ra := a.appendScope grow st [x]
    let rb := b.appendScope grow ra.1 [y]
    ra.2.scopes ra.1 = a.scopes st ++ [x] ∧ ra.2.scopes rb.1 = a.scopes st ++ [y] := by
  intro ra rb
  have e1 := (C41_appendScope grow st a [x] ok).1
  refine ⟨e1, ?_⟩
  have hs : ra.2.scope = { a.scope with len := a.scope.len + 1 } := by
    show (a.appendScope grow st [x]).2.scope = _
    have : a.scope.len + [x].length ≤ a.scope.cap := by simp; omega
    simp [AstRec.appendScope, AState.append, if_pos this]
    rw [if_pos (by omega)]
  have okb : SliceOK ra.1 b.scope := by
    rw [shared]
    obtain ⟨g1, l, g2, g3⟩ := (C41_appendScope grow st a [x] ok).2.1
    have hs' : (a.appendScope grow st [x]).2.scope = { a.scope with len := a.scope.len + 1 } := hs
    rw [hs'] at g1 g2 g3
    exact ⟨Nat.le_of_lt room, l, g2, g3⟩
  have e2 := (C41_appendScope grow ra.1 b [y] okb).1
  have hsb : rb.2.scope = ra.2.scope := by
    show (b.appendScope grow ra.1 [y]).2.scope = _
    have : b.scope.len + [y].length ≤ b.scope.cap := by rw [shared]; simp; omega
    rw [hs, ← shared]
    simp [AstRec.appendScope, AState.append, if_pos this]
    rw [shared]
    rw [if_pos (by omega)]
  have e3 : b.scopes ra.1 = a.scopes st := by
    show ra.1.elems b.scope = st.elems a.scope
    rw [shared]
    exact C41_append_isolated grow st a [x] ok a.scope ok (.inr (Nat.le_refl _))
  rw [← e3, ← e2]
  show rb.1.elems ra.2.scope = rb.1.elems rb.2.scope
  rw [hsb]

/-- Two `Ast`s made by `ParseAst` and `SetScope(a.Scope())`, the slice having room for one more. -/
example : ∃ (st : AState) (a b : AstRec), SliceOK st a.scope ∧ b = a.setScope a.scope ∧ a.scope.len < a.scope.cap ∧
    a.scopes st = [⟨0, .package_, none⟩] :=
  ⟨⟨Heap.empty, [[⟨0, .package_, none⟩, default]]⟩, ⟨b!"f", [], [], [], ⟨0, 0, 1, 2⟩⟩, _, ⟨by decide, _, rfl, by decide⟩, rfl,
    by decide, rfl⟩

end Goast
