import Verif.Proofs.Frame
import Verif.Proofs.Text
import Verif.Model.Describe

/-!
# C37, C38: saving; C42: IterScope
-/

namespace Goast
open Heap

/-! ## What `Save` hands to `SaveFile` -/

/-- The name of the file really used: `.go` is appended unless it is already the end. -/
def IsGoName (file name : Bytes) : Prop :=
  ((∃ t, file = t ++ b!".go") ∧ name = file) ∨ ((¬ ∃ t, file = t ++ b!".go") ∧ name = file ++ b!".go")

theorem isGoName_goFileName (file : Bytes) : IsGoName file (goFileName file) := by
  unfold goFileName IsGoName
  have := hasSuffix_iff file b!".go"
  by_cases hs : hasSuffix file b!".go" = true
  · left
    obtain ⟨t, ht⟩ := this.1 hs
    exact ⟨⟨t, ht.symm⟩, by simp [hs]⟩
  · right
    refine ⟨?_, by simp [hs]⟩
    rintro ⟨t, ht⟩
    exact hs (this.2 ⟨t, ht.symm⟩)

/-- `lss` are the nodes of the scopes `scs`, scope by scope, in order. -/
inductive ScopeNodes (h : Heap) : List ScopeRec → List (List Addr) → Prop
  | nil : ScopeNodes h [] []
  | cons {sc : ScopeRec} {l : List Addr} {scs : List ScopeRec} {lss : List (List Addr)} :
      Fwd h sc.node l → ScopeNodes h scs lss → ScopeNodes h (sc :: scs) (l :: lss)

/-- The texts of all nodes, concatenated. -/
def allText (h : Heap) (lss : List (List Addr)) : Bytes :=
  (lss.flatten.map fun a => h.text (some a)).flatten

theorem chainText_eq {h : Heap} {p : Ptr} {l : List Addr} (f : Fwd h p l) :
    chainText h p = some (l.map fun a => h.text (some a)).flatten := by
  unfold chainText
  rw [iterNext_eq h _ f]
  have : ∀ (l : List Addr) (b : Bytes), (walk (fun (buf : Bytes) a => (buf ++ h.text (some a), true)) b l).1 =
      b ++ (l.map fun a => h.text (some a)).flatten := by
    intro l
    induction l with
    | nil => intro b; simp [walk]
    | cons a l ih => intro b; simp [walk, ih]
  simp [this]

theorem scopesText_eq {h : Heap} {scs : List ScopeRec} {lss : List (List Addr)} (sn : ScopeNodes h scs lss) :
    scopesText h scs = some (allText h lss) := by
  induction sn with
  | nil => rfl
  | cons f _ ih => simp [scopesText, chainText_eq f, ih, allText]

/-- For all environments: `Save` hands exactly the concatenated node texts of all scopes, in order, to
`SaveFile`. -/
theorem C37_save_writes_scopes (env : Env) (fs : FS) (st : AState) (f : AstRec) (file : Bytes)
    (autoImport : List Bool) {lss : List (List Addr)} (sn : ScopeNodes st.heap (f.scopes st) lss) :
    f.save env fs st file autoImport = some (saveFile env fs file (allText st.heap lss) autoImport) := by
  simp [AstRec.save, scopesText_eq sn]

/-- Two scopes, one with two nodes and one without nodes. -/
example : ∃ (st : AState) (f : AstRec) (lss : List (List Addr)),
    ScopeNodes st.heap (f.scopes st) lss ∧ allText st.heap lss = b!"package a" := by
  let h := (Heap.empty.newNodes 0 [b!"package ", b!"a"]).1
  refine ⟨⟨h, [[⟨0, .package_, some 0⟩, ⟨1, .func_, none⟩]]⟩, ⟨[], [], [], [], ⟨0, 0, 2, 2⟩⟩, [[0, 1], []], ?_, by decide +kernel⟩
  refine .cons (.cons (by decide) ?_) (.cons .nil .nil)
  have : h.next (some 0) = some 1 := by decide +kernel
  rw [this]
  refine .cons (by decide) ?_
  have : h.next (some 1) = none := by decide +kernel
  rw [this]
  exact .nil

/-- Empty data: an error, nothing touched. -/
theorem C37_save_empty (env : Env) (fs : FS) (file : Bytes) (autoImport : List Bool) :
    saveFile env fs file [] autoImport = (fs, some .saveEmptyData) := rfl

/-- What is written: the output of the selected formatter, or the data itself if that formatter failed. -/
def IsOutput (env : Env) (name data : Bytes) (autoImport : List Bool) (out : Bytes) : Prop :=
  if autoImport.head? = some true then
    env.importsProcess name data = some out ∨ (env.importsProcess name data = none ∧ out = data)
  else env.formatSource data = some out ∨ (env.formatSource data = none ∧ out = data)

theorem isOutput_formattedData (env : Env) (name data : Bytes) (ai : List Bool) :
    IsOutput env name data ai (formattedData env name data ai) := by
  unfold IsOutput formattedData
  rcases ai with _ | ⟨b, ai⟩
  · simp only [List.head?_nil, reduceCtorEq, if_false, List.length_nil]
    cases env.formatSource data <;> simp
  · cases b
    · simp only [List.head?_cons, Option.some.injEq, Bool.false_eq_true, if_false, List.headD_cons, Bool.and_false]
      cases env.formatSource data <;> simp
    · simp only [List.head?_cons, if_true, List.headD_cons, List.length_cons]
      cases env.importsProcess name data <;> simp

/-- For all environments: `SaveFile` returns nil exactly when there was data and every OS call succeeded; then the
`.go` file holds the output and every other file is as before. -/
theorem C37_save_ok (env : Env) (fs : FS) (file data name out : Bytes) (autoImport : List Bool)
    (hn : IsGoName file name) (ho : IsOutput env name data autoImport out) :
    ((saveFile env fs file data autoImport).2 = none ↔
      data ≠ [] ∧ env.mkdirOk (env.dir name) = true ∧ env.createOk name = true ∧
      env.writeFailsAfter name out = none) ∧
    ((saveFile env fs file data autoImport).2 = none →
      (saveFile env fs file data autoImport).1 name = some out ∧
      ∀ g, g ≠ name → (saveFile env fs file data autoImport).1 g = fs g) := by
  have e1 : goFileName file = name := by
    have h2 := isGoName_goFileName file
    rcases hn with ⟨a, b⟩ | ⟨a, b⟩ <;> rcases h2 with ⟨c, d⟩ | ⟨c, d⟩
    · rw [d, b]
    · exact absurd a c
    · exact absurd c a
    · rw [d, b]
  have e2 : formattedData env name data autoImport = out := by
    have h2 := isOutput_formattedData env name data autoImport
    unfold IsOutput at ho h2
    split at ho
    · rename_i hh; rw [if_pos hh] at h2; grind
    · rename_i hh; rw [if_neg hh] at h2; grind
  unfold saveFile
  simp only [e1, e2]
  by_cases hd : data.length = 0
  · have : data = [] := List.length_eq_zero_iff.1 hd
    simp [this]
  · have hd' : data ≠ [] := fun hh => hd (by simp [hh])
    simp only [hd, if_false, hd', ne_eq, not_false_eq_true, true_and]
    cases env.mkdirOk (env.dir name) <;> cases env.createOk name <;> cases env.writeFailsAfter name out <;>
      simp [FS.put]
    intro g hg
    simp [hg]

/-! ## C38 -/

/-- Failures before the file is created leave the file system as it was. -/
theorem C38_early_failure (env : Env) (fs : FS) (file data : Bytes) (autoImport : List Bool) (e : Err)
    (he : (saveFile env fs file data autoImport).2 = some e) (hw : e ≠ .write) :
    (saveFile env fs file data autoImport).1 = fs := by
  unfold saveFile at he ⊢
  grind

/-- Whatever happens, no other file ever changes. -/
theorem C38_other_files (env : Env) (fs : FS) (file data name : Bytes) (autoImport : List Bool)
    (hn : IsGoName file name) (g : Bytes) (hg : g ≠ name) :
    (saveFile env fs file data autoImport).1 g = fs g := by
  have e1 : goFileName file = name := by
    have h2 := isGoName_goFileName file
    rcases hn with ⟨a, b⟩ | ⟨a, b⟩ <;> rcases h2 with ⟨c, d⟩ | ⟨c, d⟩
    · rw [d, b]
    · exact absurd a c
    · exact absurd c a
    · rw [d, b]
  unfold saveFile
  simp only [e1]
  split
  · rfl
  · split
    · rfl
    · split
      · rfl
      · split <;> simp [FS.put, hg]

/-- A failing write leaves a prefix of the new content, whatever the old content was. -/
theorem C38_failed_write (env : Env) (fs : FS) (file data name out : Bytes) (autoImport : List Bool)
    (hn : IsGoName file name) (ho : IsOutput env name data autoImport out)
    (he : (saveFile env fs file data autoImport).2 = some .write) :
    ∃ k, env.writeFailsAfter name out = some k ∧
      (saveFile env fs file data autoImport).1 name = some (out.take k) := by
  have e1 : goFileName file = name := by
    have h2 := isGoName_goFileName file
    rcases hn with ⟨a, b⟩ | ⟨a, b⟩ <;> rcases h2 with ⟨c, d⟩ | ⟨c, d⟩
    · rw [d, b]
    · exact absurd a c
    · exact absurd c a
    · rw [d, b]
  have e2 : formattedData env name data autoImport = out := by
    have h2 := isOutput_formattedData env name data autoImport
    unfold IsOutput at ho h2
    split at ho
    · rename_i hh; rw [if_pos hh] at h2; grind
    · rename_i hh; rw [if_neg hh] at h2; grind
  unfold saveFile at he ⊢
  simp only [e1, e2] at he ⊢
  unfold FS.put
  grind

/-- An environment of the examples: everything works, formatting is the identity. -/
def demoEnv : Env where
  formatSource := some
  importsProcess _ d := some d
  openDenied _ := false
  readFails _ := false
  mkdirOk _ := true
  createOk _ := true
  writeFailsAfter _ _ := none
  dir _ := b!"."
  base f := f
  ext _ := b!".go"

/-- "A failed `Save` keeps the old file" is false: the old content is gone. -/
theorem C38_old_content_lost : ∃ (env : Env) (fs : FS) (file data old : Bytes),
    fs file = some old ∧ (saveFile env fs file data []).2 ≠ none ∧
    (saveFile env fs file data []).1 file ≠ some old :=
  ⟨{ demoEnv with writeFailsAfter := fun _ _ => some 1 }, fun f => if f = b!"a.go" then some b!"old" else none,
    b!"a.go", b!"new", b!"old", by decide, by decide, by decide⟩

example : IsGoName b!"dir/a" b!"dir/a.go" ∧ IsGoName b!"a.go" b!"a.go" := by
  refine ⟨.inr ⟨?_, rfl⟩, .inl ⟨⟨b!"a", rfl⟩, rfl⟩⟩
  rintro ⟨t, ht⟩
  have := congrArg List.getLast? ht
  simp at this

example : (saveFile demoEnv (fun _ => none) b!"a" b!"package a" [true]).2 = none ∧
    (saveFile demoEnv (fun _ => none) b!"a" b!"package a" [true]).1 b!"a.go" = some b!"package a" := by decide

/-! ## C42 -/

/-- `IterScope` calls the callback on the scopes in order, and stops after the first call that returned false. -/
theorem C42_iterScope {σ : Type} (fn : σ → ScopeRec → σ × Bool) (scs : List ScopeRec) (s : σ) :
    AstRec.iterScope fn scs s =
      (scs.foldl (fun (p : σ × Bool) sc => if p.2 then fn p.1 sc else p) (s, true)).1 := by
  have stop : ∀ (scs : List ScopeRec) (s : σ),
      (scs.foldl (fun (p : σ × Bool) sc => if p.2 then fn p.1 sc else p) (s, false)) = (s, false) := by
    intro scs
    induction scs with
    | nil => intro s; rfl
    | cons a l ih => intro s; simpa using ih s
  induction scs generalizing s with
  | nil => rfl
  | cons sc scs ih =>
    simp only [AstRec.iterScope, List.foldl_cons, if_true]
    rcases h : fn s sc with ⟨s', b⟩
    cases b
    · simp [stop]
    · simp [ih]

/-- With a callback deciding by `p`: the scopes up to and including the first on which `p` is false. -/
theorem C42_iterScope_visited (p : ScopeRec → Bool) (scs : List ScopeRec) :
    AstRec.iterScope (fun (log : List ScopeRec) sc => (log ++ [sc], p sc)) scs [] =
      scs.takeWhile p ++ (scs.dropWhile p).take 1 := by
  have gen : ∀ (scs log : List ScopeRec),
      AstRec.iterScope (fun (log : List ScopeRec) sc => (log ++ [sc], p sc)) scs log =
        log ++ (scs.takeWhile p ++ (scs.dropWhile p).take 1) := by
    intro scs
    induction scs with
    | nil => intro log; simp [AstRec.iterScope]
    | cons sc scs ih =>
      intro log
      simp only [AstRec.iterScope, List.takeWhile_cons, List.dropWhile_cons]
      cases p sc
      · simp
      · simp [ih]
  simpa using gen scs []

end Goast
