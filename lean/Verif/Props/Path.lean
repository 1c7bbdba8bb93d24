import Verif.Proofs.Path
import Verif.Props.Ast
import Verif.Model.SaveSteps
import Verif.Model.Places

/-!
# C89: the path fields of an `Ast` and the files that `ParseAst` and `Save` touch

On Unix (`Path.OnUnix`: the functions of `path/filepath` are those of Go on Unix).  What a path means is said in Spec/Path.
-/

set_option linter.unusedSimpArgs false
set_option linter.unusedVariables false

namespace Goast

open PathSpec

theorem parseAst_fields {env : Env} {spare : Nat} {fs : FS} {st st' : AState} {file : Bytes} {f : AstRec}
    (hp : parseAst env spare fs st file = some (.ok (st', f))) :
    f.file = file ∧ f.dir = env.dir file ∧ f.name = env.base file ∧ f.ext = env.ext file := by
  unfold parseAst at hp
  split at hp
  · simp at hp
  · split at hp
    · simp at hp
    · rename_i h scs hps
      cases hr : findPackageName h scs with
      | none => rw [hr] at hp; simp at hp
      | some r =>
        rw [hr] at hp
        cases r with
        | error e => simp at hp
        | ok t =>
          simp only [Option.map_some, Option.some.injEq, Except.ok.injEq, Prod.mk.injEq] at hp
          rw [← hp.2]
          exact ⟨rfl, rfl, rfl, rfl⟩

theorem dir_append (p s : Bytes) (h : (47 : UInt8) ∉ s) : Path.dir (p ++ s) = Path.dir p := by
  unfold Path.dir
  rw [lastPart_append p s h]
  congr 1
  have hl : (Path.lastPart p).length ≤ p.length := by
    have := (List.takeWhile_sublist (!Path.isSep ·) (l := p.reverse)).length_le
    simpa [Path.lastPart] using this
  have : (p ++ s).length - (Path.lastPart p ++ s).length = p.length - (Path.lastPart p).length := by simp; omega
  rw [this, List.take_append_of_le_length (by omega)]

theorem go_noslash : (47 : UInt8) ∉ b!".go" := by decide

theorem isName_go (m : Bytes) (h : (47 : UInt8) ∉ m) : IsName (m ++ b!".go") := by
  refine ⟨by simp, ?_, ?_, ?_⟩
  · intro e
    rcases List.mem_append.1 e with e | e
    · exact h e
    · exact go_noslash e
  · intro e
    have := congrArg List.length e
    simp at this
  · intro e
    have := congrArg List.length e
    simp at this

/-- Every file that ends in `.go`: its directory and its last part. -/
theorem place_go (cwd : List Bytes) (t : Bytes) :
    place cwd (t ++ b!".go") = place cwd (Path.dir t) ++ [Path.lastPart t ++ b!".go"] := by
  rw [place_cut, dir_append t _ go_noslash, lastPart_append t _ go_noslash, walk_name _ (isName_go _ (lastPart_noslash t))]

theorem lastPart_join (x n : Bytes) (h : (47 : UInt8) ∉ n) : Path.lastPart (x ++ b!"/" ++ n) = n := by
  rw [lastPart_append _ _ h]
  have : Path.lastPart (x ++ b!"/") = [] := (lastPart_empty _).2 (.inr (by simp))
  simp [this]

theorem ends_go (p : Bytes) : (∃ t, p = t ++ b!".go") ↔ ∃ m, Path.lastPart p = m ++ b!".go" := by
  constructor
  · rintro ⟨t, rfl⟩
    exact ⟨_, lastPart_append t _ go_noslash⟩
  · rintro ⟨m, hm⟩
    obtain ⟨d, h1, _, _⟩ := cut p
    exact ⟨d ++ m, by conv => lhs; rw [h1, hm]
                      simp⟩

theorem ext_go (p : Bytes) : Path.ext p = b!".go" ↔ ∃ t, p = t ++ b!".go" := by
  rw [ends_go]
  constructor
  · intro h
    rcases ext_spec p with ⟨h1, _⟩ | ⟨stem, e, h1, h2, _⟩
    · rw [h1] at h; cases h
    · exact ⟨stem, by rw [h1, ← h2, h]⟩
  · rintro ⟨m, hm⟩
    unfold Path.ext
    simp [hm, List.takeWhile_cons]

/-- **C89** `Dir()` and `Filename()` joined name the file whose path was given to `ParseAst` (a path with a name in it: not empty
and without a slash at its end). -/
theorem C89_join {env : Env} (ux : Path.OnUnix env) {spare : Nat} {fs : FS} {st st' : AState} {file : Bytes} {f : AstRec}
    (hp : parseAst env spare fs st file = some (.ok (st', f))) (h0 : file ≠ []) (h1 : file.getLast? ≠ some 47) (cwd : List Bytes) :
    place cwd (f.dir ++ b!"/" ++ f.name) = place cwd f.file ∧ f.file = file := by
  obtain ⟨e1, e2, e3, _⟩ := parseAst_fields hp
  have hl : Path.lastPart file ≠ [] := fun e => by
    rcases (lastPart_empty file).1 e with e | e
    · exact h0 e
    · exact h1 e
  refine ⟨?_, e1⟩
  rw [e1, e2, e3, ux.1, ux.2.1, base_eq _ hl, place_join _ (Path.dir file) _ (clean_ne _), ← place_cut]

/-- **C89** The file that `ParseAst` read lies in `Dir()`; it is called `Filename()` if the path given ends in `.go`, otherwise
`Filename()` with `.go` behind it. -/
theorem C89_read {env : Env} (ux : Path.OnUnix env) {spare : Nat} {fs : FS} {st st' : AState} {file name : Bytes} {f : AstRec}
    (hp : parseAst env spare fs st file = some (.ok (st', f))) (h0 : file ≠ []) (h1 : file.getLast? ≠ some 47)
    (hn : IsGoName file name) (cwd : List Bytes) :
    ((∃ t, file = t ++ b!".go") → place cwd name = place cwd f.dir ++ [f.name]) ∧
    ((¬ ∃ t, file = t ++ b!".go") → place cwd name = place cwd f.dir ++ [f.name ++ b!".go"]) := by
  obtain ⟨_, e2, e3, _⟩ := parseAst_fields hp
  have hl : Path.lastPart file ≠ [] := fun e => by
    rcases (lastPart_empty file).1 e with e | e
    · exact h0 e
    · exact h1 e
  rw [e2, e3, ux.1, ux.2.1, base_eq _ hl]
  rcases hn with ⟨a, rfl⟩ | ⟨a, rfl⟩
  · refine ⟨fun _ => ?_, fun h => absurd a h⟩
    obtain ⟨t, rfl⟩ := a
    rw [place_go, dir_append t _ go_noslash, lastPart_append t _ go_noslash]
  · exact ⟨fun h => absurd h a, fun _ => place_go cwd file⟩

/-- **C89** `Ext()` is the end of `Filename()` from its last dot on, or empty if there is no dot; it is `.go` exactly when the path
given ends in `.go`. -/
theorem C89_ext {env : Env} (ux : Path.OnUnix env) {spare : Nat} {fs : FS} {st st' : AState} {file : Bytes} {f : AstRec}
    (hp : parseAst env spare fs st file = some (.ok (st', f))) (h0 : file ≠ []) (h1 : file.getLast? ≠ some 47) :
    ((f.ext = [] ∧ (46 : UInt8) ∉ f.name) ∨ ∃ stem e, f.name = stem ++ b!"." ++ e ∧ f.ext = b!"." ++ e ∧ (46 : UInt8) ∉ e) ∧
    (f.ext = b!".go" ↔ ∃ t, file = t ++ b!".go") := by
  obtain ⟨_, _, e3, e4⟩ := parseAst_fields hp
  have hl : Path.lastPart file ≠ [] := fun e => by
    rcases (lastPart_empty file).1 e with e | e
    · exact h0 e
    · exact h1 e
  rw [e3, e4, ux.2.1, ux.2.2, base_eq _ hl]
  refine ⟨?_, ext_go file⟩
  rcases ext_spec file with h | ⟨stem, e, h, h', h''⟩
  · exact .inl h
  · exact .inr ⟨stem, e, by simpa using h, by simpa using h', h''⟩

/-- **C89** Saving under `Dir()` and `Filename()` joined writes the file that `ParseAst` read, as saving under `File()` does. -/
theorem C89_save_back {env : Env} (ux : Path.OnUnix env) {spare : Nat} {fs : FS} {st st' : AState} {file : Bytes} {f : AstRec}
    (hp : parseAst env spare fs st file = some (.ok (st', f))) (h0 : file ≠ []) (h1 : file.getLast? ≠ some 47) {read written : Bytes}
    (hr : IsGoName file read) (hw : IsGoName (f.dir ++ b!"/" ++ f.name) written) (cwd : List Bytes) :
    place cwd written = place cwd read := by
  have hj := (C89_join ux hp h0 h1 cwd).1
  obtain ⟨e1, e2, e3, _⟩ := parseAst_fields hp
  have hl : Path.lastPart file ≠ [] := fun e => by
    rcases (lastPart_empty file).1 e with e | e
    · exact h0 e
    · exact h1 e
  rw [ux.1] at e2
  rw [ux.2.1, base_eq _ hl] at e3
  have same : (∃ t, f.dir ++ b!"/" ++ f.name = t ++ b!".go") ↔ ∃ t, file = t ++ b!".go" := by
    rw [ends_go (f.dir ++ b!"/" ++ f.name), ends_go file, e3, lastPart_join _ _ (lastPart_noslash file)]
  rcases hw with ⟨a, rfl⟩ | ⟨a, rfl⟩
  · rcases hr with ⟨b, rfl⟩ | ⟨b, _⟩
    · rw [hj, e1]
    · exact absurd (same.1 a) b
  · rcases hr with ⟨b, _⟩ | ⟨b, rfl⟩
    · exact absurd (same.2 b) a
    · rw [place_go, place_go, lastPart_join _ _ (e3 ▸ lastPart_noslash file), e3]
      congr 1
      have h2 := place_cut cwd (f.dir ++ b!"/")
      have : Path.lastPart (f.dir ++ b!"/") = [] := (lastPart_empty _).2 (.inr (by simp))
      rw [this, walk_nil] at h2
      rw [dir_append _ _ (lastPart_noslash file), ← h2]
      have h3 := place_join cwd f.dir [] (e2 ▸ clean_ne _)
      rw [List.append_nil, walk_nil] at h3
      rw [h3, e2]

/-- **C89** The directory that `Save` makes is the one the file lies in that it writes. -/
theorem C89_mkdir {env : Env} (ux : Path.OnUnix env) (split : Bytes → List Bytes) (file data name d : Bytes) (autoImport : List Bool)
    (hn : IsGoName file name) (hd : Effect.mkdir d ∈ saveEffects env split file data autoImport) :
    ∃ last, (∃ m, last = m ++ b!".go") ∧ ∀ cwd, place cwd name = place cwd d ++ [last] := by
  have e : goFileName file = name := by
    have h2 := isGoName_goFileName file
    rcases hn with ⟨a, b⟩ | ⟨a, b⟩ <;> rcases h2 with ⟨c, d⟩ | ⟨c, d⟩
    · rw [d, b]
    · exact absurd a c
    · exact absurd c a
    · rw [d, b]
  have ht : ∃ t, name = t ++ b!".go" := by
    rcases hn with ⟨a, rfl⟩ | ⟨a, rfl⟩
    · exact a
    · exact ⟨_, rfl⟩
  have nowrite : ∀ (nm : Bytes) (cs : List Bytes) (n : Nat), Effect.mkdir d ∉ writeEffects nm n cs := by
    intro nm cs
    induction cs with
    | nil => simp [writeEffects]
    | cons c cs ih => intro n; simp [writeEffects, ih]
  have ed : d = Path.dir name := by
    unfold saveEffects at hd
    rw [e, ux.1] at hd
    split at hd
    · simp at hd
    · simp only at hd
      split at hd
      · simp at hd
      · split at hd
        · simpa using hd
        · simp only [List.mem_cons, Effect.mkdir.injEq, reduceCtorEq, false_or] at hd
          rcases hd with h | h
          · exact h
          · exact absurd h (nowrite _ _ _)
  obtain ⟨t, rfl⟩ := ht
  refine ⟨Path.lastPart t ++ b!".go", ⟨_, rfl⟩, fun cwd => ?_⟩
  rw [ed, dir_append t _ go_noslash, place_go]

/-- **C89** One directory has one spelling: two Asts whose files lie in the same directory, wherever the process runs, have the same
`Dir()`, however the two paths were spelled. -/
theorem C89_same_dir {env : Env} (ux : Path.OnUnix env) {spare : Nat} {fs fs' : FS} {s1 s1' s2 s2' : AState} {file file' : Bytes} {f f' : AstRec}
    (hp : parseAst env spare fs s1 file = some (.ok (s1', f))) (hp' : parseAst env spare fs' s2 file' = some (.ok (s2', f')))
    (hd : ∀ cwd, place cwd f.dir = place cwd f'.dir) : f.dir = f'.dir := by
  obtain ⟨_, e2, _⟩ := parseAst_fields hp
  obtain ⟨_, e2', _⟩ := parseAst_fields hp'
  rw [ux.1] at e2 e2'
  obtain ⟨d, _, _, h⟩ := cut file
  obtain ⟨d', _, _, h'⟩ := cut file'
  rw [e2, e2', h, h'] at hd ⊢
  exact clean_unique fun cwd => by rw [← place_clean, hd, place_clean]

/-- **C89** A path without a name in it (empty, or with a slash at its end): `Dir()` names what the path names, and the file that was
read is `.go` in there. -/
theorem C89_no_name {env : Env} (ux : Path.OnUnix env) {spare : Nat} {fs : FS} {st st' : AState} {file name : Bytes} {f : AstRec}
    (hp : parseAst env spare fs st file = some (.ok (st', f))) (h0 : file = [] ∨ file.getLast? = some 47)
    (hn : IsGoName file name) (cwd : List Bytes) :
    place cwd f.dir = place cwd file ∧ place cwd name = place cwd f.dir ++ [b!".go"] := by
  obtain ⟨_, e2, _⟩ := parseAst_fields hp
  have hl := (lastPart_empty file).2 h0
  rw [e2, ux.1]
  have h := place_cut cwd file
  rw [hl, walk_nil] at h
  refine ⟨h.symm, ?_⟩
  rcases hn with ⟨a, _⟩ | ⟨_, rfl⟩
  · obtain ⟨m, hm⟩ := (ends_go file).1 a
    rw [hl] at hm
    exact absurd (congrArg List.length hm) (by simp)
  · rw [place_go, hl]
    rfl

/-- An environment on Unix, and files that parse. -/
def unixEnv : Env := { demoEnv with dir := Path.dir, base := Path.base, ext := Path.ext }

theorem onUnix_unixEnv : Path.OnUnix unixEnv := ⟨rfl, rfl, rfl⟩

/-- The hypotheses are met: a file whose path has detours. -/
theorem C89_example : ∃ st' f, parseAst unixEnv 0 (fun _ => some b!"package a\n") ⟨Heap.empty, []⟩ b!"a/../src//x.v1.go" = some (.ok (st', f)) ∧
    f.dir = b!"src" ∧ f.name = b!"x.v1.go" ∧ f.ext = b!".go" ∧
    place [b!"home"] f.dir = [b!"home", b!"src"] ∧ place [b!"home"] f.file = [b!"home", b!"src", b!"x.v1.go"] :=
  ⟨_, _, rfl, by decide +kernel, by decide +kernel, by decide +kernel, by decide +kernel, by decide +kernel⟩

/-- `Filename()` and `Ext()` speak about the path given, not about the file read: `./src/x.v1` is read from `src/x.v1.go`. -/
theorem C89_other_ext : ∃ st' f, parseAst unixEnv 0 (fun n => if n = b!"./src/x.v1.go" then some b!"package a\n" else none) ⟨Heap.empty, []⟩ b!"./src/x.v1" =
    some (.ok (st', f)) ∧ f.dir = b!"src" ∧ f.name = b!"x.v1" ∧ f.ext = b!".v1" :=
  ⟨_, _, rfl, by decide +kernel, by decide +kernel, by decide +kernel⟩

/-- Without a name in the path the claim of `C89_join` is false: `src/` is read from `src/.go`, `Dir()` and `Filename()` joined name `src/src`. -/
theorem C89_slash : ∃ st' f, parseAst unixEnv 0 (fun n => if n = b!"src/.go" then some b!"package a\n" else none) ⟨Heap.empty, []⟩ b!"src/" =
    some (.ok (st', f)) ∧ f.dir = b!"src" ∧ f.name = b!"src" ∧
    place [] (f.dir ++ b!"/" ++ f.name) = [b!"src", b!"src"] ∧ place [] f.file = [b!"src"] :=
  ⟨_, _, rfl, by decide +kernel, by decide +kernel, by decide +kernel, by decide +kernel⟩

/-- `C89_same_dir` and `C89_mkdir` are about something. -/
theorem C89_mkdir_example : Effect.mkdir (Path.dir b!"../a/./b.go") ∈ saveEffects unixEnv (fun b => [b]) b!"../a/./b" b!"package a\n" [] ∧
    Path.dir b!"../a/./b.go" = b!"../a" ∧ Path.dir b!"../c/..//a/d.go" = b!"../a" := by decide +kernel

/-! ## Files that are known by several names (Model/Places) -/

/-- **C89** Whether `SaveFile` succeeds or not, a file at another place is as before. -/
theorem C89_only_place (env : Env) (cwd : List Bytes) (disk : List Bytes → Option Bytes) (file data name other : Bytes) (autoImport : List Bool)
    (hn : IsGoName file name) (ho : place cwd other ≠ place cwd name) :
    byName cwd (saveAt env cwd disk file data autoImport).1 other = byName cwd disk other := by
  have e : goFileName file = name := by
    have h2 := isGoName_goFileName file
    rcases hn with ⟨a, b⟩ | ⟨a, b⟩ <;> rcases h2 with ⟨c, d⟩ | ⟨c, d⟩
    · rw [d, b]
    · exact absurd a c
    · exact absurd c a
    · rw [d, b]
  simp [byName, saveAt, e, ho]

/-- **C89** An Ast that is saved without error under `Dir()` and `Filename()` joined is what is found under the path it was parsed from,
and under every other spelling of that path; files at other places are as before (also when there is an error: `C89_only_place`). -/
theorem C89_saved_read {env : Env} (ux : Path.OnUnix env) {spare : Nat} {fs : FS} {st st' : AState} {file : Bytes} {f : AstRec}
    (hp : parseAst env spare fs st file = some (.ok (st', f))) (h0 : file ≠ []) (h1 : file.getLast? ≠ some 47)
    (cwd : List Bytes) (disk : List Bytes → Option Bytes) {read written data out : Bytes} {autoImport : List Bool}
    (hr : IsGoName file read) (hw : IsGoName (f.dir ++ b!"/" ++ f.name) written) (ho : IsOutput env written data autoImport out)
    (hs : (saveAt env cwd disk (f.dir ++ b!"/" ++ f.name) data autoImport).2 = none) :
    let after := byName cwd (saveAt env cwd disk (f.dir ++ b!"/" ++ f.name) data autoImport).1
    (∀ name, place cwd name = place cwd read → after name = some out) ∧ after read = some out ∧
      ∀ name, place cwd name ≠ place cwd read → after name = byName cwd disk name := by
  have hsame := C89_save_back ux hp h0 h1 hr hw cwd
  have e : goFileName (f.dir ++ b!"/" ++ f.name) = written := by
    have h2 := isGoName_goFileName (f.dir ++ b!"/" ++ f.name)
    rcases hw with ⟨a, b⟩ | ⟨a, b⟩ <;> rcases h2 with ⟨c, d⟩ | ⟨c, d⟩
    · rw [d, b]
    · exact absurd a c
    · exact absurd c a
    · rw [d, b]
  have h := ((C37_save_ok env (byName cwd disk) (f.dir ++ b!"/" ++ f.name) data written out autoImport hw ho).2 hs).1
  have all : ∀ name, place cwd name = place cwd read → byName cwd (saveAt env cwd disk (f.dir ++ b!"/" ++ f.name) data autoImport).1 name = some out := by
    intro name hn
    simp only [byName, saveAt, e]
    rw [if_pos (by rw [hn, hsame])]
    exact h
  exact ⟨all, all _ rfl, fun name hn => C89_only_place env cwd disk _ data written name autoImport hw (by rw [hsame]; exact hn)⟩

/-- The hypotheses are met: saved under `src/x.go`, found under `a/../src//x.go`. -/
theorem C89_saved_example : ∃ st' f, parseAst unixEnv 0 (fun _ => some b!"package a\n") ⟨Heap.empty, []⟩ b!"a/../src//x.go" = some (.ok (st', f)) ∧
    (saveAt unixEnv [b!"home"] (fun _ => none) (f.dir ++ b!"/" ++ f.name) b!"package b\n" []).2 = none ∧
    (∃ out, IsOutput unixEnv (f.dir ++ b!"/" ++ f.name) b!"package b\n" [] out) ∧
    byName [b!"home"] (saveAt unixEnv [b!"home"] (fun _ => none) (f.dir ++ b!"/" ++ f.name) b!"package b\n" []).1 b!"a/../src//x.go" =
      some b!"package b\n" :=
  ⟨_, _, rfl, by decide +kernel, ⟨_, isOutput_formattedData _ _ _ _⟩, by decide +kernel⟩

end Goast
