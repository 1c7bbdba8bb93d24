import Verif.Proofs.AstGoroutines

/-!
# C74: goroutines with files of their own do not disturb each other
-/

set_option linter.unusedSimpArgs false
set_option linter.unusedVariables false

namespace Goast
open Heap

/-- **C74** Any number of goroutines use the API on nodes, scopes, slices and `Ast`s of their own, and none writes a file that another
reads or writes; what each does may depend on everything it was shown.  If each of them alone gets through its part of the schedule
without panic or endless loop, then under this schedule all of them do, every one is shown exactly what it is shown when it runs alone
(errors included), every file a goroutine can touch ends up with the content that goroutine alone leaves in it, files nobody can write
stay as they were, and so do the nodes and the backing arrays that belong to nobody. -/
theorem C74_any_schedule (env : Env) (caps : Caps) (progs : Nat → Prog2) (sched : List Nat) {w : Shared2} {gs : Nat → Gor2} {own : Nat → Addr → Prop}
    {ownArr : Nat → Nat → Prop} (ap : Apart2 w.st gs own ownArr) (fa : FilesApart progs)
    (ok : ∀ i, ∃ r, solo2 env caps (progs i) (sched.count i) w (gs i) = some r) :
    ∃ w' gs', together2 env caps progs sched w gs = some (w', gs') ∧
      (∀ i w₁ g₁, solo2 env caps (progs i) (sched.count i) w (gs i) = some (w₁, g₁) →
        (gs' i).seen = g₁.seen ∧ ∀ seen, ∀ f ∈ (progs i seen).files, w'.fs f = w₁.fs f) ∧
      (∀ f, (∀ i seen, f ∉ (progs i seen).writes) → w'.fs f = w.fs f) ∧
      (∀ a, a < w.st.heap.size → (∀ i, ¬ own i a) →
        w'.st.heap.next (some a) = w.st.heap.next (some a) ∧ w'.st.heap.prev (some a) = w.st.heap.prev (some a) ∧ data w'.st.heap a = data w.st.heap a) ∧
      (∀ x, x < w.st.arrs.length → (∀ i, ¬ ownArr i x) → w'.st.arrs[x]? = w.st.arrs[x]?) := by
  have at_id : ∀ r : NodeRec, r.at id = r := by intro r; simp [NodeRec.at]
  have sc_id : ScopeRec.at id = id := by funext sc; simp [ScopeRec.at]
  have pl : ∀ i, PlA id (own i) id (ownArr i) w.st w.st := fun i =>
    { pl :=
      { le := Nat.le_refl _
        lt := fun ha => ap.base.exist i _ ha
        inj := fun _ _ e => e
        cell := fun {a} _ => by cases e : w.st.heap.cells[a]? <;> simp [at_id, e]
        nextC := fun {a r} ha e b hb => ap.base.next i a b ha (by simp [Heap.next, e, hb])
        prevC := fun {a r} ha e b hb => ap.base.prev i a b ha (by simp [Heap.prev, e, hb]) }
      lt := fun hx => ap.exist i _ hx
      inj := fun _ _ e => e
      cell := fun {x} _ => by cases e : w.st.arrs[x]? <;> simp [sc_id, e]
      ins := fun {x l} hx e sc hsc a ha => ap.inside i x hx l e sc hsc a ha }
  have ho : ∀ i, Holds2 (own i) (ownArr i) (gs i) := fun i =>
    ⟨fun p hp a e => ap.base.nodes i a (by rw [← e]; exact hp), fun sc hsc a e => ap.base.scopes i a sc hsc e, ap.slices i, ap.asts i⟩
  have g_id : ∀ i, (gs i).at id id = gs i := by
    intro i
    rcases gs i with ⟨ns, ss, sl, as, sn⟩
    have h1 : Slice.at id = id := by funext s; simp [Slice.at]
    have h2 : AstRec.at id = id := by funext s; simp [AstRec.at, h1]
    simp only [Gor2.at, Gor2.mk.injEq, and_true]
    exact ⟨by simp, by rw [sc_id, List.map_id], by rw [h1, List.map_id], by rw [h2, List.map_id]⟩
  obtain ⟨k', gs', e, seen, fs, sz, fr, frA⟩ := together2_sim env caps progs fa sched w (fun _ => w) gs (fun _ => id) own (fun _ => id) ownArr pl ho
    (fun i j a b hij ha hb e => hij (ap.base.disjoint i j a ha (by
      have e : a = b := e
      rw [e]; exact hb)))
    (fun i j a b hij ha hb e => hij (ap.disjoint i j a ha (by
      have e : a = b := e
      rw [e]; exact hb))) (fun _ _ _ _ => rfl) ok
  have hg : (fun i => (gs i).at id id) = gs := funext g_id
  rw [hg] at e
  refine ⟨k', gs', e, seen, fs, ?_, ?_⟩
  · intro a ha hn
    have := fr a ha (fun i b hb e => hn i (by have e : b = a := e; rw [← e]; exact hb))
    simp [Heap.next, Heap.prev, data, Heap.line, Heap.kind, Heap.text, this]
  · intro x hx hn
    exact frA x hx (fun i y hy e => hn i (by have e : y = x := e; rw [← e]; exact hy))

/-- **C74** Goroutines that start with nothing in their variables have nothing in common, whatever the program did before. -/
theorem C74_fresh (st : AState) : Apart2 st (fun _ => ⟨[], [], [], [], []⟩) (fun _ _ => False) (fun _ _ => False) where
  base := ⟨fun _ _ => False.elim, fun _ _ _ => False.elim, fun _ _ _ => False.elim, fun i a ha => by simp [Gor2.base] at ha,
    fun i a sc hsc => by simp [Gor2.base] at hsc, fun _ _ _ => False.elim⟩
  exist _ _ := False.elim
  inside _ _ := False.elim
  slices i s hs := by simp at hs
  asts i a ha := by simp at ha
  disjoint _ _ _ := False.elim

/-! ## Witnesses -/

/-- A machine on which everything works, and whose formatter leaves the text as it is. -/
def plainEnv : Env where
  formatSource b := some b
  importsProcess _ b := some b
  openDenied _ := false
  readFails _ := false
  mkdirOk _ := true
  createOk _ := true
  writeFailsAfter _ _ := none
  dir f := f
  base f := f
  ext f := f

/-- One array cell at a time, one spare element after a parse. -/
def plainCaps : Caps := ⟨fun n => n + 1, fun _ => 1⟩

/-- A goroutine that parses a file, changes the first node of its second scope, adds the scope once more and saves the file. -/
def progFile (file text : Bytes) : Prog2 := fun seen => match seen.length with
  | 0 => .parseAst file
  | 1 => .scope 0
  | 2 => .elems 0
  | 3 => .base (.node 1)
  | 4 => .base (.call (.setText (some 0) text))
  | 5 => .cut 0 1 2
  | 6 => .appendScope 0 1
  | 7 => .save 0 file []
  | _ => .base (.look none)

/-- Two goroutines, each with its file; the others do nothing. -/
def progsFiles : Nat → Prog2
  | 0 => progFile b!"a" b!"// one\nfunc"
  | 1 => progFile b!"b.go" b!"func"
  | _ => fun _ => .base (.look none)

/-- The files at the beginning. -/
def twoFiles : FS := fun f => if f = b!"a.go" then some b!"package a\nfunc F() {}\n" else if f = b!"b.go" then some b!"package b\nfunc G() {}\n" else none

theorem progsFiles_files (i : Nat) (seen : List Obs2) : ∀ f ∈ (progsFiles i seen).files, (i = 0 ∧ f = b!"a.go") ∨ (i = 1 ∧ f = b!"b.go") := by
  have hn : goFileName b!"a" = b!"a.go" := by decide
  have hm : goFileName b!"b.go" = b!"b.go" := by decide
  intro f hf
  rcases i with _ | _ | i
  · simp only [progsFiles, progFile] at hf
    split at hf <;> simp [Act2.files, Act2.writes, hn] at hf <;> simp [hf]
  · simp only [progsFiles, progFile] at hf
    split at hf <;> simp [Act2.files, Act2.writes, hm] at hf <;> simp [hf]
  · simp [progsFiles, Act2.files, Act2.writes] at hf

theorem Act2.writes_files (a : Act2) : ∀ f ∈ a.writes, f ∈ a.files := by
  cases a <;> simp [Act2.files, Act2.writes]

/-- The hypotheses of `C74_any_schedule` are met by these two programs … -/
example : FilesApart progsFiles := by
  intro i j seen seen' f hij hw hf
  have h1 := progsFiles_files i seen f (Act2.writes_files _ f hw)
  have h2 := progsFiles_files j seen' f hf
  have : b!"a.go" ≠ b!"b.go" := by decide
  grind

/-- An interleaving of them. -/
def mixed : List Nat := [0, 1, 1, 0, 0, 1, 0, 1, 1, 0, 0, 1, 1, 0, 0, 1]

/-- A goroutine that has not begun. -/
def unborn : Gor2 := ⟨[], [], [], [], []⟩

example : ∀ i, ∃ r, solo2 plainEnv plainCaps (progsFiles i) (mixed.count i) ⟨⟨Heap.empty, []⟩, twoFiles⟩ unborn = some r := by
  intro i
  rw [← Option.isSome_iff_exists]
  rcases i with _ | _ | i
  · decide +kernel
  · decide +kernel
  · rw [List.count_eq_zero.2 (by simp [mixed])]
    rfl

/-- … and under this schedule both files are as each goroutine leaves its own. -/
example : ((together2 plainEnv plainCaps progsFiles mixed ⟨⟨Heap.empty, []⟩, twoFiles⟩ (fun _ => unborn)).map fun r =>
    (r.1.fs b!"a.go", r.1.fs b!"b.go", r.1.fs b!"c.go")) =
      some (some b!"package a\n// one\nfunc F() {}\n// one\nfunc F() {}\n", some b!"package b\nfunc G() {}\nfunc G() {}\n", none) := by
  decide +kernel

/-- **C74, witness** The files must be of their own: if two goroutines save the same file, its content depends on the schedule. -/
theorem C74_shared_file : ∃ (progs : Nat → Prog2) (f : Bytes),
    ((together2 plainEnv plainCaps progs [0, 1] ⟨⟨Heap.empty, []⟩, fun _ => none⟩ (fun _ => unborn)).map fun r => r.1.fs f) = some (some b!"one") ∧
    ((together2 plainEnv plainCaps progs [1, 0] ⟨⟨Heap.empty, []⟩, fun _ => none⟩ (fun _ => unborn)).map fun r => r.1.fs f) = some (some b!"zero") :=
  ⟨fun i _ => .saveFile b!"f" (if i = 0 then b!"zero" else b!"one") [], b!"f.go", by decide +kernel, by decide +kernel⟩

/-- **C74, witness** The backing arrays must be of their own, too: two goroutines, each with an `Ast` of its own, made from one `Ast` by
`SetScope(a.Scope())`, each append a scope of its own to it and save it to a file of its own.  Under one schedule the file of the first
holds what the second appended. -/
theorem C74_shared_array : ∃ (progs : Nat → Prog2) (w : Shared2) (gs : Nat → Gor2), FilesApart progs ∧
    ((together2 plainEnv plainCaps progs [0, 0, 1, 1] w gs).map fun r => (r.1.fs b!"0.go", r.1.fs b!"1.go")) = some (some b!"AX", some b!"AY") ∧
    ((together2 plainEnv plainCaps progs [0, 1, 0, 1] w gs).map fun r => (r.1.fs b!"0.go", r.1.fs b!"1.go")) = some (some b!"AY", some b!"AY") := by
  have hn : goFileName b!"0" = b!"0.go" := by decide
  have hm : goFileName b!"1" = b!"1.go" := by decide
  refine ⟨fun i seen => if i = 0 ∨ i = 1 then (if seen.length = 0 then .appendScope 0 0 else .save 0 (if i = 0 then b!"0" else b!"1") []) else .base (.look none),
    ⟨⟨((Heap.empty.newNode 0 b!"A" []).1.newNode 0 b!"X" []).1.newNode 0 b!"Y" [] |>.1,
      [[⟨0, .func_, some 0⟩, default], [⟨0, .func_, some 1⟩], [⟨0, .func_, some 2⟩]]⟩, fun _ => none⟩,
    fun i => ⟨[], [], [⟨i + 1, 0, 1, 1⟩], [⟨[], [], [], [], ⟨0, 0, 1, 2⟩⟩], []⟩, ?_, by decide +kernel, by decide +kernel⟩
  intro i j seen seen' f hij hw hf
  have hne : b!"0.go" ≠ b!"1.go" := by decide
  simp only at hw hf
  split at hw
  · split at hw
    · simp [Act2.writes] at hw
    · split at hf
      · split at hf
        · simp [Act2.files, Act2.writes] at hf
        · simp only [Act2.files, Act2.writes, List.mem_singleton] at hw hf
          grind
      · simp [Act2.files, Act2.writes] at hf
  · simp [Act2.writes] at hw

end Goast
