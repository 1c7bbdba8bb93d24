import Verif.Spec.Saves
import Verif.Props.Tree

/-!
# C92: any row of saves
-/

namespace Goast

open PathSpec Tree

/-- helper.go:61-105, ast.go `Save`: the calls one after the other; the tree at the end and every call with the error it returned. -/
def Tree.saves (env : Env) (t : Tree) : List SaveAt → Tree × List (SaveAt × Option Err)
  | [] => (t, [])
  | c :: l =>
    let r := t.save env c.cwd c.file c.data c.autoImport
    let q := Tree.saves env r.1 l
    (q.1, (c, r.2) :: q.2)

theorem Tree.mkdirAll_ok {t t' : Tree} (ok : t.Ok) {r : List Bytes} (h : t.mkdirAll r = some t') : t'.Ok := by
  obtain ⟨s1, s2⟩ := mkdirAll_spec ok r
  obtain ⟨e1, e2⟩ := s2 t' h
  refine ⟨(e2 _).2 (.inl ok.root), ?_, ?_⟩
  · intro p n hp
    rw [e1] at hp
    rw [e2] at hp ⊢
    rcases hp with (hp | ⟨s, hp⟩) | hp
    · exact .inl (ok.up p n (.inl hp))
    · exact .inr ⟨n :: s, by rw [hp]; simp⟩
    · exact .inl (ok.up p n (.inr hp))
  · intro p hp
    rw [e1]
    rcases (e2 p).1 hp with hp | ⟨s, hp⟩
    · exact ok.one p hp
    · cases hf : t.files p with
      | none => rfl
      | some b => rw [s1.2 ⟨p, s, hp, by rw [hf]; rfl⟩] at h; cases h

/-- `Save` keeps the tree well-formed and every directory. -/
theorem Tree.save_ok (env : Env) (cwd : List Bytes) {t : Tree} (ok : t.Ok) (file data : Bytes) (autoImport : List Bool) :
    (t.save env cwd file data autoImport).1.Ok ∧ ∀ q, t.dirs q = true → (t.save env cwd file data autoImport).1.dirs q = true := by
  cases hs : (t.save env cwd file data autoImport).2 with
  | none =>
    obtain ⟨_, _, h, o, _⟩ := C91_saved env cwd ok (isGoName_goFileName file) (isOutput_formattedData env _ data autoImport) hs
    exact ⟨o, fun q hq => (h q).2 (.inl hq)⟩
  | some e =>
    unfold Tree.save at hs ⊢
    dsimp only at hs ⊢
    split
    · exact ⟨ok, fun _ h => h⟩
    · rename_i h0
      rw [if_neg h0] at hs
      split
      · exact ⟨ok, fun _ h => h⟩
      · rename_i t1 h1
        have o1 := mkdirAll_ok ok h1
        have g1 : ∀ q, t.dirs q = true → t1.dirs q = true := fun q hq => (((mkdirAll_spec ok _).2 t1 h1).2 q).2 (.inl hq)
        rw [h1] at hs
        split
        · exact ⟨o1, g1⟩
        · rename_i p h2
          simp only [h2] at hs
          split
          · exact ⟨o1, g1⟩
          · rename_i h3
            rw [if_neg h3] at hs
            cases hs

/-- With more directories the same names are found. -/
theorem Tree.look_mono {t t' : Tree} (h : ∀ q, t.dirs q = true → t'.dirs q = true) :
    ∀ (ps s q : List Bytes), t.look s ps = some q → t'.look s ps = some q
  | [], _, _, e => e
  | x :: ps, s, q, e => by
    simp only [look] at e ⊢
    split at e
    · rename_i hd
      rw [if_pos (h _ hd)]
      exact look_mono h ps _ q e
    · cases e

/-- **C92** After any row of calls of `Save` — some may have failed, paths may be spelled in any way, the working directory may have changed
in between — every place holds what the last successful call for it left, or what it held before. -/
theorem C92_saves (env : Env) : ∀ {t : Tree} (_ : t.Ok) (calls : List SaveAt),
    let r := t.saves env calls
    r.2.map Prod.fst = calls ∧ r.1.Ok ∧ (∀ q, t.dirs q = true → r.1.dirs q = true) ∧ ∀ p, Leaves env p r.2 (t.files p) (r.1.files p)
  | t, ok, [] => ⟨rfl, ok, fun _ h => h, fun _ => .done⟩
  | t, ok, c :: l => by
    obtain ⟨o1, g1⟩ := save_ok env c.cwd ok c.file c.data c.autoImport
    obtain ⟨h1, h2, h3, h4⟩ := C92_saves env o1 l
    refine ⟨?_, h2, fun q hq => h3 q (g1 q hq), fun p => ?_⟩
    · simp only [Tree.saves, List.map_cons, h1]
    have h4 := h4 p
    simp only [Tree.saves]
    have hn := isGoName_goFileName c.file
    cases hs : (t.save env c.cwd c.file c.data c.autoImport).2 with
    | some e =>
      rw [(C91_failed env c.cwd ok hn).2.2.1 (by rw [hs]; exact Option.some_ne_none e)] at h4
      exact .failed h4
    | none =>
      obtain ⟨a, b, _, _, _⟩ := C91_saved env c.cwd ok hn (isOutput_formattedData env _ c.data c.autoImport) hs
      by_cases hp : place c.cwd (goFileName c.file) = p
      · subst hp
        rw [a] at h4
        exact .here hn rfl (isOutput_formattedData env _ c.data c.autoImport) h4
      · rw [b p (fun e => hp e.symm)] at h4
        exact .elsewhere hn hp h4

theorem Leaves.some {env : Env} {p : List Bytes} : ∀ {l : List (SaveAt × Option Err)} {b b' : Option Bytes},
    Leaves env p l b b' → b.isSome → b'.isSome
  | _, _, _, .done, h => h
  | _, _, _, .failed l, h => l.some h
  | _, _, _, .elsewhere _ _ l, h => l.some h
  | _, _, _, .here _ _ _ l, _ => l.some rfl

/-- **C92** No file is lost: a path that can be read can be read after any row of calls of `Save`, and gives what the last successful call
for its place left there. -/
theorem C92_readable (env : Env) {t : Tree} (ok : t.Ok) (calls : List SaveAt) {cwd : List Bytes} {name b : Bytes} (h : t.read cwd name = some b) :
    ∃ b', (t.saves env calls).1.read cwd name = some b' ∧ Leaves env (place cwd name) (t.saves env calls).2 (some b) (some b') := by
  obtain ⟨p, h1, h2⟩ := Option.bind_eq_some_iff.1 h
  have hp := lookup_place h1
  subst hp
  obtain ⟨_, _, g, l⟩ := C92_saves env ok calls
  have l := l (place cwd name)
  rw [h2] at l
  obtain ⟨b', hb⟩ := Option.isSome_iff_exists.1 (l.some rfl)
  rw [hb] at l
  refine ⟨b', ?_, l⟩
  show (Tree.lookup _ cwd name).bind _ = _
  rw [show Tree.lookup _ cwd name = some (place cwd name) from look_mono g _ _ _ h1]
  exact hb

theorem isOutput_unique {env : Env} {name data : Bytes} {autoImport : List Bool} {o o' : Bytes} (h : IsOutput env name data autoImport o)
    (h' : IsOutput env name data autoImport o') : o = o' := by
  unfold IsOutput at h h'
  split at h
  · rename_i hh; rw [if_pos hh] at h'; grind
  · rename_i hh; rw [if_neg hh] at h'; grind

/-- **C92** What a row of calls leaves at a place is determined by the calls and their errors. -/
theorem C92_determined {env : Env} {p : List Bytes} : ∀ {l : List (SaveAt × Option Err)} {b b1 b2 : Option Bytes},
    Leaves env p l b b1 → Leaves env p l b b2 → b1 = b2 := by
  intro l b b1 b2 h
  induction h with
  | done => intro h2; cases h2; rfl
  | failed _ ih => intro h2; cases h2 with | failed h2 => exact ih h2
  | elsewhere hn hp _ ih =>
    intro h2
    cases h2 with
    | elsewhere _ _ h2 => exact ih h2
    | here hn' hp' _ _ => rw [← goName_unique hn', goName_unique hn] at hp'; exact absurd hp' hp
  | here hn hp ho _ ih =>
    intro h2
    cases h2 with
    | elsewhere hn' hp' _ => rw [← goName_unique hn', goName_unique hn] at hp'; exact absurd hp hp'
    | here hn' hp' ho' h2 =>
      have e := goName_unique hn'
      rw [goName_unique hn] at e
      subst e
      rw [isOutput_unique ho' ho] at h2
      exact ih h2

/-- A call that has succeeded succeeds again as long as the directories are there and the file is still a file; no directory is made. -/
theorem Tree.save_again (env : Env) (cwd : List Bytes) {t t2 : Tree} (ok : t.Ok) (ok2 : t2.Ok) {file data : Bytes} {autoImport : List Bool}
    (hs : (t.save env cwd file data autoImport).2 = none) (hd : ∀ q, (t.save env cwd file data autoImport).1.dirs q = true → t2.dirs q = true)
    (hf : (t2.files (place cwd (goFileName file))).isSome) :
    (t2.save env cwd file data autoImport).2 = none ∧ (t2.save env cwd file data autoImport).1.dirs = t2.dirs := by
  have hn := isGoName_goFileName file
  obtain ⟨_, _, h3, _, _⟩ := C91_saved env cwd ok hn (isOutput_formattedData env _ data autoImport) hs
  obtain ⟨last, hl⟩ := place_name hn cwd
  have anc : ∀ q n s, place cwd (goFileName file) = q ++ n :: s → t2.dirs q = true := fun q n s h => hd q ((h3 q).2 (.inr ⟨n, s, h⟩))
  have h2 : (t2.save env cwd file data autoImport).2 = none := by
    unfold Tree.save at hs hd ⊢
    dsimp only at hs hd ⊢
    by_cases h0 : data.length = 0
    · rw [if_pos h0] at hs; cases hs
    rw [if_neg h0] at hs hd ⊢
    rcases hk : t.mkdirAll (place cwd (Path.dir (goFileName file))).reverse with _ | t1
    · rw [hk] at hs; cases hs
    rw [hk] at hs hd
    dsimp only at hs hd
    rcases hj : t1.lookup cwd (goFileName file) with _ | p
    · rw [hj] at hs; cases hs
    rw [hj] at hs hd
    dsimp only at hs hd
    have hp := lookup_place hj
    by_cases hdp : t1.dirs p = true
    · rw [if_pos hdp] at hs; cases hs
    rw [if_neg hdp] at hd
    rcases hk2 : t2.mkdirAll (place cwd (Path.dir (goFileName file))).reverse with _ | t3
    · obtain ⟨a, b, e, h⟩ := (mkdirAll_spec ok2 _).1.1 hk2
      rw [List.reverse_reverse] at e
      have : t2.dirs a = true := by
        cases b with
        | nil => exact anc a last [] (by rw [hl, e]; simp)
        | cons x b => exact anc a x (b ++ [last]) (by rw [hl, e]; simp)
      rw [ok2.one _ this] at h; cases h
    have ok3 := mkdirAll_ok ok2 hk2
    obtain ⟨f3, d3⟩ := (mkdirAll_spec ok2 _).2 t3 hk2
    have hj3 : t3.lookup cwd (goFileName file) = some p :=
      look_mono (t := t1) (t' := t3) (fun q hq => (d3 q).2 (.inl (hd q hq))) _ _ _ hj
    have hdp3 : ¬ t3.dirs p = true := by
      intro h
      rw [hp] at h
      have := ok3.one _ h
      rw [f3] at this
      rw [this] at hf; cases hf
    simp only [hj3, if_neg hdp3]
  refine ⟨h2, ?_⟩
  obtain ⟨_, _, h4, _, _⟩ := C91_saved env cwd ok2 hn (isOutput_formattedData env _ data autoImport) h2
  funext q
  rw [Bool.eq_iff_iff, h4]
  constructor
  · rintro (h | ⟨n, s, h⟩)
    · exact h
    · exact anc q n s h
  · exact .inl

theorem Leaves.again {env : Env} {p : List Bytes} {l : List (SaveAt × Option Err)} {b b1 : Option Bytes} (h : Leaves env p l b b1) :
    Leaves env p l b1 b1 := by
  have : (∀ b', Leaves env p l b' b1) ∨ (b1 = b ∧ ∀ b', Leaves env p l b' b') := by
    induction h with
    | done => exact .inr ⟨rfl, fun _ => .done⟩
    | failed _ ih =>
      rcases ih with ih | ⟨e, ih⟩
      · exact .inl fun b' => .failed (ih b')
      · exact .inr ⟨e, fun b' => .failed (ih b')⟩
    | elsewhere hn hp _ ih =>
      rcases ih with ih | ⟨e, ih⟩
      · exact .inl fun b' => .elsewhere hn hp (ih b')
      · exact .inr ⟨e, fun b' => .elsewhere hn hp (ih b')⟩
    | here hn hp ho h _ => exact .inl fun b' => .here hn hp ho h
  rcases this with h | ⟨_, h⟩
  · exact h b1
  · exact h b1

theorem Tree.saves_again (env : Env) : ∀ (calls : List SaveAt) {t t2 : Tree} (_ : t.Ok) (_ : t2.Ok)
    (_ : ∀ r ∈ (t.saves env calls).2, r.2 = none) (_ : ∀ q, (t.saves env calls).1.dirs q = true → t2.dirs q = true)
    (_ : ∀ q, ((t.saves env calls).1.files q).isSome → (t2.files q).isSome),
    (t2.saves env calls).2 = (t.saves env calls).2 ∧ (t2.saves env calls).1.dirs = t2.dirs
  | [], t, t2, _, _, _, _, _ => ⟨rfl, rfl⟩
  | c :: l, t, t2, ok, ok2, hs, hd, hf => by
    obtain ⟨o1, _⟩ := save_ok env c.cwd ok c.file c.data c.autoImport
    obtain ⟨o2, g2⟩ := save_ok env c.cwd ok2 c.file c.data c.autoImport
    have hs1 : (t.save env c.cwd c.file c.data c.autoImport).2 = none := hs (c, _) (by simp only [Tree.saves]; exact List.mem_cons_self)
    have hn := isGoName_goFileName c.file
    have hfirst := (C91_saved env c.cwd ok hn (isOutput_formattedData env _ c.data c.autoImport) hs1).1
    obtain ⟨_, _, gl, ll⟩ := C92_saves env o1 l
    obtain ⟨a1, a2⟩ := save_again env c.cwd ok ok2 hs1 (fun q hq => hd q (by simp only [Tree.saves]; exact gl q hq))
      (hf _ (by simp only [Tree.saves]; exact (ll _).some (by rw [hfirst]; rfl)))
    obtain ⟨_, hfo, _⟩ := C91_saved env c.cwd ok2 hn (isOutput_formattedData env _ c.data c.autoImport) a1
    have hto := (C91_saved env c.cwd ok2 hn (isOutput_formattedData env _ c.data c.autoImport) a1).1
    obtain ⟨b1, b2⟩ := saves_again env l o1 o2 (fun r hr => hs r (by simp only [Tree.saves]; exact List.mem_cons_of_mem _ hr))
      (fun q hq => g2 q (hd q (by simpa only [Tree.saves] using hq)))
      (fun q hq => by
        by_cases e : q = place c.cwd (goFileName c.file)
        · rw [e, hto]; rfl
        · rw [hfo q e]; exact hf q (by simpa only [Tree.saves] using hq))
    refine ⟨?_, ?_⟩
    · simp only [Tree.saves, b1, a1, hs1]
    · simp only [Tree.saves]
      rw [b2, a2]

/-- **C92** When all calls of a row have returned nil, making them all once more changes nothing, and all return nil again. -/
theorem C92_again (env : Env) {t : Tree} (ok : t.Ok) (calls : List SaveAt) (hs : ∀ r ∈ (t.saves env calls).2, r.2 = none) :
    ((t.saves env calls).1.saves env calls) = t.saves env calls := by
  obtain ⟨_, ok1, _, l1⟩ := C92_saves env ok calls
  obtain ⟨a, b⟩ := saves_again env calls ok ok1 hs (fun _ h => h) (fun _ h => h)
  obtain ⟨_, _, _, l2⟩ := C92_saves env ok1 calls
  refine Prod.ext ?_ a
  have hfiles : ((t.saves env calls).1.saves env calls).1.files = (t.saves env calls).1.files := by
    funext p
    have h2 := l2 p
    rw [a] at h2
    exact C92_determined h2 (l1 p).again
  cases hx : ((t.saves env calls).1.saves env calls).1
  cases hy : (t.saves env calls).1
  rw [hy] at hx b hfiles
  rw [hx] at b hfiles
  simp only at b hfiles
  rw [b, hfiles]

/-- Without that condition it need not be so: the first call fails as long as the second has not made its directory. -/
theorem C92_again_fails :
    let calls : List SaveAt := [⟨[b!"home"], b!"x/../b", b!"package b\n", []⟩, ⟨[b!"home"], b!"x/c", b!"package c\n", []⟩]
    (smallTree.saves unixEnv calls).2.map Prod.snd = [some .create, none] ∧
      ((smallTree.saves unixEnv calls).1.saves unixEnv calls).2.map Prod.snd = [none, none] ∧
      (smallTree.saves unixEnv calls).1.read [b!"home"] b!"b.go" = none ∧
      ((smallTree.saves unixEnv calls).1.saves unixEnv calls).1.read [b!"home"] b!"b.go" = some b!"package b\n" := by
  decide +kernel

/-- The file is saved under three spellings (once in vain), another one in between. -/
theorem C92_example :
    let calls : List SaveAt := [⟨[b!"home"], b!"a", b!"package b\n", []⟩, ⟨[], b!"home/c", b!"package c\n", []⟩,
      ⟨[], b!"home/./a.go", b!"", []⟩, ⟨[], b!"/home/a.go/d", b!"package d\n", []⟩, ⟨[b!"home"], b!"../home//a", b!"package e\n", []⟩]
    smallTree.Ok ∧ (smallTree.saves unixEnv calls).2.map Prod.snd = [none, none, some .saveEmptyData, some .mkdir, none] ∧
      (smallTree.saves unixEnv calls).1.read [b!"home"] b!"a.go" = some b!"package e\n" ∧
      (smallTree.saves unixEnv calls).1.read [b!"home"] b!"c.go" = some b!"package c\n" :=
  ⟨ok_smallTree, by decide +kernel, by decide +kernel, by decide +kernel⟩

end Goast
