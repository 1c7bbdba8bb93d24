import Verif.Model.Tree
import Verif.Props.Path

/-!
# C91: saving on a file system with directories
-/

set_option linter.unusedSimpArgs false
set_option linter.unusedVariables false

namespace Goast

open PathSpec Tree

namespace Tree

theorem look_append (t : Tree) : ∀ (a : List Bytes) (s : List Bytes) (b : List Bytes), t.look s (a ++ b) = (t.look s a).bind (t.look · b)
  | [], s, b => by simp [look]
  | x :: a, s, b => by
    simp only [List.cons_append, look]
    split
    · exact look_append t a _ b
    · rfl

theorem look_walk (t : Tree) : ∀ (a : List Bytes) (s q : List Bytes), t.look s a = some q → q = a.foldl step s
  | [], s, q, h => by simpa [look] using h.symm
  | x :: a, s, q, h => by
    simp only [look] at h
    split at h
    · exact look_walk t a _ q h
    · cases h

/-- What the system finds under a name is what the name means. -/
theorem lookup_place {t : Tree} {cwd : List Bytes} {name : Bytes} {p : List Bytes} (h : t.lookup cwd name = some p) : p = place cwd name :=
  look_walk t _ _ _ h

theorem Ok.prefix {t : Tree} (ok : t.Ok) : ∀ {q p : List Bytes}, t.dirs (p ++ q) = true → t.dirs p = true
  | [], p, h => by simpa using h
  | n :: q, p, h => ok.up p n (.inl (ok.prefix (q := q) (p := p ++ [n]) (by simpa using h)))

/-- `MkdirAll` works unless there is a file on the way; then the directories are the old ones and those on the way. -/
theorem mkdirAll_spec {t : Tree} (ok : t.Ok) : ∀ (r : List Bytes),
    (t.mkdirAll r = none ↔ ∃ p q, r.reverse = p ++ q ∧ (t.files p).isSome) ∧
    ∀ t', t.mkdirAll r = some t' → t'.files = t.files ∧ ∀ q, t'.dirs q = true ↔ t.dirs q = true ∨ ∃ s, r.reverse = q ++ s
  | [] => by
    constructor
    · constructor
      · intro h; cases h
      · rintro ⟨p, q, h, hf⟩
        have : p = [] := (List.append_eq_nil_iff.1 h.symm).1
        subst this
        rw [ok.one _ ok.root] at hf; cases hf
    · intro t' h
      cases h
      refine ⟨rfl, fun q => ⟨.inl, ?_⟩⟩
      rintro (h | ⟨s, h⟩)
      · exact h
      · rw [(List.append_eq_nil_iff.1 h.symm).1]; exact ok.root
  | n :: up => by
    obtain ⟨ih1, ih2⟩ := mkdirAll_spec ok up
    simp only [mkdirAll, List.reverse_cons]
    by_cases hd : t.dirs (up.reverse ++ [n]) = true
    · rw [if_pos hd]
      refine ⟨⟨fun h => (by cases h), ?_⟩, ?_⟩
      · rintro ⟨p, q, h, hf⟩
        rw [h] at hd
        rw [ok.one _ (ok.prefix hd)] at hf; cases hf
      · intro t' h
        cases h
        refine ⟨rfl, fun q => ⟨.inl, ?_⟩⟩
        rintro (h | ⟨s, h⟩)
        · exact h
        · rw [h] at hd; exact ok.prefix hd
    rw [if_neg hd]
    by_cases hf : (t.files (up.reverse ++ [n])).isSome = true
    · rw [if_pos hf]
      exact ⟨⟨fun _ => ⟨_, [], by simp, hf⟩, fun _ => rfl⟩, fun t' h => by cases h⟩
    rw [if_neg hf]
    constructor
    · rw [Option.map_eq_none_iff, ih1]
      constructor
      · rintro ⟨p, q, h, hp⟩
        exact ⟨p, q ++ [n], by rw [h]; simp, hp⟩
      · rintro ⟨p, q, h, hp⟩
        rcases List.eq_nil_or_concat q with rfl | ⟨q, m, rfl⟩
        · rw [List.append_nil] at h; rw [h] at hf; exact absurd hp hf
        · rw [List.concat_eq_append, ← List.append_assoc] at h
          exact ⟨p, q, (List.append_inj' h rfl).1, hp⟩
    · intro t' h
      obtain ⟨t1, h1, rfl⟩ := Option.map_eq_some_iff.1 h
      obtain ⟨e1, e2⟩ := ih2 t1 h1
      refine ⟨e1, fun q => ?_⟩
      simp only [addDir, Bool.or_eq_true, decide_eq_true_eq, e2]
      constructor
      · rintro (rfl | h | ⟨s, h⟩)
        · exact .inr ⟨[], by simp⟩
        · exact .inl h
        · exact .inr ⟨s ++ [n], by rw [h]; simp⟩
      · rintro (h | ⟨s, h⟩)
        · exact .inr (.inl h)
        · rcases List.eq_nil_or_concat s with rfl | ⟨s, m, rfl⟩
          · exact .inl (by rw [List.append_nil] at h; exact h.symm)
          · rw [List.concat_eq_append, ← List.append_assoc] at h
            exact .inr (.inr ⟨s, (List.append_inj' h rfl).1⟩)

end Tree

/-- The place of a file to be written is a name in the directory that is made. -/
theorem place_name {file name : Bytes} (hn : IsGoName file name) (cwd : List Bytes) :
    ∃ last, place cwd name = place cwd (Path.dir name) ++ [last] := by
  have ht : ∃ t, name = t ++ b!".go" := by
    rcases hn with ⟨a, rfl⟩ | ⟨a, rfl⟩
    · exact a
    · exact ⟨_, rfl⟩
  obtain ⟨t, rfl⟩ := ht
  exact ⟨_, by rw [place_go, dir_append t _ go_noslash]⟩

/-- **C91** When `Save` returns nil the place that the path names holds the formatted text; every other file is as it was; the directories
are the old ones and those on the way to that place. -/
theorem C91_saved (env : Env) (cwd : List Bytes) {t : Tree} (ok : t.Ok) {file name data out : Bytes} {autoImport : List Bool}
    (hn : IsGoName file name) (ho : IsOutput env name data autoImport out) (hs : (t.save env cwd file data autoImport).2 = none) :
    let after := (t.save env cwd file data autoImport).1
    after.files (place cwd name) = some out ∧ (∀ p, p ≠ place cwd name → after.files p = t.files p) ∧
      (∀ q, after.dirs q = true ↔ t.dirs q = true ∨ ∃ n s, place cwd name = q ++ n :: s) ∧ after.Ok ∧ after.read cwd name = some out := by
  have e := goName_unique hn
  have eo : formattedData env name data autoImport = out := by
    have h2 := isOutput_formattedData env name data autoImport
    unfold IsOutput at ho h2
    split at ho
    · rename_i hh; rw [if_pos hh] at h2; grind
    · rename_i hh; rw [if_neg hh] at h2; grind
  obtain ⟨last, hl⟩ := place_name hn cwd
  unfold Tree.save at hs ⊢
  simp only [e, eo] at hs ⊢
  split at hs
  · cases hs
  rename_i h0
  rw [if_neg h0]
  cases hm : t.mkdirAll (place cwd (Path.dir name)).reverse with
  | none => rw [hm] at hs; cases hs
  | some t1 =>
    rw [hm] at hs
    simp only at hs ⊢
    obtain ⟨f1, d1⟩ := (mkdirAll_spec ok _).2 t1 hm
    rw [List.reverse_reverse] at d1
    cases hk : t1.lookup cwd name with
    | none => rw [hk] at hs; cases hs
    | some p =>
      rw [hk] at hs
      have hp := lookup_place hk
      simp only at hs ⊢
      by_cases hd : t1.dirs p = true
      · rw [if_pos hd] at hs; cases hs
      rw [if_neg hd]
      subst hp
      have hd2 : ∀ q, t1.dirs q = true ↔ t.dirs q = true ∨ ∃ n s, place cwd name = q ++ n :: s := by
        intro q
        rw [d1, hl]
        constructor
        · rintro (h | ⟨s, h⟩)
          · exact .inl h
          · right
            rw [h]
            cases s with
            | nil => exact ⟨last, [], by simp⟩
            | cons x s => exact ⟨x, s ++ [last], by simp⟩
        · rintro (h | ⟨n, s, h⟩)
          · exact .inl h
          · right
            rcases List.eq_nil_or_concat s with rfl | ⟨s, m, rfl⟩
            · exact ⟨[], by rw [List.append_nil]; exact (List.append_inj' h rfl).1⟩
            · rw [List.concat_eq_append, ← List.cons_append, ← List.append_assoc] at h
              exact ⟨n :: s, (List.append_inj' h rfl).1⟩
      have ok1 : (t1.put (place cwd name) out).Ok := by
        refine ⟨(hd2 []).2 (.inl ok.root), ?_, ?_⟩
        · intro p n h
          show t1.dirs p = true
          rw [hd2]
          rcases h with h | h
          · rcases (hd2 _).1 h with h | ⟨m, s, h⟩
            · exact .inl (ok.up p n (.inl h))
            · exact .inr ⟨n, m :: s, by rw [h]; simp⟩
          · simp only [put] at h
            split at h
            · rename_i e; exact .inr ⟨n, [], e.symm⟩
            · rw [f1] at h; exact .inl (ok.up p n (.inr h))
        · intro p h
          have h : t1.dirs p = true := h
          have hne : p ≠ place cwd name := by rintro rfl; exact hd h
          show (if p = place cwd name then some out else t1.files p) = none
          rw [if_neg hne, f1]
          rcases (hd2 p).1 h with h | ⟨n, s, h⟩
          · exact ok.one p h
          · cases hf : t.files p with
            | none => rfl
            | some b =>
              have hnone : t.mkdirAll (place cwd (Path.dir name)).reverse = none := by
                refine (mkdirAll_spec ok _).1.2 ?_
                rw [List.reverse_reverse]
                rcases (d1 p).1 ‹_› with h' | ⟨s', h'⟩
                · rw [ok.one _ h'] at hf; cases hf
                · exact ⟨p, s', h', by simp [hf]⟩
              rw [hnone] at hm; cases hm
      refine ⟨by simp [put], fun p hp => by simp [put, hp, f1], hd2, ok1, ?_⟩
      show ((t1.put (place cwd name) out).lookup cwd name).bind _ = _
      have : (t1.put (place cwd name) out).lookup cwd name = t1.lookup cwd name := by
        have : ∀ (ps s : List Bytes), (t1.put (place cwd name) out).look s ps = t1.look s ps := by
          intro ps
          induction ps with
          | nil => intro s; rfl
          | cons x ps ih =>
            intro s
            simp only [look]
            rw [ih]; rfl
        exact this _ _
      rw [this, hk]
      simp [put]

/-- **C91** When `Save` fails no file has changed, and if it failed before it came to the file no directory has been made.  It fails while
making directories exactly when there is a file where a directory is needed, and it never fails while writing. -/
theorem C91_failed (env : Env) (cwd : List Bytes) {t : Tree} (ok : t.Ok) {file name data : Bytes} {autoImport : List Bool} (hn : IsGoName file name) :
    let r := t.save env cwd file data autoImport
    (r.2 = some .saveEmptyData ↔ data = []) ∧
    (r.2 = some .mkdir ↔ data ≠ [] ∧ ∃ p n s, place cwd name = p ++ n :: s ∧ (t.files p).isSome) ∧
    (r.2 ≠ none → r.1.files = t.files) ∧ (r.2 = some .saveEmptyData ∨ r.2 = some .mkdir → r.1 = t) ∧
    (r.2 = none ∨ r.2 = some .saveEmptyData ∨ r.2 = some .mkdir ∨ r.2 = some .create) := by
  have e := goName_unique hn
  obtain ⟨last, hl⟩ := place_name hn cwd
  have hex : (∃ p q, place cwd (Path.dir name) = p ++ q ∧ (t.files p).isSome) ↔ ∃ p n s, place cwd name = p ++ n :: s ∧ (t.files p).isSome := by
    rw [hl]
    constructor
    · rintro ⟨p, q, h, hf⟩
      cases q with
      | nil => exact ⟨p, last, [], by rw [h]; simp, hf⟩
      | cons x q => exact ⟨p, x, q ++ [last], by rw [h]; simp, hf⟩
    · rintro ⟨p, n, s, h, hf⟩
      rcases List.eq_nil_or_concat s with rfl | ⟨s, m, rfl⟩
      · exact ⟨p, [], by rw [List.append_nil]; exact (List.append_inj' h rfl).1, hf⟩
      · rw [List.concat_eq_append, ← List.cons_append, ← List.append_assoc] at h
        exact ⟨p, n :: s, (List.append_inj' h rfl).1, hf⟩
  have hm := (mkdirAll_spec ok (place cwd (Path.dir name)).reverse)
  rw [List.reverse_reverse, hex] at hm
  rw [← hm.1]
  unfold Tree.save
  simp only [e]
  by_cases h0 : data.length = 0
  · have : data = [] := List.eq_nil_of_length_eq_zero h0
    simp [this]
  have hd0 : data ≠ [] := fun e => h0 (by simp [e])
  rw [if_neg h0]
  cases hk : t.mkdirAll (place cwd (Path.dir name)).reverse with
  | none => simp [hd0]
  | some t1 =>
    have hf := (hm.2 t1 hk).1
    cases hj : t1.lookup cwd name with
    | none => simp [hd0, hf, hj]
    | some p =>
      by_cases hd : t1.dirs p = true <;> simp [hd0, hf, hj, hd]

namespace Tree

/-- What is needed of the directories to walk over them. -/
structure DirsOk (t : Tree) : Prop where
  root : t.dirs [] = true
  up : ∀ p n, t.dirs (p ++ [n]) = true → t.dirs p = true

theorem DirsOk.prefix {t : Tree} (ok : t.DirsOk) : ∀ {q p : List Bytes}, t.dirs (p ++ q) = true → t.dirs p = true
  | [], p, h => by simpa using h
  | n :: q, p, h => ok.up p n (ok.prefix (q := q) (p := p ++ [n]) (by simpa using h))

theorem look_sep {t : Tree} {s q : List Bytes} {o n : Bytes} (h : t.look s (parts o) = some q) (hd : t.dirs q = true) (hn : (47 : UInt8) ∉ n) :
    t.look s (parts (o ++ sep o ++ n)) = some (step q n) := by
  unfold sep
  split
  · rename_i ho
    have hs : s = q ∧ t.dirs s = true := by
      rcases ho with rfl | rfl
      · have := look_walk t _ _ _ h
        simp [parts, step] at this
        exact ⟨this.symm, this ▸ hd⟩
      · have := look_walk t _ _ _ h
        simp [parts, step] at this
        exact ⟨this.symm, this ▸ hd⟩
    obtain ⟨rfl, hd⟩ := hs
    rcases ho with rfl | rfl
    · simp [parts_plain n hn, look, hd]
    · have : parts ([47] ++ [] ++ n) = [[], n] := by simpa [parts_plain n hn, parts] using parts_append [] n
      rw [this]
      simp [look, hd, step]
  · have : parts (o ++ [47] ++ n) = parts o ++ [n] := by
      have := parts_append o n
      rw [parts_plain n hn] at this
      simpa using this
    rw [this, look_append, h]
    simp [look, hd]

theorem look_out {t : Tree} (ok : t.DirsOk) {s q : List Bytes} {B o : Bytes} {ns : List Bytes} (ho : Out B o ns)
    (hB : t.look s (parts B) = some q) (hd : t.dirs (q ++ ns.reverse) = true) : t.look s (parts o) = some (q ++ ns.reverse) := by
  induction ho with
  | nil => simpa using hB
  | @snoc o ns n ho hn ih =>
    rw [List.reverse_cons, ← List.append_assoc] at hd ⊢
    have h1 := ok.up _ _ hd
    rw [look_sep (ih h1) h1 hn.2.1]
    simp [step, hn.1, hn.2.2.1, hn.2.2.2]

theorem dirs_dropLast {t : Tree} (ok : t.DirsOk) {q : List Bytes} (h : t.dirs q = true) : t.dirs q.dropLast = true := by
  rcases List.eq_nil_or_concat q with rfl | ⟨p, n, rfl⟩
  · exact h
  · rw [List.concat_eq_append] at h ⊢
    rw [List.dropLast_concat]
    exact ok.up _ _ h

theorem look_ups {t : Tree} (ok : t.DirsOk) {s : List Bytes} (hs : t.dirs s = true) :
    ∀ k, ∃ q, t.look s (parts (ups k)) = some q ∧ t.dirs q = true
  | 0 => ⟨s, by simp [ups, parts, look, hs, step], hs⟩
  | k + 1 => by
    obtain ⟨q, h, hd⟩ := look_ups ok hs k
    refine ⟨q.dropLast, ?_, dirs_dropLast ok hd⟩
    simp only [ups]
    rw [look_sep h hd (by decide)]
    simp [step]

/-- A name in a directory whose path is spelled as `filepath.Clean` spells it is found. -/
theorem lookup_clean {t : Tree} (ok : t.DirsOk) {cwd : List Bytes} (hc : t.dirs cwd = true) (d n : Bytes) (hn : (47 : UInt8) ∉ n)
    (hd : t.dirs (place cwd d) = true) : t.lookup cwd (Path.clean d ++ b!"/" ++ n) = some (step (place cwd d) n) := by
  have key : ∃ q, t.look (if (Path.clean d).head? = some 47 then [] else cwd) (parts (Path.clean d)) = some q := by
    rw [← place_clean] at hd
    obtain ⟨out, e, h⟩ := clean_form d
    rw [e] at hd ⊢
    rcases h with ⟨ns, h⟩ | ⟨k, ns, h⟩
    · rw [place_rooted h] at hd
      have hh := h.head' rfl
      have hne : out ≠ [] := by rintro rfl; simp at hh
      rw [if_neg hne, hh, if_pos rfl]
      exact ⟨_, look_out (q := []) ok h (by simp [parts, look, step, ok.root]) (by simpa using hd)⟩
    · have hh := h.head (ups_head k)
      obtain ⟨q, hq, hqd⟩ := look_ups ok hc k
      split
      · exact ⟨cwd, by simp [parts, look, step, hc]⟩
      · rename_i hne
        rw [if_neg hne] at hd
        rw [place_eq, if_neg hh, h.walk, show PathSpec.walk cwd (ups k) = q from (look_walk t _ _ _ hq).symm] at hd
        exact ⟨_, look_out ok h hq hd⟩
  obtain ⟨q, hq⟩ := key
  have eq : q = place cwd d := by
    rw [look_walk t _ _ _ hq, ← place_clean]
    rfl
  subst eq
  have hhead : (Path.clean d ++ b!"/" ++ n : Bytes).head? = (Path.clean d).head? := by
    have := clean_ne d
    cases h : Path.clean d with
    | nil => exact absurd h this
    | cons c r => rfl
  have hparts : parts (Path.clean d ++ b!"/" ++ n) = parts (Path.clean d) ++ [n] := by
    have := parts_append (Path.clean d) n
    rw [parts_plain n hn] at this
    simpa using this
  unfold lookup
  rw [hhead, hparts, look_append, hq]
  simp [look, hd]

end Tree

theorem place_dir_join (cwd : List Bytes) (d n : Bytes) (hn : (47 : UInt8) ∉ n) : place cwd (Path.dir (Path.clean d ++ b!"/" ++ n)) = place cwd d := by
  have h2 := place_cut cwd (Path.clean d ++ b!"/")
  have : Path.lastPart (Path.clean d ++ b!"/") = [] := (lastPart_empty _).2 (.inr (by simp))
  rw [this, walk_nil] at h2
  rw [dir_append _ _ hn, ← h2]
  have h3 := place_join cwd (Path.clean d) [] (clean_ne _)
  rw [List.append_nil, walk_nil] at h3
  rw [h3, place_clean]

/-- **C91** Saving under a directory as `Dir()` spells it and a name: it works exactly when there is something to save, no file lies where a
directory is needed, and no directory where the file is to be. -/
theorem C91_works (env : Env) (cwd : List Bytes) {t : Tree} (ok : t.Ok) (hc : t.dirs cwd = true) (d n : Bytes) (hslash : (47 : UInt8) ∉ n)
    {name data : Bytes} {autoImport : List Bool} (hn : IsGoName (Path.clean d ++ b!"/" ++ n) name) :
    (t.save env cwd (Path.clean d ++ b!"/" ++ n) data autoImport).2 = none ↔
      data ≠ [] ∧ (¬ ∃ p m s, place cwd name = p ++ m :: s ∧ (t.files p).isSome) ∧ t.dirs (place cwd name) = false := by
  have hf := C91_failed env cwd ok (data := data) (autoImport := autoImport) hn
  have e := goName_unique hn
  obtain ⟨m, hm, hms⟩ : ∃ m, name = Path.clean d ++ b!"/" ++ m ∧ (47 : UInt8) ∉ m := by
    rcases hn with ⟨_, rfl⟩ | ⟨_, rfl⟩
    · exact ⟨n, rfl, hslash⟩
    · refine ⟨n ++ b!".go", by simp, fun h => ?_⟩
      rcases List.mem_append.1 h with h | h
      · exact hslash h
      · exact go_noslash h
  obtain ⟨last, hl⟩ := place_name hn cwd
  by_cases h0 : data = []
  · simp [h0, Tree.save]
  by_cases hex : ∃ p m s, place cwd name = p ++ m :: s ∧ (t.files p).isSome
  · have := hf.2.1.2 ⟨h0, hex⟩
    rw [this]
    exact ⟨fun h => (by cases h), fun h => absurd hex h.2.1⟩
  have hlen : data.length ≠ 0 := fun e => h0 (List.eq_nil_of_length_eq_zero e)
  have hmk : ∃ t1, t.mkdirAll (place cwd (Path.dir name)).reverse = some t1 := by
    cases hk : t.mkdirAll (place cwd (Path.dir name)).reverse with
    | some t1 => exact ⟨t1, rfl⟩
    | none =>
      refine absurd (hf.2.1.1 ?_).2 hex
      simp only [Tree.save, if_neg hlen, e, hk]
  obtain ⟨t1, hk⟩ := hmk
  obtain ⟨f1, d1⟩ := (mkdirAll_spec ok _).2 t1 hk
  rw [List.reverse_reverse] at d1
  have hdir : place cwd (Path.dir name) = place cwd d := by rw [hm]; exact place_dir_join cwd d m hms
  have ok1 : t1.DirsOk := by
    refine ⟨(d1 []).2 (.inl ok.root), fun p x h => (d1 p).2 ?_⟩
    rcases (d1 _).1 h with h | ⟨s, h⟩
    · exact .inl (ok.up p x (.inl h))
    · exact .inr ⟨x :: s, by rw [h]; simp⟩
  have hlk : t1.lookup cwd name = some (place cwd name) := by
    have := lookup_clean ok1 ((d1 cwd).2 (.inl hc)) d m hms (by rw [← hdir]; exact (d1 _).2 (.inr ⟨[], by simp⟩))
    rw [← hm] at this
    rw [this, ← lookup_place this]
  have hdp : t1.dirs (place cwd name) = t.dirs (place cwd name) := by
    rw [Bool.eq_iff_iff, d1]
    constructor
    · rintro (h | ⟨s, h⟩)
      · exact h
      · rw [hl] at h
        have := congrArg List.length h
        simp at this
    · exact .inl
  simp only [Tree.save, if_neg hlen, e, hk, hlk, hdp]
  cases t.dirs (place cwd name) with
  | false => exact ⟨fun _ => ⟨h0, hex, rfl⟩, fun _ => rfl⟩
  | true => exact ⟨fun h => (by cases h), fun h => (by cases h.2.2)⟩

/-- **C91** An Ast parsed from a file can be saved back under `Dir()` and `Filename()`: it works, no directory is made, and the file that was
read is the one that is replaced. -/
theorem C91_back {env : Env} (ux : Path.OnUnix env) {spare : Nat} {fs : FS} {st st' : AState} {file : Bytes} {f : AstRec}
    (hp : parseAst env spare fs st file = some (.ok (st', f))) (h0 : file ≠ []) (h1 : file.getLast? ≠ some 47)
    (cwd : List Bytes) {t : Tree} (ok : t.Ok) (hc : t.dirs cwd = true) {read buf data : Bytes} {autoImport : List Bool}
    (hr : IsGoName file read) (hb : t.read cwd read = some buf) (hd : data ≠ []) :
    let r := t.save env cwd (f.dir ++ b!"/" ++ f.name) data autoImport
    r.2 = none ∧ r.1.dirs = t.dirs ∧ (∀ p, p ≠ place cwd read → r.1.files p = t.files p) ∧
      ∀ written out, IsGoName (f.dir ++ b!"/" ++ f.name) written → IsOutput env written data autoImport out → r.1.read cwd read = some out := by
  obtain ⟨e1, e2, e3, _⟩ := parseAst_fields hp
  have hl : Path.lastPart file ≠ [] := fun e => by
    rcases (lastPart_empty file).1 e with e | e
    · exact h0 e
    · exact h1 e
  rw [ux.1] at e2
  rw [ux.2.1, base_eq _ hl] at e3
  obtain ⟨dd, _, _, hdd⟩ := cut file
  rw [hdd] at e2
  obtain ⟨p, hlk, hfp⟩ := Option.bind_eq_some_iff.1 hb
  have hpl := lookup_place hlk
  subst hpl
  obtain ⟨last, hlast⟩ := place_name hr cwd
  have hw := isGoName_goFileName (f.dir ++ b!"/" ++ f.name)
  generalize goFileName (f.dir ++ b!"/" ++ f.name) = w at hw
  have hsame := C89_save_back ux hp h0 h1 hr hw cwd
  have hdirs : t.dirs (place cwd (Path.dir read)) = true := ok.up _ last (.inr (by rw [← hlast, hfp]; rfl))
  have pre : ∀ q n s, place cwd read = q ++ n :: s → t.dirs q = true := by
    intro q n s h
    rw [hlast] at h
    rcases List.eq_nil_or_concat s with rfl | ⟨s, m, rfl⟩
    · rw [← (List.append_inj' h rfl).1]; exact hdirs
    · rw [List.concat_eq_append, ← List.cons_append, ← List.append_assoc] at h
      rw [(List.append_inj' h rfl).1] at hdirs
      exact ok.prefix hdirs
  have hnodir : t.dirs (place cwd read) = false := by
    cases hx : t.dirs (place cwd read) with
    | false => rfl
    | true => rw [ok.one _ hx] at hfp; cases hfp
  have hs : (t.save env cwd (f.dir ++ b!"/" ++ f.name) data autoImport).2 = none := by
    rw [e2] at hw ⊢
    refine (C91_works env cwd ok hc dd f.name (e3 ▸ lastPart_noslash file) hw).2 ⟨hd, ?_, by rw [hsame]; exact hnodir⟩
    rintro ⟨p, m, s, h, hf⟩
    rw [hsame] at h
    rw [ok.one _ (pre p m s h)] at hf
    cases hf
  have ho := isOutput_formattedData env w data autoImport
  obtain ⟨a, b, c, _, _⟩ := C91_saved env cwd ok hw ho hs
  rw [hsame] at a b c
  have hdeq : (t.save env cwd (f.dir ++ b!"/" ++ f.name) data autoImport).1.dirs = t.dirs := by
    funext q
    rw [Bool.eq_iff_iff, c]
    constructor
    · rintro (h | ⟨n, s, h⟩)
      · exact h
      · exact pre q n s h
    · exact .inl
  refine ⟨hs, hdeq, b, ?_⟩
  intro written out hw' ho'
  have : written = w := by rw [← goName_unique hw', ← goName_unique hw]
  subst this
  have a' := (C91_saved env cwd ok hw' ho' hs).1
  rw [hsame] at a'
  show (Tree.lookup _ cwd read).bind _ = _
  have : ∀ (ps s : List Bytes), (t.save env cwd (f.dir ++ b!"/" ++ f.name) data autoImport).1.look s ps = t.look s ps := by
    intro ps
    induction ps with
    | nil => intro s; rfl
    | cons x ps ih =>
      intro s
      simp only [look]
      rw [ih, hdeq]
  rw [show Tree.lookup _ cwd read = t.lookup cwd read from this _ _, hlk]
  exact a'

/-- How the operating system answers on a file system with directories. -/
def Tree.env (env : Env) (cwd : List Bytes) (t : Tree) : Env :=
  { formatSource := env.formatSource
    importsProcess := env.importsProcess
    openDenied := fun name => t.stuck (if name.head? = some 47 then [] else cwd) (parts name)
    readFails := fun _ => false
    mkdirOk := fun d => (t.mkdirAll (place cwd d).reverse).isSome
    createOk := fun name => match t.mkdirAll (place cwd (Path.dir name)).reverse with
      | none => false
      | some t1 => match t1.lookup cwd name with
        | none => false
        | some p => !t1.dirs p
    writeFailsAfter := fun _ _ => none
    dir := Path.dir
    base := Path.base
    ext := Path.ext }

/-- **C91** This file system is one of the environments that all other theorems quantify over: `SaveFile` there and here give the same error, and
the same contents under the name that is written. -/
theorem C91_as_env (env : Env) (cwd : List Bytes) {t : Tree} (ok : t.Ok) {file name data : Bytes} {autoImport : List Bool} (hn : IsGoName file name) :
    let r := t.save env cwd file data autoImport
    let q := saveFile (t.env env cwd) (t.read cwd) file data autoImport
    Path.OnUnix (t.env env cwd) ∧ r.2 = q.2 ∧ (r.2 = none → r.1.read cwd name = q.1 name) ∧ (r.2 ≠ none → q.1 = t.read cwd ∧ r.1.files = t.files) := by
  have hf := C91_failed env cwd ok (data := data) (autoImport := autoImport) hn
  have e := goName_unique hn
  have h2 : (t.save env cwd file data autoImport).2 = (saveFile (t.env env cwd) (t.read cwd) file data autoImport).2 ∧
      ((t.save env cwd file data autoImport).2 ≠ none → (saveFile (t.env env cwd) (t.read cwd) file data autoImport).1 = t.read cwd) ∧
      ((t.save env cwd file data autoImport).2 = none → (saveFile (t.env env cwd) (t.read cwd) file data autoImport).1 name = some (formattedData env name data autoImport)) := by
    have hfd : formattedData (t.env env cwd) name data autoImport = formattedData env name data autoImport := rfl
    have hdir : (t.env env cwd).dir name = Path.dir name := rfl
    have hw : ∀ o, (t.env env cwd).writeFailsAfter name o = none := fun _ => rfl
    have hm : (t.env env cwd).mkdirOk (Path.dir name) = (t.mkdirAll (place cwd (Path.dir name)).reverse).isSome := rfl
    by_cases h0 : data.length = 0
    · simp only [Tree.save, saveFile, if_pos h0]
      simp
    rcases hk : t.mkdirAll (place cwd (Path.dir name)).reverse with _ | t1
    · rw [hk] at hm
      simp only [Tree.save, saveFile, e, if_neg h0, hfd, hdir, hm, hk]
      simp
    rw [hk] at hm
    rcases hj : t1.lookup cwd name with _ | p
    · have hc : (t.env env cwd).createOk name = false := by simp only [Tree.env, hk, hj]
      simp only [Tree.save, saveFile, e, if_neg h0, hfd, hdir, hm, hk, hj, hc]
      simp
    by_cases hd : t1.dirs p = true
    · have hc : (t.env env cwd).createOk name = false := by simp only [Tree.env, hk, hj, hd]; rfl
      simp only [Tree.save, saveFile, e, if_neg h0, hfd, hdir, hm, hk, hj, hc, if_pos hd]
      simp
    · have hc : (t.env env cwd).createOk name = true := by simp only [Tree.env, hk, hj, hd]; rfl
      simp only [Tree.save, saveFile, e, if_neg h0, hfd, hdir, hm, hk, hj, hc, if_neg hd, hw]
      simp [FS.put]
  refine ⟨⟨rfl, rfl, rfl⟩, h2.1, fun h => ?_, fun h => ⟨h2.2.1 h, hf.2.2.1 h⟩⟩
  have := (C91_saved env cwd ok hn (isOutput_formattedData env name data autoImport) h).2.2.2.2
  rw [this]
  exact (h2.2.2 h).symm

/-- A file system with the directories `/` and `/home`, and the file `/home/a.go`. -/
def smallTree : Tree where
  dirs p := p = [] || p = [b!"home"]
  files p := if p = [b!"home", b!"a.go"] then some b!"package a\n" else none

theorem ok_smallTree : smallTree.Ok := by
  refine ⟨rfl, ?_, ?_⟩
  · intro p n h
    simp only [smallTree, Bool.or_eq_true, decide_eq_true_eq] at h ⊢
    rcases h with (h | h) | h
    · simp at h
    · left; simpa using congrArg List.dropLast h
    · split at h
      · rename_i e
        right; simpa using congrArg List.dropLast e
      · cases h
  · intro p h
    simp only [smallTree, Bool.or_eq_true, decide_eq_true_eq] at h ⊢
    rcases h with rfl | rfl <;> rfl

/-- The hypotheses are met: two directories are made, the file is found under another spelling; below a file nothing can be saved. -/
theorem C91_example :
    (let r := smallTree.save unixEnv [b!"home"] b!"x/y/b" b!"package b\n" []
     r.2 = none ∧ r.1.dirs [b!"home", b!"x", b!"y"] = true ∧ r.1.read [] b!"/home/x/../x//y/b.go" = some b!"package b\n" ∧
       r.1.read [b!"home"] b!"a.go" = some b!"package a\n") ∧
    (smallTree.save unixEnv [b!"home"] b!"a.go/b.go" b!"package b\n" []).2 = some .mkdir ∧
    (smallTree.save unixEnv [] b!"./home/a" b!"package b\n" []).2 = none ∧
    smallTree.read [b!"home"] b!"./a.go" = some b!"package a\n" := by decide +kernel

/-- The directory that is made is that of the cleaned path: a detour through a directory that does not exist makes `Save` fail, though the
place it names could be written. -/
theorem C91_detour :
    (smallTree.save unixEnv [b!"home"] b!"x/../b.go" b!"package b\n" []).2 = some .create ∧
    (smallTree.save unixEnv [b!"home"] b!"b.go" b!"package b\n" []).2 = none ∧
    place [b!"home"] b!"x/../b.go" = place [b!"home"] b!"b.go" := by decide +kernel

end Goast
