import Verif.Props.Save
import Verif.Spec.Crash

/-!
# C75: `Save` killed at any moment, and run again
-/

set_option linter.unusedSimpArgs false
set_option linter.unusedVariables false

namespace Goast

theorem goName_eq {file name : Bytes} (hn : IsGoName file name) : goFileName file = name := by
  have h2 := isGoName_goFileName file
  rcases hn with ⟨a, b⟩ | ⟨a, b⟩ <;> rcases h2 with ⟨c, d⟩ | ⟨c, d⟩
  · rw [d, b]
  · exact absurd a c
  · exact absurd c a
  · rw [d, b]

theorem output_eq {env : Env} {name data out : Bytes} {auto : List Bool} (ho : IsOutput env name data auto out) : formattedData env name data auto = out := by
  have h2 := isOutput_formattedData env name data auto
  unfold IsOutput at ho h2
  split at ho
  · rename_i hh; rw [if_pos hh] at h2; grind
  · rename_i hh; rw [if_neg hh] at h2; grind

theorem writeAt_end (c chunk : Bytes) : writeAt c c.length chunk = c ++ chunk := by
  simp [writeAt]

theorem run_append (fs : FS) (a b : List Effect) : runEffects fs (a ++ b) = runEffects (runEffects fs a) b := by simp [runEffects]

/-- Writing piece by piece behind what is there. -/
theorem run_writes (name : Bytes) : ∀ (cs : List Bytes) (n : Nat) (fs : FS) (c : Bytes), fs name = some c →
    ∃ p, p <+: cs.flatten ∧ (∀ f, runEffects fs ((writeEffects name c.length cs).take n) f = if f = name then some (c ++ p) else fs f) ∧
      (cs.length ≤ n → p = cs.flatten)
  | [], n, fs, c, h => by
    refine ⟨[], by simp, fun f => ?_, by simp⟩
    by_cases hf : f = name <;> simp [writeEffects, runEffects, hf, h]
  | d :: cs, 0, fs, c, h => by
    refine ⟨[], by simp, fun f => ?_, by simp⟩
    by_cases hf : f = name <;> simp [runEffects, hf, h]
  | d :: cs, n + 1, fs, c, h => by
    have h1 : (fs.put name (c ++ d)) name = some (c ++ d) := by simp [FS.put]
    obtain ⟨p, hp, hr, hl⟩ := run_writes name cs n (fs.put name (c ++ d)) (c ++ d) h1
    refine ⟨d ++ p, by simpa using (List.prefix_append_right_inj d).2 hp, fun f => ?_, fun hn => by simp [hl (by simpa using hn)]⟩
    have : runEffects fs ((writeEffects name c.length (d :: cs)).take (n + 1)) =
        runEffects (fs.put name (c ++ d)) ((writeEffects name (c ++ d).length cs).take n) := by
      simp [writeEffects, runEffects, Effect.apply, h, writeAt_end]
    rw [this, hr]
    by_cases hf : f = name <;> simp [hf, FS.put]

/-- The files after `n` changes of a call: nothing changed, or the named file holds a beginning of what it is to hold. -/
theorem run_save (env : Env) {split : Bytes → List Bytes} (hs : ∀ b, (split b).flatten = b) (fs : FS) (file data : Bytes) (auto : List Bool) (n : Nat) :
    ∃ c : Option Bytes, (∀ p, c = some p → p <+: formattedData env (goFileName file) data auto) ∧
      (∀ f, runEffects fs ((saveEffects env split file data auto).take n) f = if f = goFileName file then c.or (fs f) else fs f) ∧
      ((saveEffects env split file data auto).length ≤ n → runEffects fs ((saveEffects env split file data auto).take n) = (saveFile env fs file data auto).1) := by
  have nothing : ∀ es : List Effect, (∀ e ∈ es, ∃ d, e = .mkdir d) → runEffects fs (es.take n) = fs := by
    intro es he
    have : ∀ l : List Effect, (∀ e ∈ l, ∃ d, e = .mkdir d) → runEffects fs l = fs := by
      intro l
      induction l with
      | nil => intro _; rfl
      | cons e l ih =>
        intro h
        obtain ⟨d, rfl⟩ := h e (by simp)
        exact ih fun x hx => h x (by simp [hx])
    exact this _ fun e h => he e (List.mem_of_mem_take h)
  by_cases h0 : data.length = 0
  · have e : saveEffects env split file data auto = [] := by simp [saveEffects, h0]
    refine ⟨none, by simp, fun f => by simp [e, runEffects], fun _ => ?_⟩
    simp [e, runEffects, saveFile, h0]
  cases h1 : env.mkdirOk (env.dir (goFileName file)) with
  | false =>
    have e : saveEffects env split file data auto = [] := by simp [saveEffects, h0, h1]
    refine ⟨none, by simp, fun f => by simp [e, runEffects], fun _ => ?_⟩
    simp [e, runEffects, saveFile, h0, h1]
  | true =>
    cases h2 : env.createOk (goFileName file) with
    | false =>
      have e : saveEffects env split file data auto = [.mkdir (env.dir (goFileName file))] := by simp [saveEffects, h0, h1, h2]
      refine ⟨none, by simp, fun f => ?_, fun _ => ?_⟩
      · rw [e, nothing _ (by simp)]; simp
      · rw [e, nothing _ (by simp)]; simp [saveFile, h0, h1, h2]
    | true =>
      let goal := match env.writeFailsAfter (goFileName file) (formattedData env (goFileName file) data auto) with
        | some k => (formattedData env (goFileName file) data auto).take k
        | none => formattedData env (goFileName file) data auto
      have hg : goal <+: formattedData env (goFileName file) data auto := by
        simp only [goal]
        split
        · exact List.take_prefix _ _
        · exact List.prefix_refl _
      have e : saveEffects env split file data auto = .mkdir (env.dir (goFileName file)) :: .create (goFileName file) ::
          writeEffects (goFileName file) 0 (split goal) := by
        simp only [saveEffects, h0, h1, h2, goal, if_false, Bool.not_true, Bool.false_eq_true]
        rfl
      have es : (saveFile env fs file data auto).1 = fs.put (goFileName file) goal := by
        simp only [saveFile, h0, h1, h2, if_false, Bool.not_true, Bool.false_eq_true, goal]
        cases env.writeFailsAfter (goFileName file) (formattedData env (goFileName file) data auto) <;>
          (funext f; by_cases hf : f = goFileName file <;> simp [FS.put, hf])
      have wl : ∀ (l : List Bytes) (o : Nat), (writeEffects (goFileName file) o l).length = l.length := by
        intro l
        induction l with
        | nil => intro _; rfl
        | cons a l ih => intro o; simp [writeEffects, ih]
      rcases n with _ | _ | n
      · refine ⟨none, by simp, fun f => by simp [runEffects], ?_⟩
        rw [e]; simp
      · refine ⟨none, by simp, fun f => by simp [e, runEffects, Effect.apply], ?_⟩
        rw [e]; simp
      · obtain ⟨p, hp, hr, hl⟩ := run_writes (goFileName file) (split goal) n (fs.put (goFileName file) []) [] (by simp [FS.put])
        rw [hs] at hp hl
        have er : runEffects fs ((saveEffects env split file data auto).take (n + 2)) =
            runEffects (fs.put (goFileName file) []) ((writeEffects (goFileName file) ([] : Bytes).length (split goal)).take n) := by
          rw [e]; simp [runEffects, Effect.apply]
        refine ⟨some p, by rintro q ⟨⟩; exact hp.trans hg, fun f => ?_, fun hn => ?_⟩
        · rw [er, hr]
          by_cases hf : f = goFileName file <;> simp [hf, FS.put]
        · rw [e, List.length_cons, List.length_cons, wl] at hn
          have := hl (by omega)
          rw [er, es]
          funext f
          rw [hr, this]
          by_cases hf : f = goFileName file <;> simp [hf, FS.put]

/-- **C75** Left alone, the changes on disk are those of `SaveFile`, in whatever pieces the bytes are taken. -/
theorem C75_complete (env : Env) {split : Bytes → List Bytes} (hs : ∀ b, (split b).flatten = b) (fs : FS) (file data : Bytes) (auto : List Bool) :
    runEffects fs (saveEffects env split file data auto) = (saveFile env fs file data auto).1 := by
  obtain ⟨_, _, _, h⟩ := run_save env hs fs file data auto (saveEffects env split file data auto).length
  simpa using h (Nat.le_refl _)

/-- **C75** A process killed at any moment while it saves: every other file is as it was, and the file itself is as it was or holds a
beginning (perhaps nothing, perhaps all) of the new content. -/
theorem C75_killed (env : Env) {split : Bytes → List Bytes} (hs : ∀ b, (split b).flatten = b) (fs : FS) {file data name out : Bytes} {auto : List Bool}
    (hn : IsGoName file name) (ho : IsOutput env name data auto out) (n : Nat) :
    (∀ f, f ≠ name → killed env split fs [⟨file, data, auto⟩] n f = fs f) ∧
    (killed env split fs [⟨file, data, auto⟩] n name = fs name ∨ ∃ p, p <+: out ∧ killed env split fs [⟨file, data, auto⟩] n name = some p) := by
  obtain ⟨c, hc, hr, _⟩ := run_save env hs fs file data auto n
  rw [goName_eq hn] at hr hc
  rw [output_eq ho] at hc
  have hk : killed env split fs [⟨file, data, auto⟩] n = runEffects fs ((saveEffects env split file data auto).take n) := by
    simp [killed]
  rw [hk]
  refine ⟨fun f hf => by rw [hr, if_neg hf], ?_⟩
  rw [hr, if_pos rfl]
  cases c with
  | none => left; simp
  | some p => right; exact ⟨p, hc p rfl, by simp⟩

/-- **C75** Saving is never atomic: whenever `SaveFile` gets as far as to create the file, there is a moment at which a process that is
killed leaves an empty file, whatever the file held before. -/
theorem C75_not_atomic (env : Env) (split : Bytes → List Bytes) (fs : FS) {file data name : Bytes} (auto : List Bool) (hn : IsGoName file name)
    (hd : data ≠ []) (hm : env.mkdirOk (env.dir name) = true) (hc : env.createOk name = true) :
    ∃ n, killed env split fs [⟨file, data, auto⟩] n name = some [] := by
  refine ⟨2, ?_⟩
  have h0 : ¬ data.length = 0 := by simpa using hd
  simp [killed, hd, saveEffects, h0, goName_eq hn, hm, hc, runEffects, Effect.apply, FS.put]

/-- The changes of a list of calls are those of the first calls, complete, and some of the next one. -/
theorem killed_cons (env : Env) {split : Bytes → List Bytes} (hs : ∀ b, (split b).flatten = b) (fs : FS) (c : SaveCall) (cs : List SaveCall) (n : Nat) :
    (n < (saveEffects env split c.file c.data c.auto).length ∧ killed env split fs (c :: cs) n = killed env split fs [c] n) ∨
    ∃ m, killed env split fs (c :: cs) n = killed env split (saveFile env fs c.file c.data c.auto).1 cs m := by
  by_cases h : n < (saveEffects env split c.file c.data c.auto).length
  · refine .inl ⟨h, ?_⟩
    simp only [killed, List.flatMap_cons, List.flatMap_nil, List.append_nil]
    rw [List.take_append_of_le_length (by omega)]
  · refine .inr ⟨n - (saveEffects env split c.file c.data c.auto).length, ?_⟩
    simp only [killed, List.flatMap_cons]
    rw [List.take_append, run_append, List.take_of_length_le (by omega), C75_complete env hs]

/-- **C75** A process that saves one file after another, killed at any moment: some first calls are complete, at most one file is
in between (as it was, or a beginning of what it is to hold), and the later calls have changed nothing. -/
theorem C75_killed_many (env : Env) {split : Bytes → List Bytes} (hs : ∀ b, (split b).flatten = b) :
    ∀ (calls : List SaveCall) (fs : FS) (n : Nat),
    killed env split fs calls n = saveAll env fs calls ∨
    ∃ done c rest, calls = done ++ c :: rest ∧
      ∀ name out, IsGoName c.file name → IsOutput env name c.data c.auto out →
        (∀ f, f ≠ name → killed env split fs calls n f = saveAll env fs done f) ∧
        (killed env split fs calls n name = saveAll env fs done name ∨ ∃ p, p <+: out ∧ killed env split fs calls n name = some p)
  | [], fs, n => by left; simp [killed, saveAll, runEffects]
  | c :: cs, fs, n => by
    rcases killed_cons env hs fs c cs n with ⟨_, e⟩ | ⟨m, e⟩
    · refine .inr ⟨[], c, cs, rfl, fun name out hn ho => ?_⟩
      rw [e]
      exact C75_killed env hs fs hn ho n
    · rcases C75_killed_many env hs cs (saveFile env fs c.file c.data c.auto).1 m with h | ⟨d, c', r, e1, h⟩
      · left; rw [e, h, saveAll]
      · refine .inr ⟨c :: d, c', r, by simp [e1], fun name out hn ho => ?_⟩
        rw [e]
        exact h name out hn ho

/-- What the calls leave in a file: the last call that writes it decides, if there is one. -/
theorem saveAll_alike (env : Env) : ∀ (calls : List SaveCall), ∃ c : Bytes → Option Bytes, ∀ fs f, saveAll env fs calls f = (c f).or (fs f)
  | [] => ⟨fun _ => none, fun fs f => by simp [saveAll]⟩
  | call :: calls => by
    obtain ⟨c, h⟩ := saveAll_alike env calls
    by_cases h0 : call.data.length = 0
    · exact ⟨c, fun fs f => by simp [saveAll, saveFile, h0, h]⟩
    by_cases h1 : env.mkdirOk (env.dir (goFileName call.file)) = true
    · by_cases h2 : env.createOk (goFileName call.file) = true
      · cases h3 : env.writeFailsAfter (goFileName call.file) (formattedData env (goFileName call.file) call.data call.auto) with
        | some k =>
          refine ⟨fun f => (c f).or (if f = goFileName call.file then some ((formattedData env (goFileName call.file) call.data call.auto).take k) else none), fun fs f => ?_⟩
          by_cases hf : f = goFileName call.file <;> simp [saveAll, saveFile, h0, h1, h2, h3, h, FS.put, hf]
        | none =>
          refine ⟨fun f => (c f).or (if f = goFileName call.file then some (formattedData env (goFileName call.file) call.data call.auto) else none), fun fs f => ?_⟩
          by_cases hf : f = goFileName call.file <;> simp [saveAll, saveFile, h0, h1, h2, h3, h, FS.put, hf]
      · exact ⟨c, fun fs f => by simp [saveAll, saveFile, h0, h1, h2, h]⟩
    · exact ⟨c, fun fs f => by simp [saveAll, saveFile, h0, h1, h]⟩

/-- A call that was killed has changed only a file that it writes when it is complete. -/
theorem saveAll_after (env : Env) {split : Bytes → List Bytes} (hs : ∀ b, (split b).flatten = b) : ∀ (calls : List SaveCall) (fs : FS) (n : Nat),
    saveAll env (killed env split fs calls n) calls = saveAll env fs calls := by
  have key : ∀ (calls : List SaveCall) (fs fs' : FS) (n : Nat), killed env split fs calls n = fs' →
      ∀ f, fs' f = fs f ∨ ∀ g₁ g₂ : FS, saveAll env g₁ calls f = saveAll env g₂ calls f := by
    intro calls
    induction calls with
    | nil => intro fs fs' n e f; left; rw [← e]; simp [killed, runEffects]
    | cons c cs ih =>
      intro fs fs' n e f
      obtain ⟨cc, hcc⟩ := saveAll_alike env cs
      -- the first call either never touches f, or always decides it
      have first : (∀ (g : FS) m, killed env split g [c] m f = g f) ∨ ∀ g₁ g₂ : FS, (saveFile env g₁ c.file c.data c.auto).1 f = (saveFile env g₂ c.file c.data c.auto).1 f := by
        by_cases hf : f = goFileName c.file
        · subst hf
          by_cases h0 : c.data.length = 0
          · left; intro g m; simp [killed, saveEffects, List.length_eq_zero_iff.1 h0, runEffects]
          have h0' : c.data ≠ [] := fun h => h0 (by simp [h])
          by_cases h1 : env.mkdirOk (env.dir (goFileName c.file)) = true
          · by_cases h2 : env.createOk (goFileName c.file) = true
            · right
              intro g₁ g₂
              cases h3 : env.writeFailsAfter (goFileName c.file) (formattedData env (goFileName c.file) c.data c.auto) <;>
                simp [saveFile, h0, h1, h2, h3, FS.put]
            · left
              intro g m
              rcases m with _ | m <;> simp [killed, saveEffects, h0', h1, h2, runEffects, Effect.apply]
          · left; intro g m; simp [killed, saveEffects, h0, h1, runEffects]
        · left
          intro g m
          obtain ⟨_, _, hr, _⟩ := run_save env hs g c.file c.data c.auto m
          simp only [killed, List.flatMap_cons, List.flatMap_nil, List.append_nil]
          rw [hr, if_neg hf]
      have decided : (∀ g₁ g₂ : FS, (saveFile env g₁ c.file c.data c.auto).1 f = (saveFile env g₂ c.file c.data c.auto).1 f) →
          ∀ g₁ g₂ : FS, saveAll env g₁ (c :: cs) f = saveAll env g₂ (c :: cs) f := by
        intro hd g₁ g₂
        rw [saveAll, saveAll, hcc, hcc, hd g₁ g₂]
      rcases first with h | h
      · rcases killed_cons env hs fs c cs n with ⟨_, e1⟩ | ⟨m, e1⟩
        · left; rw [← e, e1, h]
        · have h1 : (saveFile env fs c.file c.data c.auto).1 f = fs f := by
            rw [← C75_complete env hs]
            have := h fs (saveEffects env split c.file c.data c.auto).length
            simpa [killed] using this
          rcases ih (saveFile env fs c.file c.data c.auto).1 fs' m (by rw [← e1, e]) f with h2 | h2
          · left; rw [h2, h1]
          · right; intro g₁ g₂; rw [saveAll, saveAll]; exact h2 _ _
      · exact .inr (decided h)
  intro calls fs n
  obtain ⟨c, hc⟩ := saveAll_alike env calls
  funext f
  rcases key calls fs _ n rfl f with h | h
  · rw [hc, hc, h]
  · exact h _ _

/-- **C75** Running again repairs everything: a process that saves given data to files may be killed any number of times, at any moments (and the bytes may be
taken in other pieces each time);
when it then runs to its end, every file is as if it had run to its end the first time. -/
theorem C75_run_again (env : Env) (calls : List SaveCall) (fs : FS) (kills : List ((Bytes → List Bytes) × Nat))
    (hs : ∀ k ∈ kills, ∀ b, (k.1 b).flatten = b) :
    saveAll env (kills.foldl (fun fs k => killed env k.1 fs calls k.2) fs) calls = saveAll env fs calls := by
  induction kills generalizing fs with
  | nil => rfl
  | cons k kills ih => rw [List.foldl_cons, ih _ (fun k h => hs k (by simp [h])), saveAll_after env (hs k (by simp))]

/-! ## Saving at the same time -/

/-- The file a change concerns. -/
def Effect.on : Effect → Option Bytes
  | .mkdir _ => none
  | .create f => some f
  | .write f _ _ => some f

/-- What a change makes of the content of the file it concerns. -/
def Effect.content (c : Option Bytes) : Effect → Option Bytes
  | .mkdir _ => c
  | .create _ => some []
  | .write _ off chunk => some (writeAt (c.getD []) off chunk)

theorem run_file (f : Bytes) : ∀ (es : List Effect) (fs : FS), runEffects fs es f = (es.filter fun e => e.on = some f).foldl Effect.content (fs f)
  | [], fs => rfl
  | e :: es, fs => by
    have h1 : runEffects fs (e :: es) = runEffects (e.apply fs) es := rfl
    have ih := run_file f es (e.apply fs)
    rw [h1, ih]
    by_cases h : e.on = some f
    · rw [List.filter_cons_of_pos (by simpa using h), List.foldl_cons]
      congr 1
      cases e <;> simp only [Effect.on, Option.some.injEq, reduceCtorEq] at h <;> subst h <;> simp [Effect.apply, Effect.content, FS.put]
    · rw [List.filter_cons_of_neg (by simpa using h)]
      congr 1
      cases e <;> simp only [Effect.on, Option.some.injEq] at h <;> simp [Effect.apply, FS.put, Ne.symm h]
      all_goals (intro hh; exact absurd hh.symm h)

theorem Interleaved.filter {α : Type} (p : α → Bool) {ess : List (List α)} {es : List α} (i : Interleaved ess es) :
    Interleaved (ess.map (List.filter p)) (es.filter p) := by
  induction i with
  | done h =>
    refine .done ?_
    intro l hl
    obtain ⟨x, hx, rfl⟩ := List.mem_map.1 hl
    rw [h x hx]
    rfl
  | @step pre post e l es _ ih =>
    by_cases hp : p e = true
    · rw [List.filter_cons_of_pos hp]
      simp only [List.map_append, List.map_cons, List.filter_cons_of_pos hp] at ih ⊢
      exact .step ih
    · rw [List.filter_cons_of_neg hp]
      simpa only [List.map_append, List.map_cons, List.filter_cons_of_neg hp] using ih

/-- If at most one list is not empty there is only one interleaving. -/
theorem Interleaved.single {α : Type} {ess : List (List α)} {es : List α} (i : Interleaved ess es)
    (one : ess.Pairwise fun a b => a = [] ∨ b = []) : es = ess.flatten := by
  induction i with
  | @done ess h =>
    symm
    rw [List.flatten_eq_nil_iff]
    exact h
  | @step pre post e l es _ ih =>
    have one' : (pre ++ l :: post).Pairwise fun a b => a = [] ∨ b = [] := by
      rw [List.pairwise_append, List.pairwise_cons] at one ⊢
      obtain ⟨h1, ⟨h2, h3⟩, h4⟩ := one
      refine ⟨h1, ⟨fun b hb => ?_, h3⟩, fun a ha b hb => ?_⟩
      · rcases h2 b hb with h | h
        · cases h
        · exact .inr h
      · rcases List.mem_cons.1 hb with rfl | hb
        · rcases h4 a ha _ List.mem_cons_self with h | h
          · exact .inl h
          · cases h
        · exact h4 a ha b (by simp [hb])
    have hpre : pre.flatten = [] := by
      rw [List.flatten_eq_nil_iff]
      intro a ha
      rw [List.pairwise_append] at one
      rcases one.2.2 a ha (e :: l) (by simp) with h | h
      · exact h
      · cases h
    rw [ih one']
    simp [hpre]

theorem on_saveEffects (env : Env) (split : Bytes → List Bytes) (file data : Bytes) (auto : List Bool) :
    ∀ e ∈ saveEffects env split file data auto, ∀ f, e.on = some f → f = goFileName file := by
  have wr : ∀ (l : List Bytes) (o : Nat), ∀ e ∈ writeEffects (goFileName file) o l, ∀ f, e.on = some f → f = goFileName file := by
    intro l
    induction l with
    | nil => intro o e he; simp [writeEffects] at he
    | cons a l ih =>
      intro o e he f hf
      rcases List.mem_cons.1 (show e ∈ Effect.write (goFileName file) o a :: writeEffects (goFileName file) (o + a.length) l from he) with rfl | he
      · simpa [Effect.on] using hf.symm
      · exact ih _ e he f hf
  intro e he f hf
  simp only [saveEffects] at he
  split at he
  · simp at he
  split at he
  · simp at he
  split at he
  · simp only [List.mem_singleton] at he; subst he; simp [Effect.on] at hf
  · rcases List.mem_cons.1 he with rfl | he
    · simp [Effect.on] at hf
    rcases List.mem_cons.1 he with rfl | he
    · simpa [Effect.on] using hf.symm
    exact wr _ _ e he f hf

theorem run_all (env : Env) {split : Bytes → List Bytes} (hs : ∀ b, (split b).flatten = b) : ∀ (calls : List SaveCall) (fs : FS),
    runEffects fs (calls.flatMap fun c => saveEffects env split c.file c.data c.auto) = saveAll env fs calls
  | [], fs => rfl
  | c :: cs, fs => by rw [List.flatMap_cons, run_append, C75_complete env hs, run_all env hs cs, saveAll]

/-- **C75** Processes (or goroutines) that save at the same time, none a file of another: in whatever order their changes on disk happen,
in the end every file is as if they had run one after another. -/
theorem C75_interleaved (env : Env) {split : Bytes → List Bytes} (hs : ∀ b, (split b).flatten = b) (procs : List (List SaveCall))
    (apart : procs.Pairwise fun p q => ∀ c ∈ p, ∀ d ∈ q, ∀ n, IsGoName c.file n → ¬ IsGoName d.file n) (fs : FS) {es : List Effect}
    (i : Interleaved (procs.map fun calls => calls.flatMap fun c => saveEffects env split c.file c.data c.auto) es) :
    runEffects fs es = saveAll env fs procs.flatten := by
  rw [← run_all env hs]
  funext f
  rw [run_file, run_file]
  have h := (i.filter (fun e => decide (e.on = some f))).single (by
    rw [List.pairwise_map, List.pairwise_map]
    refine apart.imp ?_
    intro p q hpq
    have nil_of : ∀ calls : List SaveCall, (∀ c ∈ calls, goFileName c.file ≠ f) →
        (calls.flatMap fun c => saveEffects env split c.file c.data c.auto).filter (fun e => decide (e.on = some f)) = [] := by
      intro calls hc
      rw [List.filter_eq_nil_iff]
      intro e he hf
      obtain ⟨c, hcm, hce⟩ := List.mem_flatMap.1 he
      exact hc c hcm (on_saveEffects env split _ _ _ e hce f (by simpa using hf)).symm
    by_cases hp : ∀ c ∈ p, goFileName c.file ≠ f
    · exact .inl (nil_of p hp)
    · right
      apply nil_of q
      simp only [Classical.not_forall, Classical.not_not] at hp
      obtain ⟨c, hc, hcf⟩ := hp
      intro d hd hdf
      exact hpq c hc d hd f (hcf ▸ isGoName_goFileName c.file) (hdf ▸ isGoName_goFileName d.file))
  rw [h]
  congr 1
  rw [← List.filter_flatten]
  congr 1
  clear h i apart
  induction procs with
  | nil => rfl
  | cons p ps ih => simp [List.flatMap_append, ih]

/-- **C75** A program that reads its own output is not repaired by running it again: whenever `SaveFile` gets as far as to create the
file, there is a moment at which a process that is killed leaves a file that `ParseAst` reads, parses and rejects as having no package
(if the formatter, like `format.Source`, leaves the empty text as it is). -/
theorem C75_source_lost (env : Env) (split : Bytes → List Bytes) (fs : FS) {file data name : Bytes} (auto : List Bool) (hn : IsGoName file name)
    (hd : data ≠ []) (hm : env.mkdirOk (env.dir name) = true) (hc : env.createOk name = true) (h1 : env.openDenied name = false)
    (h2 : env.readFails name = false) (h3 : env.formatSource [] = some []) (spare : Nat) (st : AState) :
    ∃ n, parseAst env spare (killed env split fs [⟨file, data, auto⟩] n) st file = some (.error .ErrNoPackage) := by
  obtain ⟨n, hk⟩ := C75_not_atomic env split fs auto hn hd hm hc
  refine ⟨n, ?_⟩
  have hr : readFile env (killed env split fs [⟨file, data, auto⟩] n) file = .ok [] := by
    simp [readFile, goName_eq hn, h1, hk, h2, h3]
  rw [parseAst, hr]
  rfl

/-! ## Witnesses -/

/-- Everything works, and the kernel takes one byte at a time. -/
def bytewise (b : Bytes) : List Bytes := b.map fun x => [x]

example : ∀ b, (bytewise b).flatten = b := by
  intro b
  induction b with
  | nil => rfl
  | cons x b ih => simp only [bytewise, List.map_cons, List.flatten_cons] at ih ⊢; rw [ih]; rfl

/-- The moments of one save. -/
example : (List.range 6).map (fun n => killed demoEnv bytewise (fun _ => some b!"old") [⟨b!"a", b!"new", []⟩] n b!"a.go") =
    [some b!"old", some b!"old", some [], some b!"n", some b!"ne", some b!"new"] := by decide

/-- Two files, killed in the second, then run again. -/
example : let calls : List SaveCall := [⟨b!"a", b!"one", []⟩, ⟨b!"b", b!"two", [true]⟩]
    let fs := killed demoEnv bytewise (fun _ => some b!"old") calls 8
    (fs b!"a.go", fs b!"b.go", fs b!"c.go") = (some b!"one", some b!"t", some b!"old") ∧
    (saveAll demoEnv fs calls b!"a.go", saveAll demoEnv fs calls b!"b.go") = (some b!"one", some b!"two") := by decide

/-- **C75, witness** Two processes that save the same file at the same time can leave a file that neither of them wrote. -/
theorem C75_same_file : ∃ (fs : FS) (es : List Effect),
    Interleaved ([[⟨b!"a", b!"LONG", []⟩], [⟨b!"a", b!"me", []⟩]].map fun calls : List SaveCall => calls.flatMap fun c =>
      saveEffects demoEnv (fun b => [b]) c.file c.data c.auto) es ∧
    runEffects fs es b!"a.go" = some b!"meNG" := by
  refine ⟨fun _ => none, [.mkdir b!".", .create b!"a.go", .mkdir b!".", .create b!"a.go", .write b!"a.go" 0 b!"LONG", .write b!"a.go" 0 b!"me"], ?_, by decide⟩
  have e : ([[⟨b!"a", b!"LONG", []⟩], [⟨b!"a", b!"me", []⟩]].map fun calls : List SaveCall => calls.flatMap fun c =>
      saveEffects demoEnv (fun b => [b]) c.file c.data c.auto) =
      [[.mkdir b!".", .create b!"a.go", .write b!"a.go" 0 b!"LONG"], [.mkdir b!".", .create b!"a.go", .write b!"a.go" 0 b!"me"]] := by decide
  rw [e]
  refine .step (pre := []) (.step (pre := []) (.step (pre := [_]) (post := []) (.step (pre := [_]) (post := []) (.step (pre := []) (.step (pre := [_]) (post := []) (.done ?_))))))
  simp

end Goast
