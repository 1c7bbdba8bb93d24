import Verif.Props.Saves

/-!
# C93: what `ParseAst` answers on a file system with directories
-/

namespace Goast

open PathSpec Tree

/-- Where a path starts. -/
def startOf (cwd : List Bytes) (name : Bytes) : List Bytes := if name.head? = some 47 then [] else cwd

namespace Tree

theorem stuck_iff {t : Tree} (ok : t.Ok) : ∀ (ps cur : List Bytes), t.stuck cur ps = true ↔
    (∃ q, Follows t.dirs cur ps q [] ∧ t.dirs q = true) ∨ (∃ q p rest, Follows t.dirs cur ps q (p :: rest) ∧ (t.files q).isSome)
  | [], cur => by
    constructor
    · intro h; exact .inl ⟨cur, .start, h⟩
    · rintro (⟨q, h, hd⟩ | ⟨q, p, rest, h, _⟩)
      · cases h; exact hd
      · cases h
  | x :: ps, cur => by
    simp only [stuck]
    by_cases hd : t.dirs cur = true
    · rw [if_pos hd, stuck_iff ok ps]
      constructor
      · rintro (⟨q, h, h'⟩ | ⟨q, p, rest, h, h'⟩)
        · exact .inl ⟨q, .enter hd h, h'⟩
        · exact .inr ⟨q, p, rest, .enter hd h, h'⟩
      · rintro (⟨q, h, h'⟩ | ⟨q, p, rest, h, h'⟩)
        · cases h with | enter _ h => exact .inl ⟨q, h, h'⟩
        · cases h with
          | start => rw [ok.one _ hd] at h'; cases h'
          | enter _ h => exact .inr ⟨q, p, rest, h, h'⟩
    · rw [if_neg hd]
      constructor
      · intro h; exact .inr ⟨cur, x, ps, .start, h⟩
      · rintro (⟨q, h, h'⟩ | ⟨q, p, rest, h, h'⟩)
        · cases h with | enter h0 h => exact absurd h0 hd
        · cases h with
          | start => exact h'
          | enter h0 h => exact absurd h0 hd

theorem look_iff (t : Tree) : ∀ (ps cur q : List Bytes), t.look cur ps = some q ↔ Follows t.dirs cur ps q []
  | [], cur, q => by
    simp only [look, Option.some.injEq]
    constructor
    · rintro rfl; exact .start
    · intro h; cases h; rfl
  | x :: ps, cur, q => by
    simp only [look]
    split
    · rename_i hd
      rw [look_iff t ps]
      exact ⟨fun h => .enter hd h, fun h => by
        cases h with
        | enter _ h => exact h⟩
    · rename_i hd
      refine ⟨fun h => (by cases h), fun h => ?_⟩
      cases h with | enter h0 _ => exact absurd h0 hd

theorem missing_iff {t : Tree} : ∀ (ps cur : List Bytes), (t.stuck cur ps = false ∧ (t.look cur ps).bind t.files = none) ↔
    ∃ q rest, Follows t.dirs cur ps q rest ∧ t.dirs q = false ∧ t.files q = none
  | [], cur => by
    simp only [stuck, look, Option.bind_some]
    constructor
    · rintro ⟨a, b⟩; exact ⟨cur, [], .start, a, b⟩
    · rintro ⟨q, rest, h, a, b⟩; cases h; exact ⟨a, b⟩
  | x :: ps, cur => by
    simp only [stuck, look]
    by_cases hd : t.dirs cur = true
    · rw [if_pos hd, if_pos hd, missing_iff ps]
      constructor
      · rintro ⟨q, rest, h, a⟩; exact ⟨q, rest, .enter hd h, a⟩
      · rintro ⟨q, rest, h, a, b⟩
        cases h with
        | start => rw [hd] at a; cases a
        | enter _ h => exact ⟨q, rest, h, a, b⟩
    · rw [if_neg hd, if_neg hd]
      constructor
      · rintro ⟨a, _⟩
        refine ⟨cur, x :: ps, .start, by simpa using hd, by simpa using a⟩
      · rintro ⟨q, rest, h, a, b⟩
        cases h with
        | start => simp [b]
        | enter h0 h => exact absurd h0 hd

end Tree

/-- **C93** `ParseAst` returns `ErrNotExist` exactly when, on the way along the path (`.go` added if missing), one comes to a place where there
is nothing. -/
theorem C93_not_exist (env : Env) (cwd : List Bytes) (t : Tree) (spare : Nat) (st : AState) {file name : Bytes} (hn : IsGoName file name) :
    parseAst (t.env env cwd) spare (t.read cwd) st file = some (.error .ErrNotExist) ↔
      ∃ q rest, Follows t.dirs (startOf cwd name) (parts name) q rest ∧ t.dirs q = false ∧ t.files q = none := by
  rw [C39_not_exist _ spare _ st hn, ← missing_iff]
  rfl

/-- **C93** All answers: nothing at some place on the way; a file where the path goes on; a directory at the end; or the path leads through
directories to a file, then the errors are those of the formatter and `ErrNoPackage`, and else there is an `Ast` over the scopes of the formatted
text. -/
theorem C93_answers (env : Env) (cwd : List Bytes) {t : Tree} (ok : t.Ok) (spare : Nat) (st : AState) (w : WF st.heap) (ac : Acyclic st.heap)
    {file name : Bytes} (hn : IsGoName file name) :
    let answer := parseAst (t.env env cwd) spare (t.read cwd) st file
    ((∃ q rest, Follows t.dirs (startOf cwd name) (parts name) q rest ∧ t.dirs q = false ∧ t.files q = none) ∧ answer = some (.error .ErrNotExist)) ∨
    ((∃ q p rest, Follows t.dirs (startOf cwd name) (parts name) q (p :: rest) ∧ (t.files q).isSome) ∧ answer = some (.error .os)) ∨
    (t.lookup cwd name = some (place cwd name) ∧ t.dirs (place cwd name) = true ∧ answer = some (.error .os)) ∨
    ∃ b, Follows t.dirs (startOf cwd name) (parts name) (place cwd name) [] ∧ t.files (place cwd name) = some b ∧
      ((env.formatSource b = none ∧ answer = some (.error .badSource)) ∨
       ∃ data h' scs, env.formatSource b = some data ∧ parseScope st.heap 0 data = some (h', scs) ∧
        (((∀ sc ∈ scs, sc.kind ≠ .package_) ∧ answer = some (.error .ErrNoPackage)) ∨
         ∃ st' f, answer = some (.ok (st', f)) ∧ f.file = file ∧ f.scopes st' = scs)) := by
  dsimp only
  have hr := C39_read_errors (t.env env cwd) spare (t.read cwd) st (buf := []) hn
  cases hs : t.stuck (startOf cwd name) (parts name) with
  | true =>
    have hos := hr.1 hs
    rcases (stuck_iff ok _ _).1 hs with ⟨q, h, hd⟩ | h
    · have hl : t.lookup cwd name = some q := (look_iff t _ _ _).2 h
      have := lookup_place hl
      subst this
      exact .inr (.inr (.inl ⟨hl, hd, hos⟩))
    · exact .inr (.inl ⟨h, hos⟩)
  | false =>
    cases hb : t.read cwd name with
    | none =>
      have m := (missing_iff (t := t) (parts name) (startOf cwd name)).1 ⟨hs, hb⟩
      exact .inl ⟨m, (C93_not_exist env cwd t spare st hn).2 m⟩
    | some b =>
      obtain ⟨q, hl, hf⟩ := Option.bind_eq_some_iff.1 hb
      have := lookup_place hl
      subst this
      refine .inr (.inr (.inr ⟨b, (look_iff t _ _ _).1 hl, hf, ?_⟩))
      cases hfm : env.formatSource b with
      | none => exact .inl ⟨rfl, (C39_read_errors (t.env env cwd) spare (t.read cwd) st hn).2.2 hb hs rfl hfm⟩
      | some data =>
        obtain ⟨h', scs, e1, e2, e3⟩ := C39_parsed (t.env env cwd) spare (t.read cwd) st w ac hn hb hs rfl hfm
        refine .inr ⟨data, h', scs, rfl, e1, ?_⟩
        by_cases hp : ∃ sc ∈ scs, sc.kind = .package_
        · obtain ⟨st', f, a, b1, _, _, _, b2, _⟩ := e3 hp
          exact .inr ⟨st', f, a, b1, b2⟩
        · have hp : ∀ sc ∈ scs, sc.kind ≠ .package_ := fun sc h1 h2 => hp ⟨sc, h1, h2⟩
          exact .inl ⟨hp, e2.2 hp⟩

/-- **C93** The answer is an error of the operating system (other than that there is no such file) exactly when a file is met where the path goes
on, or the path leads to a directory. -/
theorem C93_os (env : Env) (cwd : List Bytes) {t : Tree} (ok : t.Ok) (spare : Nat) (st : AState) (w : WF st.heap) (ac : Acyclic st.heap)
    {file name : Bytes} (hn : IsGoName file name) :
    parseAst (t.env env cwd) spare (t.read cwd) st file = some (.error .os) ↔
      (∃ q, Follows t.dirs (startOf cwd name) (parts name) q [] ∧ t.dirs q = true) ∨
      (∃ q p rest, Follows t.dirs (startOf cwd name) (parts name) q (p :: rest) ∧ (t.files q).isSome) := by
  rw [← stuck_iff ok]
  constructor
  · intro h
    rcases C93_answers env cwd ok spare st w ac hn with ⟨_, e⟩ | ⟨x, _⟩ | ⟨x, y, _⟩ | ⟨b, _, _, ⟨_, e⟩ | ⟨data, h', scs, _, _, ⟨_, e⟩ | ⟨st', f, e, _⟩⟩⟩
    · rw [h] at e; cases e
    · exact (stuck_iff ok _ _).2 (.inr x)
    · exact (stuck_iff ok _ _).2 (.inl ⟨_, (look_iff t _ _ _).1 x, y⟩)
    · rw [h] at e; cases e
    · rw [h] at e; cases e
    · rw [h] at e; cases e
  · intro h
    exact (C39_read_errors (t.env env cwd) spare (t.read cwd) st (buf := []) hn).1 h

theorem Tree.stuck_look {t : Tree} (ok : t.Ok) : ∀ {ps cur q : List Bytes}, t.look cur ps = some q → (t.files q).isSome → t.stuck cur ps = false
  | [], cur, q, h, hf => by
    cases h
    simp only [stuck]
    cases hd : t.dirs cur with
    | false => rfl
    | true => rw [ok.one _ hd] at hf; cases hf
  | x :: ps, cur, q, h, hf => by
    simp only [look] at h
    simp only [stuck]
    split at h
    · rename_i hd
      rw [if_pos hd]
      exact stuck_look ok h hf
    · cases h

/-- **C93** A path that could be read is never answered with an error of the operating system after any row of calls of `Save`, whatever
their paths. -/
theorem C93_saved (env : Env) (cwd : List Bytes) {t : Tree} (ok : t.Ok) (calls : List SaveAt) (spare : Nat) (st : AState) (w : WF st.heap)
    (ac : Acyclic st.heap) {file name b : Bytes} (hn : IsGoName file name) (h : t.read cwd name = some b) :
    let t' := (t.saves env calls).1
    parseAst (t'.env env cwd) spare (t'.read cwd) st file ≠ some (.error .ErrNotExist) ∧
      parseAst (t'.env env cwd) spare (t'.read cwd) st file ≠ some (.error .os) := by
  obtain ⟨b', hb, _⟩ := C92_readable env ok calls h
  have ok' := (C92_saves env ok calls).2.1
  dsimp only
  refine ⟨fun hh => ?_, fun hh => ?_⟩
  · have := ((C39_not_exist _ spare _ st hn).1 hh).2
    rw [hb] at this; cases this
  · have := (stuck_iff ok' _ _).2 ((C93_os env cwd ok' spare st w ac hn).1 hh)
    obtain ⟨q, hl, hf⟩ := Option.bind_eq_some_iff.1 hb
    have this' := stuck_look ok' hl (by rw [hf]; rfl)
    exact absurd (this.symm.trans this') (by decide)

/-- A file on the way, nothing there, a directory with the name of a file, and a file under a detour. -/
theorem C93_example :
    let t : Tree := { dirs := fun p => p = [] || p = [b!"d.go"], files := fun p => if p = [b!"a.go"] then some b!"package a\n" else none }
    let answer := fun name => (parseAst (t.env unixEnv []) 0 (t.read []) ⟨Heap.empty, []⟩ name).map fun r => match r with
      | .error e => (Sum.inl e : Err ⊕ Bytes)
      | .ok q => .inr q.2.file
    t.Ok ∧ answer b!"a.go/b" = some (.inl .os) ∧ answer b!"b" = some (.inl .ErrNotExist) ∧ answer b!"x/../a" = some (.inl .ErrNotExist) ∧
      answer b!"d" = some (.inl .os) ∧ answer b!"d.go/../a" = some (.inr b!"d.go/../a") := by
  refine ⟨⟨rfl, ?_, ?_⟩, by decide +kernel, by decide +kernel, by decide +kernel, by decide +kernel, by decide +kernel⟩
  · intro p n h
    rcases List.eq_nil_or_concat p with rfl | ⟨q, m, rfl⟩
    · rfl
    · simp at h
      rcases h with h | h <;> simpa using congrArg List.length h
  · intro p h
    simp only [Bool.or_eq_true, decide_eq_true_eq] at h ⊢
    rcases h with rfl | rfl <;> rfl

end Goast
