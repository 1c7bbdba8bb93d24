import Verif.Spec.Brackets

/-!
# Which type declarations keep their text

`typeResetter.Run` reads a type declaration node by node.  The only step that can damage the text is the
one that collects the nodes of an aliased type (everything from the first identifier after the declared name
to the end of the line) when it meets a `(` there.  `TypeState` and `TypeState.succ` describe, on the kinds of
the nodes alone, where the reading can be; `Ok` says that it meets no such `(`.
-/

namespace Goast

/-- Is there a `(` before the end of the line? -/
def lineHasParen : List Kind → Bool
  | [] => false
  | k :: ks => if k = .parenL then true else if k = .newLine then false else lineHasParen ks

/-- Where the reading of a type declaration is. -/
inductive TypeState
  /-- before the declared name -/
  | name
  /-- behind the declared name, before the space -/
  | sep
  /-- in the type -/
  | typ
  /-- collecting the rest of the line of an aliased type -/
  | alias
  /-- behind `interface`, before its `{` -/
  | ifc0
  /-- in an interface body, before an entry -/
  | ifc
  /-- in an entry that is no method, with so many open `(`, `{`, `[` -/
  | stmt (p c s : Int)
  /-- behind `struct`, before its `{` -/
  | str0
  /-- in a struct body, before a field -/
  | str
  /-- in a field -/
  | row
  /-- in a function type or method, which ends at some later line end; then it goes on with `after` -/
  | line (after : TypeState)
  /-- between brackets `L … R`, `n` of them open; behind them it goes on with `after` -/
  | skip (L R : Kind) (n : Nat) (after : TypeState)
deriving DecidableEq, Repr

/-- Where the reading can be after a node of kind `k` that is followed by nodes of kinds `ks`.  More than one
state means that which of them applies is left open. -/
def TypeState.succ (st : TypeState) (k : Kind) (ks : List Kind) : List TypeState :=
  match st with
  | .name => if k = .raw then [.sep] else if k = .newLine ∨ k = .curlyR then [] else [.name]
  | .sep => if k = .space then [.typ] else if k = .squareL then [.skip .squareL .squareR 1 .sep] else [.sep]
  | .typ =>
    match k with
    | .interface_ => [.ifc0]
    | .struct_ => [.str0]
    | .func_ => [.line .typ]
    | .raw => [.alias]
    | .squareL => [.skip .squareL .squareR 1 .typ]
    | _ => [.typ]
  | .alias =>
    match k with
    | .newLine => [.typ]
    | .curlyL => [.skip .curlyL .curlyR 1 .alias]
    | .squareL => [.skip .squareL .squareR 1 .alias]
    | .func_ => [.line .typ]
    | _ => [.alias]
  | .ifc0 => if k = .curlyL then [.ifc] else [.ifc0]
  | .ifc =>
    match k with
    | .curlyR => [.typ]
    | .tab | .comment | .newLine | .space | .curlyL => [.ifc]
    | _ =>
      if lineHasParen (k :: ks) = true then [.line .ifc]
      else [.stmt (delta .parenL .parenR k) (delta .curlyL .curlyR k) (delta .squareL .squareR k)]
  | .stmt p c s =>
    let p := p + delta .parenL .parenR k
    let c := c + delta .curlyL .curlyR k
    let s := s + delta .squareL .squareR k
    if p = 0 ∧ c = 0 ∧ s = 0 ∧ k = .newLine then [.ifc]
    else if p = 0 ∧ c = 0 ∧ s = 0 ∧ k = .curlyR then [.typ]
    else [.stmt p c s]
  | .str0 => if k = .curlyL then [.str] else [.str0]
  | .str =>
    match k with
    | .curlyR => [.typ]
    | .comment | .curlyL | .newLine => [.str]
    | .func_ => [.line .str]
    | _ => [.row]
  | .row => if k = .newLine then [.str] else if k = .func_ then [.line .str] else [.row]
  | .line after => if k = .newLine then [after, .line after] else [.line after]
  | .skip L R n after =>
    if k = L then [.skip L R (n + 1) after]
    else if k = R then (if n = 1 then [after] else [.skip L R (n - 1) after])
    else [.skip L R n after]

/-- Whatever way the reading takes from `st` on, it never meets a `(` while collecting an aliased type. -/
def Ok : TypeState → List Kind → Prop
  | _, [] => True
  | st, k :: ks => ¬ (st = .alias ∧ k = .parenL) ∧ ∀ st' ∈ st.succ k ks, Ok st' ks

/-- The same for several states at once, as a program. -/
def okRun : List TypeState → List Kind → Bool
  | _, [] => true
  | sts, k :: ks =>
    !(decide (k = .parenL) && sts.contains .alias) && okRun (sts.flatMap fun st => st.succ k ks).eraseDups ks

theorem okRun_iff : ∀ (ks : List Kind) (sts : List TypeState), okRun sts ks = true ↔ ∀ st ∈ sts, Ok st ks
  | [], sts => by simp [okRun, Ok]
  | k :: ks, sts => by
    have ih := okRun_iff ks (sts.flatMap fun st => st.succ k ks).eraseDups
    simp only [okRun, Bool.and_eq_true, ih, Ok, List.mem_eraseDups, List.mem_flatMap]
    constructor
    · rintro ⟨h1, h2⟩ st hst
      refine ⟨?_, fun st' h => h2 st' ⟨st, hst, h⟩⟩
      rintro ⟨rfl, rfl⟩
      simp [hst] at h1
    · intro h
      refine ⟨?_, fun st' ⟨st, hst, h'⟩ => (h st hst).2 st' h'⟩
      simp only [Bool.not_eq_true', Bool.and_eq_false_iff, decide_eq_false_iff_not]
      by_cases hk : k = .parenL
      · right
        rw [← Bool.not_eq_true, List.contains_iff_mem]
        exact fun hm => (h _ hm).1 ⟨rfl, hk⟩
      · exact .inl hk

instance (st : TypeState) (ks : List Kind) : Decidable (Ok st ks) :=
  decidable_of_iff (okRun [st] ks = true) (by rw [okRun_iff]; simp)

/-- Without a `(` nothing can go wrong. -/
theorem Ok.of_no_paren : ∀ (ks : List Kind) (st : TypeState), Kind.parenL ∉ ks → Ok st ks
  | [], _, _ => trivial
  | k :: ks, st, h => by
    simp only [List.mem_cons, not_or] at h
    exact ⟨fun hh => h.1 hh.2.symm, fun st' _ => Ok.of_no_paren ks st' h.2⟩

end Goast
