import Verif.Props.Sections
import Verif.Props.SurviveCheck

/-!
# C65, C66: a program that computes the labels and the table of contents
-/

namespace Goast
open Heap

/-! ## The program -/

mutual

/-- Parameters up to the `)` that closes them: the labelled parameters, the `)` and what follows.  (Third argument: fuel.) -/
def labelParams (nk tk : Kind) : Nat → List Token → Option (List Token × Token × List Token)
  | 0, _ => none
  | _, [] => none
  | f + 1, t :: ts =>
    if t.1 = .parenR then some ([], t, ts)
    else if isBlank t ∨ t.1 = .comma ∨ t.1 = .parenL then (labelParams nk tk f ts).map fun r => (t :: r.1, r.2)
    else
      match labelParam nk tk (decide (relevant (t :: ts) ≠ 1)) f (t :: ts) with
      | some (p :: ps, rest) => (labelParams nk tk f rest).map fun r => (p :: ps ++ r.1, r.2)
      | _ => none

/-- One parameter up to a comma or `)`: the labelled parameter and the rest. -/
def labelParam (nk tk : Kind) (pending : Bool) : Nat → List Token → Option (List Token × List Token)
  | 0, _ => none
  | _, [] => none
  | f + 1, t :: ts =>
    if t.1 = .comma ∨ t.1 = .parenR then some ([], t :: ts)
    else if t.1 = .raw then (labelParam nk tk false f ts).map fun r => ((if pending then nk else tk, t.2) :: r.1, r.2)
    else if isPlain t then (labelParam nk tk pending f ts).map fun r => (t :: r.1, r.2)
    else if t.1 = .squareL then
      match closeAt .squareL .squareR Prod.fst 0 ts with
      | none => none
      | some (inner, u, rest) => (labelParam nk tk pending f rest).map fun r => (t :: (inner ++ u :: r.1), r.2)
    else if t.1 = .func_ ∧ nk = .paramName ∧ tk = .paramType then
      match ts with
      | [] => none
      | l :: ts =>
        if l.1 = .parenL then
          match labelParams nk tk f ts with
          | none => none
          | some (ps, u, rest) => (labelParam nk tk pending f rest).map fun r => (t :: l :: (ps ++ u :: r.1), r.2)
        else none
    else none

end

/-- Put tokens before a labelled signature. -/
def before (us : List Token) (r : Option (List Token × Bool × List Token)) : Option (List Token × Bool × List Token) :=
  r.map fun r => (us ++ r.1, r.2)

/-- Tokens of a result type without parentheses. -/
def inResult (u : Token) : Bool := decide (u.1 ≠ .newLine ∧ u.1 ≠ .space ∧ u.1 ≠ .curlyL ∧ u.1 ≠ .comment)

/-- A signature with labels, whether the parameters have been seen at its end, and what follows the end. -/
def labelSig : Nat → Bool → List Token → Option (List Token × Bool × List Token)
  | 0, _, _ => none
  | _, seen, [] => some ([], seen, [])
  | f + 1, seen, t :: ts =>
    if t.1 = .newLine ∧ seen then some ([], true, t :: ts)
    else if t.1 = .parenL then
      match labelParams .paramName .paramType f ts with
      | none => none
      | some (ps, u, rest) => before (t :: (ps ++ [u])) (labelSig f true rest)
    else if t.1 = .curlyL then
      match closeAt .curlyL .curlyR Prod.fst 0 ts with
      | none => none
      | some (inner, u, rest) => before (t :: (inner ++ [u])) (labelSig f seen rest)
    else if t.1 = .squareL then
      match closeAt .squareL .squareR Prod.fst 0 ts with
      | none => none
      | some (inner, u, rest) => before (t :: (inner ++ [u])) (labelSig f true rest)
    else if t.1 = .space ∧ seen then
      match ts.dropWhile (fun c => decide (c.1 = .comment)) with
      | [] => before (t :: ts.takeWhile fun c => decide (c.1 = .comment)) (labelSig f true [])
      | x :: xs =>
        if x.1 = .newLine ∨ x.1 = .space ∨ x.1 = .curlyL then before (t :: ts.takeWhile fun c => decide (c.1 = .comment)) (labelSig f true (x :: xs))
        else if ts.head?.map Prod.fst = some .comment then none
        else if x.1 = .parenL then
          match labelParams .paramName .paramType f xs with
          | none => none
          | some (ps, u, rest) => before (t :: x :: (ps ++ [u])) (labelSig f true rest)
        else if x.1 = .func_ then
          match xs with
          | [] => none
          | l :: xs =>
            if l.1 = .parenL then
              match labelParams .paramName .paramType f xs with
              | none => none
              | some (ps, u, rest) => before (t :: x :: l :: (ps ++ [u])) (labelSig f true rest)
            else none
        else
          if (xs.dropWhile inResult).head?.map Prod.fst = some .comment then none
          else before [t, (.paramType, x.2 ++ ((xs.takeWhile inResult).map Prod.snd).flatten)] (labelSig f true (xs.dropWhile inResult))
    else before [t] (labelSig f seen ts)

/-- A whole line of a struct with `n` names. -/
def labelRow : Nat → Nat → List Token → Option (List Token)
  | 0, _, _ => none
  | _, _, [] => some []
  | f + 1, n, t :: ts =>
    if t.1 = .raw then (labelRow f (n - 1) ts).map fun r => (if n ≠ 0 then .paramName else .paramType, t.2) :: r
    else if t.1 = .newLine then none
    else if t.1 = .func_ then
      match ts with
      | [] => none
      | l :: ts =>
        if l.1 = .parenL then
          match labelParams .paramName .paramType f ts with
          | none => none
          | some (ps, u, rest) => (labelRow f n rest).map fun r => t :: l :: (ps.map typeWord ++ u :: r)
        else none
    else (labelRow f n ts).map fun r => t :: r

/-- How many names separated by commas there are, and what follows. -/
def countNames : Nat → List Token → Option (Nat × List Token)
  | 0, _ => none
  | _, [] => none
  | f + 1, t :: ts =>
    if t.1 = .raw then
      match ts.dropWhile (fun x => decide (isGap x)) with
      | [] => some (1, ts)
      | c :: cs => if c.1 = .comma then (countNames f (cs.dropWhile fun x => decide (isGap x))).map fun r => (r.1 + 1, r.2) else some (1, ts)
    else none

/-- How many names a line of a struct declares. -/
def countField (us : List Token) : Option Nat :=
  match us.dropWhile (fun x => decide (isGap x)) with
  | [] => some 0
  | t :: ts =>
    if t.1 = .raw then
      match countNames (ts.length + 1) (t :: ts) with
      | some (n, x :: ty) =>
        if x.1 = .space then if readCommaFree ty then some n else none
        else if !(decide (x.1 = .raw ∨ x.1 = .comma ∨ isGap x)) && ts.length == ty.length + 1 then some 0 else none
      | some (_, []) => if ts.isEmpty then some 0 else none
      | none => none
    else if t.1 != .comma then some 0 else none

/-- The lines of a struct with labels, its `}` and what follows. -/
def labelFields : Nat → List Token → Option (List Token × Token × List Token)
  | 0, _ => none
  | _, [] => none
  | f + 1, t :: ts =>
    if t.1 = .curlyR then some ([], t, ts)
    else if t.1 = .newLine ∨ t.1 = .comment ∨ t.1 = .curlyL then (labelFields f ts).map fun r => (t :: r.1, r.2)
    else
      match readRow (ts.length + 1) ts with
      | some (us, u, rest) =>
        match countField (t :: us) with
        | some n =>
          match labelRow (us.length + 2) n (t :: us) with
          | some us' => (labelFields f rest).map fun r => (us' ++ u :: r.1, r.2)
          | none => none
        | none => none
      | none => none

/-- The lines of an interface with labels, its `}` and what follows. -/
def labelMethods : Nat → List Token → Option (List Token × Token × List Token)
  | 0, _ => none
  | _, [] => none
  | f + 1, t :: ts =>
    if t.1 = .curlyR then some ([], t, ts)
    else if isBlank t ∨ t.1 = .curlyL then (labelMethods f ts).map fun r => (t :: r.1, r.2)
    else if t.1 = .raw ∧ ts.head?.map Prod.fst = some .parenL then
      match labelSig (ts.length + 1) false ts with
      | some (ts', true, u :: M) => (labelMethods f M).map fun r => ((.funcName, t.2) :: (ts' ++ u :: r.1), r.2)
      | _ => none
    else
      let us := ts.takeWhile fun u => decide (u.1 ≠ .newLine)
      if (t :: us).all (fun x => decide (x.1 ≠ .curlyL ∧ x.1 ≠ .curlyR ∧ x.1 ≠ .parenL ∧ x.1 ≠ .parenR)) &&
          ((t :: us).countP (fun x => decide (x.1 = .squareL)) == (t :: us).countP (fun x => decide (x.1 = .squareR))) then
        match ts.dropWhile fun u => decide (u.1 ≠ .newLine) with
        | [] => none
        | u :: rest => (labelMethods f rest).map fun r => ((if t.1 = .raw then .typeName else t.1, t.2) :: (us ++ u :: r.1), r.2)
      else none

/-- The definition of a type with labels. -/
def labelDef : Nat → List Token → Option (List Token)
  | 0, _ => none
  | _, [] => some []
  | f + 1, t :: ts =>
    if isPassive t then (labelDef f ts).map fun r => t :: r
    else if t.1 = .squareL then
      match closeAt .squareL .squareR Prod.fst 0 ts with
      | none => none
      | some (inner, u, rest) => (labelDef f rest).map fun r => t :: (inner ++ u :: r)
    else if t.1 = .struct_ then
      let gap := ts.takeWhile fun x => decide (x.1 ≠ .curlyL)
      match ts.dropWhile fun x => decide (x.1 ≠ .curlyL) with
      | [] => none
      | o :: rest =>
        match labelFields f rest with
        | none => none
        | some (ts', u, M) => (labelDef f M).map fun r => t :: (gap ++ o :: (ts' ++ u :: r))
    else if t.1 = .interface_ then
      let gap := ts.takeWhile fun x => decide (x.1 ≠ .curlyL)
      match ts.dropWhile fun x => decide (x.1 ≠ .curlyL) with
      | [] => none
      | o :: rest =>
        match labelMethods f rest with
        | none => none
        | some (ts', u, M) => (labelDef f M).map fun r => t :: (gap ++ o :: (ts' ++ u :: r))
    else if t.1 = .raw then
      let us := ts.takeWhile fun x => decide (x.1 ≠ .newLine ∧ x.1 ≠ .parenL ∧ x.1 ≠ .curlyL ∧ x.1 ≠ .squareL ∧ x.1 ≠ .func_ ∧ x.1 ≠ .comment)
      let rest := ts.dropWhile fun x => decide (x.1 ≠ .newLine ∧ x.1 ≠ .parenL ∧ x.1 ≠ .curlyL ∧ x.1 ≠ .squareL ∧ x.1 ≠ .func_ ∧ x.1 ≠ .comment)
      let cs := rest.takeWhile fun x => decide (x.1 = .comment)
      let rest := rest.dropWhile fun x => decide (x.1 = .comment)
      if (rest.head?.map Prod.fst).getD .newLine = .newLine then
        (labelDef f rest).map fun r => (.paramType, t.2 ++ (us.map Prod.snd).flatten) :: (cs ++ r)
      else none
    else none

/-- The labels of a section. -/
def labelSection (ts : List Token) : Option (List Token) :=
  match ts with
  | [] => some []
  | t :: r =>
    if t.1 ≠ .func_ ∧ t.1 ≠ .type_ then some ts
    else
      match r with
      | s :: n :: r =>
        if t = (.func_, b!"func") ∧ s = (.space, b!" ") then
          if n.1 = .raw then (labelSig (r.length + 1) false r).map fun x => t :: s :: (.funcName, n.2) :: (x.1 ++ x.2.2)
          else if n = (.parenL, b!"(") then
            match labelParams .methodReceiverName .methodReceiverType (r.length + 1) r with
            | some (ps, u, s' :: n' :: r') =>
              if u = (.parenR, b!")") ∧ s' = (.space, b!" ") ∧ n'.1 = .raw ∧ ¬ CalledAtOnce (ts.map Prod.fst) then
                (labelSig (r'.length + 1) true r').map fun x => t :: s :: n :: (ps ++ u :: s' :: (.funcName, n'.2) :: (x.1 ++ x.2.2))
              else none
            | _ => none
          else none
        else if t = (.type_, b!"type") ∧ s = (.space, b!" ") ∧ n.1 = .raw then
          match r with
          | [] => none
          | b :: r =>
            if b = (.space, b!" ") then (labelDef (r.length + 1) r).map fun x => t :: s :: (.typeName, n.2) :: b :: x
            else if b.1 = .squareL then
              match closeAt .squareL .squareR Prod.fst 0 r with
              | some (inner, u, b' :: r') =>
                if b' = (.space, b!" ") then (labelDef (r'.length + 1) r').map fun x => t :: s :: (.typeName, n.2) :: b :: (inner ++ u :: b' :: x)
                else none
              | _ => none
            else none
        else none
      | _ => none

/-- The labels of several sections. -/
def labelSections : List (List Token) → Option (List (List Token))
  | [] => some []
  | g :: gs =>
    match labelSection g, labelSections gs with
    | some g', some gs' => some (g' :: gs')
    | _, _ => none

/-- What a section declares. -/
def readEntry (ts : List Token) : Option Entry :=
  match ts with
  | [] => none
  | t :: r =>
    if ¬ b!"func" <+: t.2 ∧ ¬ b!"type" <+: t.2 then some .other
    else
      match r with
      | s :: n :: r =>
        if t = (.func_, b!"func") ∧ s = (.space, b!" ") then
          if n.1 = .raw then some (.func n.2)
          else if n = (.parenL, b!"(") then
            match labelParams .methodReceiverName .methodReceiverType (r.length + 1) r with
            | some (ps, u, s' :: n' :: _) =>
              if u = (.parenR, b!")") ∧ s' = (.space, b!" ") ∧ n'.1 = .raw ∧ ¬ CalledAtOnce (ts.map Prod.fst) then
                (ps.find? fun t => decide (t.1 = .methodReceiverType)).map fun x => .method x.2 n'.2
              else none
            | _ => none
          else none
        else if t = (.type_, b!"type") ∧ s = (.space, b!" ") ∧ n.1 = .raw then some (.type n.2)
        else none
      | _ => none

/-- What several sections declare. -/
def readEntries : List (List Token) → Option (List Entry)
  | [] => some []
  | g :: gs =>
    match readEntry g, readEntries gs with
    | some e, some es => some (e :: es)
    | _, _ => none

/-! ## It is right -/

theorem relevant_before : ∀ {a rest : List Token}, (∃ x, rest.head? = some x ∧ (x.1 = .comma ∨ x.1 = .parenR)) → relevant (a ++ rest) = relevant a
  | [], rest, ⟨x, hx, h⟩ => by
    cases rest with
    | nil => cases hx
    | cons y rest => cases hx; simp [relevant, h]
  | t :: a, rest, h => by
    rw [List.cons_append, relevant, relevant, relevant_before h]

theorem labelParams_sound {nk tk : Kind} : ∀ (f : Nat),
    (∀ {ts ps' u rest}, labelParams nk tk f ts = some (ps', u, rest) → ∃ ps, ts = ps ++ u :: rest ∧ u.1 = .parenR ∧ Params nk tk ps ps') ∧
    (∀ {pending ts ps' rest}, labelParam nk tk pending f ts = some (ps', rest) → ∃ ps, ts = ps ++ rest ∧
      (∃ x, rest.head? = some x ∧ (x.1 = .comma ∨ x.1 = .parenR)) ∧ Param nk tk pending ps ps')
  | 0 => ⟨fun e => by simp [labelParams] at e, fun e => by simp [labelParam] at e⟩
  | f + 1 => by
    obtain ⟨ih1, ih2⟩ := labelParams_sound (nk := nk) (tk := tk) f
    refine ⟨?_, ?_⟩
    · intro ts ps u rest e
      cases ts with
      | nil => simp [labelParams] at e
      | cons t ts =>
        unfold labelParams at e
        split at e
        · rename_i h
          simp only [Option.some.injEq, Prod.mk.injEq] at e
          obtain ⟨rfl, rfl, rfl⟩ := e
          exact ⟨[], rfl, h, .nil⟩
        · split at e
          · rename_i h
            simp only [Option.map_eq_some_iff, Prod.mk.injEq] at e
            obtain ⟨⟨a, b, c⟩, e, rfl, rfl, rfl⟩ := e
            obtain ⟨ps, q1, q2, q3⟩ := ih1 e
            exact ⟨t :: ps, by rw [q1]; rfl, q2, .sep h q3⟩
          · rename_i h0 h
            split at e
            · rename_i p pt rest' e2
              simp only [Option.map_eq_some_iff, Prod.mk.injEq] at e
              obtain ⟨⟨a, b, c⟩, e, rfl, rfl, rfl⟩ := e
              obtain ⟨ps, q1, q2, q3⟩ := ih1 e
              obtain ⟨us, r1, hr, r3⟩ := ih2 e2
              have rel := relevant_before (a := us) hr
              obtain ⟨x, hx, hx'⟩ := hr
              rw [← r1] at rel
              rw [rel] at r3
              cases us with
              | nil =>
                cases r3
              | cons z us =>
                cases r1
                refine ⟨t :: us ++ ps, by rw [q1]; simp, q2, .param ?_ r3 ?_ q3⟩
                · grind
                · intro y hy
                  cases ps with
                  | nil => cases hy
                  | cons z a =>
                    rw [q1] at hx
                    cases hx
                    cases hy
                    rcases hx' with hx' | hx'
                    · exact hx'
                    · exfalso
                      cases q3 with
                      | sep h _ => rcases h with h | h | h <;> simp_all [isBlank]
                      | param h q _ _ =>
                        cases q with
                        | word h _ => rw [hx'] at h; cases h
                        | plain h _ => exact h.2.2.1 hx'
                        | square h _ _ => rw [hx'] at h; cases h
                        | func _ h _ _ _ _ => rw [hx'] at h; cases h
            · cases e
    · intro pending ts ps rest e
      cases ts with
      | nil => simp [labelParam] at e
      | cons t ts =>
        unfold labelParam at e
        split at e
        · rename_i h
          simp only [Option.some.injEq, Prod.mk.injEq] at e
          obtain ⟨rfl, rfl⟩ := e
          exact ⟨[], rfl, ⟨t, rfl, h⟩, .nil⟩
        · split at e
          · rename_i h
            simp only [Option.map_eq_some_iff, Prod.mk.injEq] at e
            obtain ⟨⟨a, b⟩, e, rfl, rfl⟩ := e
            obtain ⟨ps, q1, q2, q3⟩ := ih2 e
            exact ⟨t :: ps, by rw [q1]; rfl, q2, .word h q3⟩
          · split at e
            · rename_i h
              simp only [Option.map_eq_some_iff, Prod.mk.injEq] at e
              obtain ⟨⟨a, b⟩, e, rfl, rfl⟩ := e
              obtain ⟨ps, q1, q2, q3⟩ := ih2 e
              exact ⟨t :: ps, by rw [q1]; rfl, q2, .plain h q3⟩
            · split at e
              · rename_i h
                split at e
                · cases e
                · rename_i inner u rest' hc
                  simp only [Option.map_eq_some_iff, Prod.mk.injEq] at e
                  obtain ⟨⟨a, b⟩, e, rfl, rfl⟩ := e
                  obtain ⟨ps, q1, q2, q3⟩ := ih2 e
                  have cs := closeAt_split hc
                  exact ⟨t :: (inner ++ u :: ps), by rw [cs.1, q1]; simp, q2, .square h (cs.2 ps) q3⟩
              · split at e
                · rename_i h
                  split at e
                  · cases e
                  · rename_i l ts'
                    split at e
                    · rename_i hl
                      split at e
                      · cases e
                      · rename_i ps1 u rest' e1
                        simp only [Option.map_eq_some_iff, Prod.mk.injEq] at e
                        obtain ⟨⟨a, b⟩, e, rfl, rfl⟩ := e
                        obtain ⟨ps, q1, q2, q3⟩ := ih2 e
                        obtain ⟨pp, r1, r2, r3⟩ := ih1 e1
                        exact ⟨t :: l :: (pp ++ u :: ps), by rw [r1, q1]; simp, q2, .func h.2 h.1 hl r2 r3 q3⟩
                    · cases e
                · cases e

theorem takeDrop {α : Type} (p : α → Bool) (l : List α) :
    l = l.takeWhile p ++ l.dropWhile p ∧ (∀ x ∈ l.takeWhile p, p x = true) ∧ ∀ x, (l.dropWhile p).head? = some x → p x = false := by
  refine ⟨List.takeWhile_append_dropWhile.symm, fun x hx => ?_, fun x hx => ?_⟩
  · exact List.all_eq_true.1 List.all_takeWhile x hx
  · have := List.head?_dropWhile_not p l
    rw [hx] at this
    simpa using this

theorem before_some {us ts' : List Token} {fin : Bool} {R : List Token} {r : Option (List Token × Bool × List Token)}
    (e : before us r = some (ts', fin, R)) : ∃ vs, r = some (vs, fin, R) ∧ ts' = us ++ vs := by
  simp only [before, Option.map_eq_some_iff, Prod.mk.injEq] at e
  obtain ⟨⟨a, b, c⟩, e, rfl, rfl, rfl⟩ := e
  exact ⟨a, e, rfl⟩

theorem labelSig_sound : ∀ (f : Nat) {seen fin : Bool} {ts ts' R : List Token}, labelSig f seen ts = some (ts', fin, R) →
    Sig R fin seen ts ts' ∧ DeclEnd fin R
  | 0, _, _, _, _, _, e => by simp [labelSig] at e
  | f + 1, seen, fin, [], ts', R, e => by
    simp only [labelSig, Option.some.injEq, Prod.mk.injEq] at e
    obtain ⟨rfl, rfl, rfl⟩ := e
    exact ⟨.stop, .inl rfl⟩
  | f + 1, seen, fin, t :: ts, ts', R, e => by
    have prm := fun {ts ps u rest} => (labelParams_sound (nk := .paramName) (tk := .paramType) f).1 (ts := ts) (ps' := ps) (u := u) (rest := rest)
    rw [labelSig] at e
    by_cases h : t.1 = .newLine ∧ seen
    · rw [if_pos h] at e
      simp only [Option.some.injEq, Prod.mk.injEq] at e
      obtain ⟨rfl, rfl, rfl⟩ := e
      rw [h.2]
      exact ⟨.stop, .inr ⟨rfl, t, rfl, h.1⟩⟩
    · have hnl := h
      rw [if_neg h] at e
      by_cases h : t.1 = .parenL
      · rw [if_pos h] at e
        split at e
        · cases e
        · rename_i ps u rest er
          obtain ⟨pp, r1, r2, r3⟩ := prm er
          replace e := before_some e
          obtain ⟨vs, e, rfl⟩ := e
          obtain ⟨s, d⟩ := labelSig_sound f e
          rw [r1]
          exact ⟨by simpa using Sig.parens h r2 r3 s, d⟩
      · have hpl := h
        rw [if_neg h] at e
        by_cases h : t.1 = .curlyL
        · rw [if_pos h] at e
          split at e
          · cases e
          · rename_i inner u rest hc
            replace e := before_some e
            obtain ⟨vs, e, rfl⟩ := e
            obtain ⟨s, d⟩ := labelSig_sound f e
            exact ⟨by simpa using Sig.body h hc s, d⟩
        · have hcl := h
          rw [if_neg h] at e
          by_cases h : t.1 = .squareL
          · rw [if_pos h] at e
            split at e
            · cases e
            · rename_i inner u rest hc
              replace e := before_some e
              obtain ⟨vs, e, rfl⟩ := e
              obtain ⟨s, d⟩ := labelSig_sound f e
              exact ⟨by simpa using Sig.square h hc s, d⟩
          · have hsq := h
            rw [if_neg h] at e
            by_cases h : t.1 = .space ∧ seen
            · rw [if_pos h] at e
              obtain ⟨hsp, rfl⟩ := h
              obtain ⟨hcs, hc, hd⟩ := takeDrop (fun c : Token => decide (c.1 = .comment)) ts
              generalize ts.takeWhile (fun c : Token => decide (c.1 = .comment)) = cs at *
              have hc : ∀ c ∈ cs, c.1 = .comment := fun c h => by simpa using hc c h
              split at e
              · rename_i hz
                rw [hz] at hcs
                replace e := before_some e
                obtain ⟨vs, e, rfl⟩ := e
                obtain ⟨s, d⟩ := labelSig_sound f e
                rw [hcs]
                exact ⟨by simpa using Sig.space hsp hc (by simp) s, d⟩
              · rename_i x xs hz
                rw [hz] at hcs
                split at e
                · rename_i hx
                  replace e := before_some e
                  obtain ⟨vs, e, rfl⟩ := e
                  obtain ⟨s, d⟩ := labelSig_sound f e
                  rw [hcs]
                  exact ⟨Sig.space hsp hc (by simpa using hx) s, d⟩
                · rename_i hx
                  split at e
                  · cases e
                  · rename_i hno
                    have : cs = [] := by
                      cases cs with
                      | nil => rfl
                      | cons c cs =>
                        exfalso
                        apply hno
                        rw [hcs]
                        simp [hc c (by simp)]
                    subst this
                    rw [List.nil_append] at hcs
                    subst hcs
                    split at e
                    · rename_i h
                      split at e
                      · cases e
                      · rename_i ps u rest er
                        obtain ⟨pp, r1, r2, r3⟩ := prm er
                        replace e := before_some e
                        obtain ⟨vs, e, rfl⟩ := e
                        obtain ⟨s, d⟩ := labelSig_sound f e
                        rw [r1]
                        exact ⟨by simpa using Sig.results hsp h r2 r3 s, d⟩
                    · rename_i hpl'
                      split at e
                      · rename_i h
                        split at e
                        · cases e
                        · rename_i l xs'
                          split at e
                          · rename_i hl
                            split at e
                            · cases e
                            · rename_i ps u rest er
                              obtain ⟨pp, r1, r2, r3⟩ := prm er
                              replace e := before_some e
                              obtain ⟨vs, e, rfl⟩ := e
                              obtain ⟨s, d⟩ := labelSig_sound f e
                              rw [r1]
                              exact ⟨by simpa using Sig.func hsp h hl r2 r3 s, d⟩
                          · cases e
                      · rename_i hf
                        split at e
                        · cases e
                        · rename_i hno'
                          obtain ⟨hus, hu, hd'⟩ := takeDrop inResult xs
                          generalize xs.takeWhile inResult = us at *
                          generalize xs.dropWhile inResult = ws at *
                          replace e := before_some e
                          obtain ⟨vs, e, rfl⟩ := e
                          obtain ⟨s, d⟩ := labelSig_sound f e
                          have hxc : x.1 ≠ .comment := by
                            have := hd x (by rw [hz]; rfl)
                            simpa using this
                          rw [hus, ← List.cons_append]
                          refine ⟨.result hsp ⟨hpl', hf⟩ ?_ ?_ s, d⟩
                          · intro u hu'
                            rcases List.mem_cons.1 hu' with rfl | hu'
                            · grind
                            · simpa [inResult] using hu u hu'
                          · intro y hy
                            have := hd' y hy
                            rw [hy] at hno'
                            simp only [inResult, decide_eq_false_iff_not] at this
                            simp only [Option.map_some, Option.some.injEq] at hno'
                            grind
            · have hsp := h
              rw [if_neg h] at e
              replace e := before_some e
              obtain ⟨vs, e, rfl⟩ := e
              obtain ⟨s, d⟩ := labelSig_sound f e
              refine ⟨.pass hpl hcl hsq ?_ ?_ s, d⟩
              · intro hh; cases seen
                · rfl
                · exact absurd ⟨hh, rfl⟩ hnl
              · intro hh; cases seen
                · rfl
                · exact absurd ⟨hh, rfl⟩ hsp

theorem labelRow_sound : ∀ (f : Nat) {n : Nat} {us us' : List Token}, labelRow f n us = some us' → Row n us us'
  | 0, _, _, _, e => by simp [labelRow] at e
  | f + 1, n, [], _, e => by simp [labelRow] at e; subst e; exact .nil
  | f + 1, n, t :: us, us', e => by
    unfold labelRow at e
    split at e
    · rename_i h
      replace e := Option.map_eq_some_iff.1 e
      obtain ⟨r, e, rfl⟩ := e
      exact .word h (labelRow_sound f e)
    · rename_i hr
      split at e
      · cases e
      · rename_i hnl
        split at e
        · rename_i h
          split at e
          · cases e
          · rename_i l ts
            split at e
            · rename_i hl
              split at e
              · cases e
              · rename_i ps u rest er
                replace e := Option.map_eq_some_iff.1 e
                obtain ⟨r, e, rfl⟩ := e
                obtain ⟨pp, r1, r2, r3⟩ := (labelParams_sound f).1 er
                rw [r1]
                exact .func h hl r2 r3 (labelRow_sound f e)
            · cases e
        · rename_i hf
          replace e := Option.map_eq_some_iff.1 e
          obtain ⟨r, e, rfl⟩ := e
          exact .keep ⟨hr, hnl, hf⟩ (labelRow_sound f e)

theorem countNames_sound : ∀ (f : Nat) {n : Nat} {ts rest : List Token}, countNames f ts = some (n, rest) → ∃ ns, Names n ns ∧ ts = ns ++ rest ∧
    (n = 1 ∨ rest.length + 1 < ts.length)
  | 0, _, _, _, e => by simp [countNames] at e
  | f + 1, _, [], _, e => by simp [countNames] at e
  | f + 1, n, t :: ts, rest, e => by
    unfold countNames at e
    split at e
    · rename_i h
      split at e
      · simp only [Option.some.injEq, Prod.mk.injEq] at e
        obtain ⟨rfl, rfl⟩ := e
        exact ⟨[t], .one h, rfl, .inl rfl⟩
      · rename_i c cs hd
        split at e
        · rename_i hc
          obtain ⟨bs, e1, e2, _⟩ := dropWhile_split (fun x : Token => decide (isGap x)) ts
          obtain ⟨gs, e3, e4, _⟩ := dropWhile_split (fun x : Token => decide (isGap x)) cs
          simp only [Option.map_eq_some_iff, Prod.mk.injEq] at e
          obtain ⟨⟨a, b⟩, e, rfl, rfl⟩ := e
          obtain ⟨ns, q1, q2, q3⟩ := countNames_sound f e
          refine ⟨t :: (bs ++ c :: (gs ++ ns)), .more h (fun x hx => by simpa using e2 x hx) hc (fun x hx => by simpa using e4 x hx) q1, ?_, .inr ?_⟩
          · rw [e1, hd, e3, q2]; simp
          · rw [e1, hd, e3, q2]; simp; omega
        · simp only [Option.some.injEq, Prod.mk.injEq] at e
          obtain ⟨rfl, rfl⟩ := e
          exact ⟨[t], .one h, rfl, .inl rfl⟩
    · cases e

theorem countField_sound {n : Nat} {us : List Token} (e : countField us = some n) : Field n us := by
  unfold countField at e
  obtain ⟨bs, e1, e2, e3⟩ := dropWhile_split (fun x : Token => decide (isGap x)) us
  have hb : ∀ x ∈ bs, isGap x := fun x hx => by simpa using e2 x hx
  split at e
  · rename_i hd
    rw [hd, List.append_nil] at e1
    rw [e1]
    cases e
    exact .blank hb
  · rename_i t ts hd
    rw [hd] at e1
    have hg : ¬ isGap t := by simpa using e3 t (by rw [hd]; rfl)
    rw [e1]
    split at e
    · rename_i hr
      split at e
      · rename_i m x ty hn
        obtain ⟨ns, q1, q2, q3⟩ := countNames_sound _ hn
        split at e
        · rename_i hx
          split at e
          · rename_i hc
            cases e
            rw [q2]
            exact .named hb q1 hx (readCommaFree_sound hc)
          · cases e
        · rename_i hx
          split at e
          · rename_i he
            simp only [Bool.and_eq_true, Bool.not_eq_true', decide_eq_false_iff_not, beq_iff_eq, not_or] at he
            cases e
            have : ns.length = 1 := by
              have := congrArg List.length q2
              simp only [List.length_cons, List.length_append] at this
              omega
            obtain ⟨y, rfl⟩ := List.length_eq_one_iff.1 this
            cases q2
            exact .embedded hb hr (by simpa using he.1)
          · cases e
      · rename_i hn
        cases ts with
        | nil => cases e; exact .embedded hb hr (by simp)
        | cons _ _ => cases e
      · cases e
    · rename_i hr
      split at e
      · rename_i he
        cases e
        exact .other hb ⟨hr, by simpa using he, hg⟩
      · cases e

theorem labelFields_sound : ∀ (f : Nat) {ts ts' : List Token} {u : Token} {M : List Token}, labelFields f ts = some (ts', u, M) →
    u.1 = .curlyR ∧ Fields (u :: M) ts ts'
  | 0, _, _, _, _, e => by simp [labelFields] at e
  | f + 1, [], _, _, _, e => by simp [labelFields] at e
  | f + 1, t :: ts, ts', u, M, e => by
    unfold labelFields at e
    split at e
    · rename_i h
      simp only [Option.some.injEq, Prod.mk.injEq] at e
      obtain ⟨rfl, rfl, rfl⟩ := e
      exact ⟨h, .stop⟩
    · rename_i hcr
      split at e
      · rename_i h
        simp only [Option.map_eq_some_iff, Prod.mk.injEq] at e
        obtain ⟨⟨a, b, c⟩, e, rfl, rfl, rfl⟩ := e
        obtain ⟨q1, q2⟩ := labelFields_sound f e
        exact ⟨q1, .skip h q2⟩
      · rename_i hsk
        split at e
        · rename_i us v rest er
          split at e
          · rename_i n en
            split at e
            · rename_i us' el
              simp only [Option.map_eq_some_iff, Prod.mk.injEq] at e
              obtain ⟨⟨a, b, c⟩, e, rfl, rfl, rfl⟩ := e
              obtain ⟨q1, q2⟩ := labelFields_sound f e
              obtain ⟨r1, r2, _⟩ := readRow_sound _ er
              refine ⟨q1, ?_⟩
              rw [r1, ← List.cons_append]
              exact .line ⟨by grind, by grind, hcr⟩ (countField_sound en) (labelRow_sound _ el) r2 q2
            · cases e
          · cases e
        · cases e

theorem labelMethods_sound : ∀ (f : Nat) {ts ts' : List Token} {u : Token} {M : List Token}, labelMethods f ts = some (ts', u, M) →
    u.1 = .curlyR ∧ Methods (u :: M) ts ts'
  | 0, _, _, _, _, e => by simp [labelMethods] at e
  | f + 1, [], _, _, _, e => by simp [labelMethods] at e
  | f + 1, t :: ts, ts', u, M, e => by
    unfold labelMethods at e
    split at e
    · rename_i h
      simp only [Option.some.injEq, Prod.mk.injEq] at e
      obtain ⟨rfl, rfl, rfl⟩ := e
      exact ⟨h, .stop⟩
    · rename_i hcr
      split at e
      · rename_i h
        simp only [Option.map_eq_some_iff, Prod.mk.injEq] at e
        obtain ⟨⟨a, b, c⟩, e, rfl, rfl, rfl⟩ := e
        obtain ⟨q1, q2⟩ := labelMethods_sound f e
        exact ⟨q1, .skip h q2⟩
      · rename_i hsk
        split at e
        · rename_i h
          split at e
          · rename_i sg' v M' er
            simp only [Option.map_eq_some_iff, Prod.mk.injEq] at e
            obtain ⟨⟨a, b, c⟩, e, rfl, rfl, rfl⟩ := e
            obtain ⟨sg, dn⟩ := labelSig_sound _ er
            obtain ⟨q1, q2⟩ := labelMethods_sound f e
            cases ts with
            | nil => simp at h
            | cons p ts =>
              have hv : v.1 = .newLine := by
                rcases dn with dn | ⟨_, y, hy, hy'⟩
                · cases dn
                · cases hy; exact hy'
              exact ⟨q1, .method h.1 (by simpa using h.2) hv sg q2⟩
          · cases e
        · rename_i hm
          simp only [] at e
          split at e
          · rename_i hall
            split at e
            · cases e
            · rename_i v rest hd
              simp only [Option.map_eq_some_iff, Prod.mk.injEq] at e
              obtain ⟨⟨a, b, c⟩, e, rfl, rfl, rfl⟩ := e
              obtain ⟨q1, q2⟩ := labelMethods_sound f e
              obtain ⟨e1, hu, hv⟩ := takeDrop (fun u : Token => decide (u.1 ≠ .newLine)) ts
              have hv : v.1 = .newLine := by
                have := hv v (by rw [hd]; rfl)
                simpa using this
              rw [hd] at e1
              have hu : ∀ x ∈ ts.takeWhile (fun u => decide (u.1 ≠ .newLine)), x.1 ≠ .newLine := fun x hx => by
                have := hu x hx
                simpa using this
              generalize ts.takeWhile (fun u => decide (u.1 ≠ .newLine)) = us at *
              simp only [Bool.and_eq_true, List.all_eq_true, decide_eq_true_eq, beq_iff_eq] at hall
              rw [e1, ← List.cons_append]
              refine ⟨q1, .embedded (by grind) (fun x hx => ⟨?_, hall.1 x hx⟩) hall.2 hv q2⟩
              rcases List.mem_cons.1 hx with rfl | hx
              · intro h; exact hsk (.inl (.inr (.inr (.inl h))))
              · exact hu x hx
          · cases e

theorem labelDef_sound : ∀ (f : Nat) {ts ts' : List Token}, labelDef f ts = some ts' → Def [] ts ts'
  | 0, _, _, e => by simp [labelDef] at e
  | f + 1, [], _, e => by simp [labelDef] at e; subst e; exact .stop
  | f + 1, t :: ts, ts', e => by
    unfold labelDef at e
    split at e
    · rename_i h
      replace e := Option.map_eq_some_iff.1 e
      obtain ⟨r, e, rfl⟩ := e
      exact .pass h (labelDef_sound f e)
    · split at e
      · rename_i h
        split at e
        · cases e
        · rename_i inner u rest hc
          replace e := Option.map_eq_some_iff.1 e
          obtain ⟨r, e, rfl⟩ := e
          exact .square h hc (labelDef_sound f e)
      · split at e
        · rename_i h
          simp only [] at e
          split at e
          · cases e
          · rename_i o rest hd
            split at e
            · cases e
            · rename_i fs u M er
              replace e := Option.map_eq_some_iff.1 e
              obtain ⟨r, e, rfl⟩ := e
              obtain ⟨e1, e2, e3⟩ := takeDrop (fun x : Token => decide (x.1 ≠ .curlyL)) ts
              obtain ⟨hu, fd⟩ := labelFields_sound f er
              have ho := e3 o (by rw [hd]; rfl)
              rw [hd] at e1
              generalize ts.takeWhile (fun x : Token => decide (x.1 ≠ .curlyL)) = gap at *
              rw [e1]
              exact .struct h (fun x hx => by simpa using e2 x hx) (by simpa using ho) hu fd (labelDef_sound f e)
        · split at e
          · rename_i h
            simp only [] at e
            split at e
            · cases e
            · rename_i o rest hd
              split at e
              · cases e
              · rename_i fs u M er
                replace e := Option.map_eq_some_iff.1 e
                obtain ⟨r, e, rfl⟩ := e
                obtain ⟨e1, e2, e3⟩ := takeDrop (fun x : Token => decide (x.1 ≠ .curlyL)) ts
                obtain ⟨hu, fd⟩ := labelMethods_sound f er
                have ho := e3 o (by rw [hd]; rfl)
                rw [hd] at e1
                generalize ts.takeWhile (fun x : Token => decide (x.1 ≠ .curlyL)) = gap at *
                rw [e1]
                exact .interface h (fun x hx => by simpa using e2 x hx) (by simpa using ho) hu fd (labelDef_sound f e)
          · split at e
            · rename_i h
              simp only [] at e
              split at e
              · rename_i hn
                replace e := Option.map_eq_some_iff.1 e
                obtain ⟨r, e, rfl⟩ := e
                obtain ⟨e1, e2, _⟩ := takeDrop (fun x : Token => decide (x.1 ≠ .newLine ∧ x.1 ≠ .parenL ∧ x.1 ≠ .curlyL ∧ x.1 ≠ .squareL ∧ x.1 ≠ .func_ ∧ x.1 ≠ .comment)) ts
                generalize ts.takeWhile (fun x : Token => decide (x.1 ≠ .newLine ∧ x.1 ≠ .parenL ∧ x.1 ≠ .curlyL ∧ x.1 ≠ .squareL ∧ x.1 ≠ .func_ ∧ x.1 ≠ .comment)) = us at *
                generalize ts.dropWhile (fun x : Token => decide (x.1 ≠ .newLine ∧ x.1 ≠ .parenL ∧ x.1 ≠ .curlyL ∧ x.1 ≠ .squareL ∧ x.1 ≠ .func_ ∧ x.1 ≠ .comment)) = ws at *
                obtain ⟨e3, e4, _⟩ := takeDrop (fun x : Token => decide (x.1 = .comment)) ws
                generalize ws.takeWhile (fun x : Token => decide (x.1 = .comment)) = cs at *
                generalize ws.dropWhile (fun x : Token => decide (x.1 = .comment)) = vs at *
                rw [e1, e3]
                refine .word h (fun x hx => by simpa using e2 x hx) (fun x hx => by simpa using e4 x hx) ?_ (labelDef_sound f e)
                intro x hx
                rw [hx] at hn
                simpa using hn
              · cases e
            · cases e

/-- **C65** The program is right: the labels it computes are those of the specification. -/
theorem C65_check {g g' : List Token} (e : labelSection g = some g') : Labelled g g' := by
  unfold labelSection at e
  split at e
  · cases e; exact .other (by simp)
  · rename_i t r
    split at e
    · rename_i h
      cases e
      exact .other (by simpa using h)
    · split at e
      · rename_i s n r
        split at e
        · rename_i h
          obtain ⟨rfl, rfl⟩ := h
          split at e
          · rename_i hn
            obtain ⟨⟨ts', fin, R⟩, er, rfl⟩ := Option.map_eq_some_iff.1 e
            obtain ⟨sg, d⟩ := labelSig_sound _ er
            obtain ⟨k, name⟩ := n
            cases hn
            exact .func sg d
          · split at e
            · rename_i hn
              subst hn
              split at e
              · rename_i ps u s' n' r' er
                split at e
                · rename_i hh
                  obtain ⟨rfl, rfl, hn, hc⟩ := hh
                  obtain ⟨⟨ts', fin, R⟩, er', rfl⟩ := Option.map_eq_some_iff.1 e
                  obtain ⟨sg, d⟩ := labelSig_sound _ er'
                  obtain ⟨pp, r1, _, r3⟩ := (labelParams_sound (nk := .methodReceiverName) (tk := .methodReceiverType) _).1 er
                  obtain ⟨k, name⟩ := n'
                  cases hn
                  rw [r1] at hc ⊢
                  exact .method hc r3 sg d
                · cases e
              · cases e
            · cases e
        · split at e
          · rename_i h
            obtain ⟨rfl, rfl, hn⟩ := h
            obtain ⟨k, name⟩ := n
            cases hn
            split at e
            · cases e
            · rename_i b r
              split at e
              · rename_i hb
                subst hb
                obtain ⟨ts', er, rfl⟩ := Option.map_eq_some_iff.1 e
                exact .type (tp := []) .none (labelDef_sound _ er)
              · split at e
                · rename_i hb
                  split at e
                  · rename_i inner u b' r' hc
                    split at e
                    · rename_i hb'
                      subst hb'
                      obtain ⟨ts', er, rfl⟩ := Option.map_eq_some_iff.1 e
                      obtain ⟨c1, c2⟩ := closeAt_split hc
                      have := Labelled.type (name := name) (.some hb (c2 [])) (labelDef_sound _ er)
                      rw [c1]
                      simpa using this
                    · cases e
                  · cases e
                · cases e
          · cases e
      · cases e

theorem labelSections_sound : ∀ {gs gs' : List (List Token)}, labelSections gs = some gs' → LabelledAll gs gs'
  | [], _, e => by cases e; exact .nil
  | g :: gs, gs', e => by
    unfold labelSections at e
    split at e
    · rename_i e1 e2
      cases e
      exact .cons (C65_check e1) (labelSections_sound e2)
    · cases e

/-- **C66** The program is right: it reads what the section declares. -/
theorem C66_check {g : List Token} {en : Entry} (e : readEntry g = some en) : Declares g en := by
  unfold readEntry at e
  split at e
  · cases e
  · rename_i t r
    split at e
    · rename_i h
      cases e
      exact .other h.1 h.2
    · split at e
      · rename_i s n r
        split at e
        · rename_i h
          obtain ⟨rfl, rfl⟩ := h
          split at e
          · rename_i hn
            obtain ⟨k, name⟩ := n
            cases hn
            cases e
            exact .func
          · split at e
            · rename_i hn
              subst hn
              split at e
              · rename_i ps u s' n' r' er
                split at e
                · rename_i hh
                  obtain ⟨rfl, rfl, hn, hc⟩ := hh
                  obtain ⟨x, ex, rfl⟩ := Option.map_eq_some_iff.1 e
                  obtain ⟨pp, r1, _, r3⟩ := (labelParams_sound (nk := .methodReceiverName) (tk := .methodReceiverType) _).1 er
                  obtain ⟨k, name⟩ := n'
                  obtain ⟨k', typ⟩ := x
                  cases hn
                  rw [List.find?_eq_some_iff_append] at ex
                  obtain ⟨hk, as, bs, rfl, ha⟩ := ex
                  have hk : k' = .methodReceiverType := by simpa using hk
                  subst hk
                  rw [r1] at hc ⊢
                  exact .method hc r3 ⟨as, bs, rfl, fun t ht => by simpa using ha t ht⟩
                · cases e
              · cases e
            · cases e
        · split at e
          · rename_i h
            obtain ⟨rfl, rfl, hn⟩ := h
            obtain ⟨k, name⟩ := n
            cases hn
            cases e
            exact .type
          · cases e
      · cases e

theorem readEntries_sound : ∀ {gs : List (List Token)} {es : List Entry}, readEntries gs = some es → DeclaresAll gs es
  | [], _, e => by cases e; exact .nil
  | g :: gs, es, e => by
    unfold readEntries at e
    split at e
    · rename_i e1 e2
      cases e
      exact .cons (C66_check e1) (readEntries_sound e2)
    · cases e

/-- **C65** If the program labels all sections of a text, `ParseScope` gives exactly these labels. -/
theorem C65_program {ord : Nat → List (Bytes × Ext)} {h : Heap} (ho : MapOrder ord) (w : WF h) (ac : Acyclic h) {startLine : Int} {text : Bytes}
    {gs' : List (List Token)} (e : labelSections (sectionsOf startLine text).2 = some gs') :
    ∃ h' scs lss, parseScopeOrd ord h startLine text = some (h', scs) ∧ ScopeNodes h' scs lss ∧
      lss.map (List.map fun a => (h'.kind (some a), h'.text (some a))) = gs' :=
  C65_all ho w ac (labelSections_sound e)

/-- **C66** If the program reads what all sections of a text declare, that is what the getters say. -/
theorem C66_program {ord : Nat → List (Bytes × Ext)} {h : Heap} (ho : MapOrder ord) (w : WF h) (ac : Acyclic h) {startLine : Int} {text : Bytes}
    {es : List Entry} (e : readEntries (sectionsOf startLine text).2 = some es) :
    ∃ h' scs, parseScopeOrd ord h startLine text = some (h', scs) ∧ scs.map (ScopeRec.card h') = es.map fun en => some en.card :=
  C66_contents ho w ac (readEntries_sound e)

/-! ## Cases that meet the hypotheses -/

set_option maxRecDepth 1000000

/-- The table of contents of trie.go. -/
def trieEntries : List Entry :=
  [.other, .type b!"trie", .type b!"trie_", .method b!"*trie_" b!"AddText", .method b!"*trie_" b!"Insert", .method b!"*trie_" b!"FindText",
    .method b!"*trie_" b!"FindTextReversely", .method b!"*trie_" b!"FindByte", .method b!"*trie_" b!"FindByteReversely", .method b!"*trie_" b!"Value",
    .method b!"*trie_" b!"Next", .func b!"newTrie"]

/-- **C66** What the getters say about goast's own trie.go (the receiver is cut off at the type parameters). -/
theorem C66_trie_go {ord : Nat → List (Bytes × Ext)} {h : Heap} (ho : MapOrder ord) (w : WF h) (ac : Acyclic h) :
    ∃ h' scs, parseScopeOrd ord h 0 trieGo = some (h', scs) ∧ scs.map (ScopeRec.card h') = trieEntries.map fun en => some en.card :=
  C66_program ho w ac (by decide +kernel)

/-- The program labels all of trie.go and all of the file with comments. -/
example : (labelSections (sectionsOf 0 trieGo).2).isSome = true ∧ (labelSections (sectionsOf 0 commented).2).isSome = true ∧
    readEntries (sectionsOf 0 commented).2 = some [.other, .other, .other, .other, .type b!"S", .other, .type b!"I", .type b!"E", .other,
      .method b!"*S" b!"Get", .func b!"f"] := by decide +kernel

/-- The labels of a method, of a struct and of an interface. -/
example :
    labelSection (tokens b!"func (s *S) Get(k Key, n int) (T, error) {}\n") = some [(.func_, b!"func"), (.space, b!" "), (.parenL, b!"("),
      (.methodReceiverName, b!"s"), (.space, b!" "), (.methodReceiverType, b!"*S"), (.parenR, b!")"), (.space, b!" "), (.funcName, b!"Get"),
      (.parenL, b!"("), (.paramName, b!"k"), (.space, b!" "), (.paramType, b!"Key"), (.comma, b!","), (.space, b!" "), (.paramName, b!"n"),
      (.space, b!" "), (.basic, b!"int"), (.parenR, b!")"), (.space, b!" "), (.parenL, b!"("), (.paramType, b!"T"), (.comma, b!","),
      (.space, b!" "), (.paramType, b!"error"), (.parenR, b!")"), (.space, b!" "), (.curlyL, b!"{"), (.curlyR, b!"}"), (.newLine, b!"\n")] ∧
    labelSection (tokens b!"type S struct {\n\tA, B T\n}\n") = some [(.type_, b!"type"), (.space, b!" "), (.typeName, b!"S"), (.space, b!" "),
      (.struct_, b!"struct"), (.space, b!" "), (.curlyL, b!"{"), (.newLine, b!"\n"), (.tab, b!"\t"), (.paramName, b!"A"), (.comma, b!","),
      (.space, b!" "), (.paramName, b!"B"), (.space, b!" "), (.paramType, b!"T"), (.newLine, b!"\n"), (.curlyR, b!"}"), (.newLine, b!"\n")] ∧
    labelSection (tokens b!"type I interface {\n\tGet() T\n}\n") = some [(.type_, b!"type"), (.space, b!" "), (.typeName, b!"I"), (.space, b!" "),
      (.interface_, b!"interface"), (.space, b!" "), (.curlyL, b!"{"), (.newLine, b!"\n"), (.tab, b!"\t"), (.funcName, b!"Get"), (.parenL, b!"("),
      (.parenR, b!")"), (.space, b!" "), (.paramType, b!"T"), (.newLine, b!"\n"), (.curlyR, b!"}"), (.newLine, b!"\n")] := by decide +kernel

end Goast
