import Verif.Props.Survive

/-!
# C64: a program that recognises sections which survive
-/

namespace Goast
open Heap

/-! ## The program -/

mutual

/-- Parameters up to the `)` that closes them: the parameters, the `)` and what follows.  (First argument: fuel.) -/
def readParams (named : Bool) : Nat → List Token → Option (List Token × Token × List Token)
  | 0, _ => none
  | _, [] => none
  | f + 1, t :: ts =>
    if t.1 = .parenR then some ([], t, ts)
    else if isBlank t ∨ t.1 = .comma ∨ t.1 = .parenL then (readParams named f ts).map fun r => (t :: r.1, r.2)
    else
      match readParam named f (t :: ts) with
      | some (p :: ps, rest) => (readParams named f rest).map fun r => (p :: ps ++ r.1, r.2)
      | _ => none

/-- One parameter up to a comma or `)`: the parameter and the rest. -/
def readParam (named : Bool) : Nat → List Token → Option (List Token × List Token)
  | 0, _ => none
  | _, [] => none
  | f + 1, t :: ts =>
    if t.1 = .comma ∨ t.1 = .parenR then some ([], t :: ts)
    else if t.1 = .raw ∨ isPlain t then (readParam named f ts).map fun r => (t :: r.1, r.2)
    else if t.1 = .squareL then
      match closeAt .squareL .squareR Prod.fst 0 ts with
      | none => none
      | some (inner, u, rest) => (readParam named f rest).map fun r => (t :: (inner ++ u :: r.1), r.2)
    else if t.1 = .func_ ∧ named then
      match ts with
      | [] => none
      | l :: ts =>
        if l.1 = .parenL then
          match readParams named f ts with
          | none => none
          | some (ps, u, rest) => (readParam named f rest).map fun r => (t :: l :: (ps ++ u :: r.1), r.2)
        else none
    else none

end

/-- A signature: whether the parameters have been seen at its end, and what follows the end. -/
def readSig : Nat → Bool → List Token → Option (Bool × List Token)
  | 0, _, _ => none
  | _, seen, [] => some (seen, [])
  | f + 1, seen, t :: ts =>
    if t.1 = .newLine ∧ seen then some (true, t :: ts)
    else if t.1 = .parenL then
      match readParams true f ts with
      | none => none
      | some (_, _, rest) => readSig f true rest
    else if t.1 = .curlyL then
      match closeAt .curlyL .curlyR Prod.fst 0 ts with
      | none => none
      | some (_, _, rest) => readSig f seen rest
    else if t.1 = .squareL then
      match closeAt .squareL .squareR Prod.fst 0 ts with
      | none => none
      | some (_, _, rest) => readSig f true rest
    else if t.1 = .space ∧ seen then
      match ts.dropWhile (fun c => decide (c.1 = .comment)) with
      | [] => readSig f true []
      | x :: xs =>
        if x.1 = .newLine ∨ x.1 = .space ∨ x.1 = .curlyL then readSig f true (x :: xs)
        else if ts.head?.map Prod.fst = some .comment then none
        else if x.1 = .parenL then
          match readParams true f xs with
          | none => none
          | some (_, _, rest) => readSig f true rest
        else if x.1 = .func_ then
          match xs with
          | [] => none
          | l :: xs =>
            if l.1 = .parenL then
              match readParams true f xs with
              | none => none
              | some (_, _, rest) => readSig f true rest
            else none
        else
          let rest := xs.dropWhile fun u => decide (u.1 ≠ .newLine ∧ u.1 ≠ .space ∧ u.1 ≠ .curlyL ∧ u.1 ≠ .comment)
          if rest.head?.map Prod.fst = some .comment then none else readSig f true rest
    else readSig f seen ts

/-- One line of a struct: the line, its end and what follows. -/
def readRow : Nat → List Token → Option (List Token × Token × List Token)
  | 0, _ => none
  | _, [] => none
  | f + 1, t :: ts =>
    if t.1 = .newLine then some ([], t, ts)
    else if t.1 = .func_ then
      match ts with
      | [] => none
      | l :: ts =>
        if l.1 = .parenL then
          match readParams true f ts with
          | none => none
          | some (ps, u, rest) => (readRow f rest).map fun r => (t :: l :: (ps ++ u :: r.1), r.2)
        else none
    else (readRow f ts).map fun r => (t :: r.1, r.2)

/-- No comma before the first token that is neither a word nor a blank. -/
def readCommaFree : List Token → Bool
  | [] => true
  | t :: ts => t.1 != .comma && (!(decide (t.1 = .raw ∨ isGap t)) || readCommaFree ts)

/-- What follows names that are separated by commas. -/
def readNames : Nat → List Token → Option (List Token)
  | 0, _ => none
  | _, [] => none
  | f + 1, t :: ts =>
    if t.1 = .raw then
      match ts.dropWhile (fun x => decide (isGap x)) with
      | [] => some ts
      | c :: cs => if c.1 = .comma then readNames f (cs.dropWhile fun x => decide (isGap x)) else some ts
    else none

/-- A line of a struct can be read as a field. -/
def readField (us : List Token) : Bool :=
  match us.dropWhile (fun x => decide (isGap x)) with
  | [] => true
  | t :: ts =>
    if t.1 = .raw then
      match readNames (ts.length + 1) (t :: ts) with
      | some (x :: ty) => if x.1 = .space then readCommaFree ty else !(decide (x.1 = .raw ∨ x.1 = .comma ∨ isGap x)) && ts.length == ty.length + 1
      | some [] => ts.isEmpty
      | none => false
    else t.1 != .comma

/-- The lines of a struct up to its `}`. -/
def readFields : Nat → List Token → Option (Token × List Token)
  | 0, _ => none
  | _, [] => none
  | f + 1, t :: ts =>
    if t.1 = .curlyR then some (t, ts)
    else if t.1 = .newLine ∨ t.1 = .comment ∨ t.1 = .curlyL then readFields f ts
    else
      match readRow (ts.length + 1) ts with
      | some (us, _, rest) => if readField (t :: us) && decide (t.1 ≠ .func_) then readFields f rest else none
      | none => none

/-- The lines of an interface up to its `}`. -/
def readMethods : Nat → List Token → Option (Token × List Token)
  | 0, _ => none
  | _, [] => none
  | f + 1, t :: ts =>
    if t.1 = .curlyR then some (t, ts)
    else if isBlank t ∨ t.1 = .curlyL then readMethods f ts
    else if t.1 = .raw ∧ ts.head?.map Prod.fst = some .parenL then
      match readSig (ts.length + 1) false ts with
      | some (true, _ :: M) => readMethods f M
      | _ => none
    else
      let us := ts.takeWhile fun u => decide (u.1 ≠ .newLine)
      if (t :: us).all (fun x => decide (x.1 ≠ .curlyL ∧ x.1 ≠ .curlyR ∧ x.1 ≠ .parenL ∧ x.1 ≠ .parenR)) &&
          ((t :: us).countP (fun x => decide (x.1 = .squareL)) == (t :: us).countP (fun x => decide (x.1 = .squareR))) then
        match ts.dropWhile fun u => decide (u.1 ≠ .newLine) with
        | [] => none
        | _ :: rest => readMethods f rest
      else none

/-- The definition of a type. -/
def readDef : Nat → List Token → Bool
  | 0, _ => false
  | _, [] => true
  | f + 1, t :: ts =>
    if isPassive t then readDef f ts
    else if t.1 = .squareL then
      match closeAt .squareL .squareR Prod.fst 0 ts with
      | none => false
      | some (_, _, rest) => readDef f rest
    else if t.1 = .struct_ then
      match ts.dropWhile fun x => decide (x.1 ≠ .curlyL) with
      | [] => false
      | _ :: rest =>
        match readFields f rest with
        | none => false
        | some (_, M) => readDef f M
    else if t.1 = .interface_ then
      match ts.dropWhile fun x => decide (x.1 ≠ .curlyL) with
      | [] => false
      | _ :: rest =>
        match readMethods f rest with
        | none => false
        | some (_, M) => readDef f M
    else if t.1 = .raw then
      let rest := (ts.dropWhile fun x => decide (x.1 ≠ .newLine ∧ x.1 ≠ .parenL ∧ x.1 ≠ .curlyL ∧ x.1 ≠ .squareL ∧ x.1 ≠ .func_ ∧ x.1 ≠ .comment)).dropWhile
        fun x => decide (x.1 = .comment)
      if (rest.head?.map Prod.fst).getD .newLine = .newLine then readDef f rest else false
    else false

/-- Sections that survive. -/
def survives (ts : List Token) : Bool :=
  match ts with
  | [] => true
  | t :: r =>
    if t.1 ≠ .func_ ∧ t.1 ≠ .type_ then true
    else if ts.all (fun t => decide (t.1 ≠ .comment)) && (decide (t.1 ≠ .type_) || okRun [.name] (ts.map Prod.fst)) then true
    else
      match r with
      | s :: n :: r =>
        if t = (.func_, b!"func") ∧ s = (.space, b!" ") then
          if n.1 = .raw then (readSig (r.length + 1) false r).isSome
          else if n = (.parenL, b!"(") then
            match readParams false (r.length + 1) r with
            | some (_, u, s' :: n' :: r') =>
              u = (.parenR, b!")") && s' = (.space, b!" ") && n'.1 = .raw && !decide (CalledAtOnce (ts.map Prod.fst)) && (readSig (r'.length + 1) true r').isSome
            | _ => false
          else false
        else if t = (.type_, b!"type") ∧ s = (.space, b!" ") ∧ n.1 = .raw then
          match r with
          | [] => false
          | b :: r =>
            if b = (.space, b!" ") then readDef (r.length + 1) r
            else if b.1 = .squareL then
              match closeAt .squareL .squareR Prod.fst 0 r with
              | some (_, _, b' :: r') => b' = (.space, b!" ") && readDef (r'.length + 1) r'
              | _ => false
            else false
        else false
      | _ => false

/-! ## It is right -/

theorem readParams_sound (named : Bool) {nk tk : Kind} (hk : named = true → nk = .paramName ∧ tk = .paramType) : ∀ (f : Nat),
    (∀ {ts ps u rest}, readParams named f ts = some (ps, u, rest) → ts = ps ++ u :: rest ∧ u.1 = .parenR ∧ ∃ ps', Params nk tk ps ps') ∧
    (∀ {ts ps rest}, readParam named f ts = some (ps, rest) → ts = ps ++ rest ∧ (∃ x, rest.head? = some x ∧ (x.1 = .comma ∨ x.1 = .parenR)) ∧
      ∀ pending, ∃ ps', Param nk tk pending ps ps')
  | 0 => ⟨fun e => by simp [readParams] at e, fun e => by simp [readParam] at e⟩
  | f + 1 => by
    obtain ⟨ih1, ih2⟩ := readParams_sound named hk f
    refine ⟨?_, ?_⟩
    · intro ts ps u rest e
      cases ts with
      | nil => simp [readParams] at e
      | cons t ts =>
        rw [readParams] at e
        split at e
        · rename_i h
          simp only [Option.some.injEq, Prod.mk.injEq] at e
          obtain ⟨rfl, rfl, rfl⟩ := e
          exact ⟨rfl, h, [], .nil⟩
        · split at e
          · rename_i h
            simp only [Option.map_eq_some_iff, Prod.mk.injEq] at e
            obtain ⟨⟨a, b, c⟩, e, rfl, rfl, rfl⟩ := e
            obtain ⟨q1, q2, ps', q3⟩ := ih1 e
            exact ⟨by rw [q1]; rfl, q2, _, .sep h q3⟩
          · rename_i h0 h
            split at e
            · rename_i p pt rest' e2
              simp only [Option.map_eq_some_iff, Prod.mk.injEq] at e
              obtain ⟨⟨a, b, c⟩, e, rfl, rfl, rfl⟩ := e
              obtain ⟨q1, q2, ps', q3⟩ := ih1 e
              obtain ⟨r1, ⟨x, hx, hx'⟩, r3⟩ := ih2 e2
              cases r1
              obtain ⟨ty', r3⟩ := r3 (decide (relevant (t :: pt) ≠ 1))
              refine ⟨by rw [q1]; simp, q2, ty' ++ ps', .param ?_ r3 ?_ q3⟩
              · grind
              · intro y hy
                cases a with
                | nil => cases hy
                | cons z a =>
                  rw [q1] at hx
                  cases hx
                  cases hy
                  rcases hx' with hx' | hx'
                  · exact hx'
                  · exfalso
                    cases f with
                    | zero => simp [readParams] at e
                    | succ f =>
                      rw [q1, List.cons_append, readParams, if_pos hx'] at e
                      cases e
            · cases e
    · intro ts ps rest e
      cases ts with
      | nil => simp [readParam] at e
      | cons t ts =>
        unfold readParam at e
        split at e
        · rename_i h
          simp only [Option.some.injEq, Prod.mk.injEq] at e
          obtain ⟨rfl, rfl⟩ := e
          exact ⟨rfl, ⟨t, rfl, h⟩, fun _ => ⟨[], .nil⟩⟩
        · split at e
          · rename_i h
            simp only [Option.map_eq_some_iff, Prod.mk.injEq] at e
            obtain ⟨⟨a, b⟩, e, rfl, rfl⟩ := e
            obtain ⟨q1, q2, q3⟩ := ih2 e
            refine ⟨by rw [q1]; rfl, q2, fun pending => ?_⟩
            rcases h with h | h
            · obtain ⟨ps', q3⟩ := q3 false
              exact ⟨_, .word h q3⟩
            · obtain ⟨ps', q3⟩ := q3 pending
              exact ⟨_, .plain h q3⟩
          · split at e
            · rename_i h
              split at e
              · cases e
              · rename_i inner u rest' hc
                simp only [Option.map_eq_some_iff, Prod.mk.injEq] at e
                obtain ⟨⟨a, b⟩, e, rfl, rfl⟩ := e
                obtain ⟨q1, q2, q3⟩ := ih2 e
                have cs := closeAt_split hc
                refine ⟨by rw [cs.1, q1]; simp, q2, fun pending => ?_⟩
                obtain ⟨ps', q3⟩ := q3 pending
                exact ⟨_, .square h (cs.2 a) q3⟩
            · split at e
              · rename_i h
                split at e
                · cases e
                · rename_i l ts'
                  split at e
                  · rename_i hl
                    split at e
                    · cases e
                    · rename_i ps1 u rest' e1
                      simp only [Option.map_eq_some_iff, Prod.mk.injEq] at e
                      obtain ⟨⟨a, b⟩, e, rfl, rfl⟩ := e
                      obtain ⟨q1, q2, q3⟩ := ih2 e
                      obtain ⟨r1, r2, ps1', r3⟩ := ih1 e1
                      refine ⟨by rw [r1, q1]; simp, q2, fun pending => ?_⟩
                      obtain ⟨ps', q3⟩ := q3 pending
                      exact ⟨_, .func (hk h.2) h.1 hl r2 r3 q3⟩
                  · cases e
              · cases e

theorem dropWhile_split {α : Type} (p : α → Bool) (l : List α) :
    ∃ a, l = a ++ l.dropWhile p ∧ (∀ x ∈ a, p x = true) ∧ ∀ x, (l.dropWhile p).head? = some x → p x = false := by
  refine ⟨l.takeWhile p, List.takeWhile_append_dropWhile.symm, fun x hx => ?_, fun x hx => ?_⟩
  · exact List.all_eq_true.1 List.all_takeWhile x hx
  · have := List.head?_dropWhile_not p l
    rw [hx] at this
    simpa using this

theorem readSig_sound : ∀ (f : Nat) {seen fin : Bool} {ts R : List Token}, readSig f seen ts = some (fin, R) →
    (∃ ts', Sig R fin seen ts ts') ∧ DeclEnd fin R
  | 0, _, _, _, _, e => by simp [readSig] at e
  | f + 1, seen, fin, [], R, e => by
    simp only [readSig, Option.some.injEq, Prod.mk.injEq] at e
    obtain ⟨rfl, rfl⟩ := e
    exact ⟨⟨_, .stop⟩, .inl rfl⟩
  | f + 1, seen, fin, t :: ts, R, e => by
    have prm := fun {ts ps u rest} => (readParams_sound true (nk := .paramName) (tk := .paramType) (fun _ => ⟨rfl, rfl⟩) f).1 (ts := ts) (ps := ps) (u := u) (rest := rest)
    rw [readSig] at e
    split at e
    · rename_i h
      simp only [Option.some.injEq, Prod.mk.injEq] at e
      obtain ⟨rfl, rfl⟩ := e
      rw [h.2]
      exact ⟨⟨_, .stop⟩, .inr ⟨rfl, t, rfl, h.1⟩⟩
    · rename_i hnl
      split at e
      · rename_i h
        split at e
        · cases e
        · rename_i ps u rest er
          obtain ⟨r1, r2, ps', r3⟩ := prm er
          obtain ⟨⟨ts', s⟩, d⟩ := readSig_sound f e
          rw [r1]
          exact ⟨⟨_, .parens h r2 r3 s⟩, d⟩
      · rename_i hpl
        split at e
        · rename_i h
          split at e
          · cases e
          · rename_i inner u rest hc
            obtain ⟨⟨ts', s⟩, d⟩ := readSig_sound f e
            exact ⟨⟨_, .body h hc s⟩, d⟩
        · rename_i hcl
          split at e
          · rename_i h
            split at e
            · cases e
            · rename_i inner u rest hc
              obtain ⟨⟨ts', s⟩, d⟩ := readSig_sound f e
              exact ⟨⟨_, .square h hc s⟩, d⟩
          · rename_i hsq
            split at e
            · rename_i h
              obtain ⟨hsp, rfl⟩ := h
              obtain ⟨cs, hcs, hc, hd⟩ := dropWhile_split (fun c : Token => decide (c.1 = .comment)) ts
              have hc : ∀ c ∈ cs, c.1 = .comment := fun c h => by simpa using hc c h
              split at e
              · rename_i hz
                rw [hz] at hcs
                obtain ⟨⟨ts', s⟩, d⟩ := readSig_sound f e
                rw [hcs]
                exact ⟨⟨_, .space hsp hc (by simp) s⟩, d⟩
              · rename_i x xs hz
                rw [hz] at hcs
                split at e
                · rename_i hx
                  obtain ⟨⟨ts', s⟩, d⟩ := readSig_sound f e
                  rw [hcs]
                  exact ⟨⟨_, .space hsp hc (by simpa using hx) s⟩, d⟩
                · rename_i hx
                  split at e
                  · cases e
                  · rename_i hno
                    have : cs = [] := by
                      cases cs with
                      | nil => rfl
                      | cons c cs =>
                        exfalso
                        apply hno
                        rw [hcs]
                        simp [hc c (by simp)]
                    subst this
                    rw [List.nil_append] at hcs
                    subst hcs
                    split at e
                    · rename_i h
                      split at e
                      · cases e
                      · rename_i ps u rest er
                        obtain ⟨r1, r2, ps', r3⟩ := prm er
                        obtain ⟨⟨ts', s⟩, d⟩ := readSig_sound f e
                        rw [r1]
                        exact ⟨⟨_, .results hsp h r2 r3 s⟩, d⟩
                    · rename_i hpl'
                      split at e
                      · rename_i h
                        split at e
                        · cases e
                        · rename_i l xs'
                          split at e
                          · rename_i hl
                            split at e
                            · cases e
                            · rename_i ps u rest er
                              obtain ⟨r1, r2, ps', r3⟩ := prm er
                              obtain ⟨⟨ts', s⟩, d⟩ := readSig_sound f e
                              rw [r1]
                              exact ⟨⟨_, .func hsp h hl r2 r3 s⟩, d⟩
                          · cases e
                      · rename_i hf
                        simp only [] at e
                        split at e
                        · cases e
                        · rename_i hno'
                          obtain ⟨us, hus, hu, hd'⟩ := dropWhile_split (fun u : Token => decide (u.1 ≠ .newLine ∧ u.1 ≠ .space ∧ u.1 ≠ .curlyL ∧ u.1 ≠ .comment)) xs
                          obtain ⟨⟨ts', s⟩, d⟩ := readSig_sound f e
                          have hxc : x.1 ≠ .comment := by
                            have := hd x (by rw [hz]; rfl)
                            simpa using this
                          rw [hus, ← List.cons_append]
                          refine ⟨⟨_, .result hsp ⟨hpl', hf⟩ ?_ ?_ s⟩, d⟩
                          · intro u hu'
                            rcases List.mem_cons.1 hu' with rfl | hu'
                            · grind
                            · simpa using hu u hu'
                          · intro y hy
                            have := hd' y hy
                            rw [hy] at hno'
                            simp only [decide_eq_false_iff_not] at this
                            simp only [Option.map_some, Option.some.injEq] at hno'
                            grind
            · rename_i hsp
              obtain ⟨⟨ts', s⟩, d⟩ := readSig_sound f e
              refine ⟨⟨_, .pass hpl hcl hsq ?_ ?_ s⟩, d⟩
              · intro h; cases seen
                · rfl
                · exact absurd ⟨h, rfl⟩ hnl
              · intro h; cases seen
                · rfl
                · exact absurd ⟨h, rfl⟩ hsp

theorem readRow_sound : ∀ (f : Nat) {ts us : List Token} {u : Token} {rest : List Token}, readRow f ts = some (us, u, rest) →
    ts = us ++ u :: rest ∧ u.1 = .newLine ∧ ∀ n, ∃ us', Row n us us'
  | 0, _, _, _, _, e => by simp [readRow] at e
  | f + 1, [], _, _, _, e => by simp [readRow] at e
  | f + 1, t :: ts, us, u, rest, e => by
    unfold readRow at e
    split at e
    · rename_i h
      simp only [Option.some.injEq, Prod.mk.injEq] at e
      obtain ⟨rfl, rfl, rfl⟩ := e
      exact ⟨rfl, h, fun _ => ⟨_, .nil⟩⟩
    · rename_i hnl
      split at e
      · rename_i h
        split at e
        · cases e
        · rename_i l ts'
          split at e
          · rename_i hl
            split at e
            · cases e
            · rename_i ps v rest' er
              simp only [Option.map_eq_some_iff, Prod.mk.injEq] at e
              obtain ⟨⟨a, b, c⟩, e, rfl, rfl, rfl⟩ := e
              obtain ⟨r1, r2, ps', r3⟩ := (readParams_sound true (nk := .paramName) (tk := .paramType) (fun _ => ⟨rfl, rfl⟩) f).1 er
              obtain ⟨q1, q2, q3⟩ := readRow_sound f e
              refine ⟨by rw [r1, q1]; simp, q2, fun n => ?_⟩
              obtain ⟨us', q3⟩ := q3 n
              exact ⟨_, .func h hl r2 r3 q3⟩
          · cases e
      · rename_i hf
        simp only [Option.map_eq_some_iff, Prod.mk.injEq] at e
        obtain ⟨⟨a, b, c⟩, e, rfl, rfl, rfl⟩ := e
        obtain ⟨q1, q2, q3⟩ := readRow_sound f e
        refine ⟨by rw [q1]; simp, q2, fun n => ?_⟩
        by_cases hr : t.1 = .raw
        · obtain ⟨us', q3⟩ := q3 (n - 1)
          exact ⟨_, .word hr q3⟩
        · obtain ⟨us', q3⟩ := q3 n
          exact ⟨_, .keep ⟨hr, hnl, hf⟩ q3⟩

theorem readCommaFree_sound : ∀ {ts : List Token}, readCommaFree ts = true → commaFree ts
  | [], _ => trivial
  | t :: ts, e => by
    simp only [readCommaFree, Bool.and_eq_true, bne_iff_ne, ne_eq, Bool.or_eq_true, Bool.not_eq_true', decide_eq_false_iff_not] at e
    refine ⟨e.1, fun h => ?_⟩
    rcases e.2 with h' | h'
    · exact absurd h h'
    · exact readCommaFree_sound h'

theorem readNames_sound : ∀ (f : Nat) {ts rest : List Token}, readNames f ts = some rest → ∃ n ns, Names n ns ∧ ts = ns ++ rest ∧
    (n = 1 ∨ rest.length + 1 < ts.length)
  | 0, _, _, e => by simp [readNames] at e
  | f + 1, [], _, e => by simp [readNames] at e
  | f + 1, t :: ts, rest, e => by
    unfold readNames at e
    split at e
    · rename_i h
      split at e
      · simp only [Option.some.injEq] at e
        subst e
        exact ⟨1, [t], .one h, rfl, .inl rfl⟩
      · rename_i c cs hd
        split at e
        · rename_i hc
          obtain ⟨bs, e1, e2, _⟩ := dropWhile_split (fun x : Token => decide (isGap x)) ts
          obtain ⟨gs, e3, e4, _⟩ := dropWhile_split (fun x : Token => decide (isGap x)) cs
          obtain ⟨n, ns, q1, q2, q3⟩ := readNames_sound f e
          refine ⟨n + 1, t :: (bs ++ c :: (gs ++ ns)), .more h (fun x hx => by simpa using e2 x hx) hc (fun x hx => by simpa using e4 x hx) q1, ?_, .inr ?_⟩
          · rw [e1, hd, e3, q2]; simp
          · rw [e1, hd, e3, q2]; simp; omega
        · simp only [Option.some.injEq] at e
          subst e
          exact ⟨1, [t], .one h, rfl, .inl rfl⟩
    · cases e

theorem readField_sound {us : List Token} (e : readField us = true) : ∃ n, Field n us := by
  unfold readField at e
  obtain ⟨bs, e1, e2, e3⟩ := dropWhile_split (fun x : Token => decide (isGap x)) us
  have hb : ∀ x ∈ bs, isGap x := fun x hx => by simpa using e2 x hx
  split at e
  · rename_i hd
    rw [hd, List.append_nil] at e1
    rw [e1]
    exact ⟨0, .blank hb⟩
  · rename_i t ts hd
    rw [hd] at e1
    have hg : ¬ isGap t := by simpa using e3 t (by rw [hd]; rfl)
    rw [e1]
    split at e
    · rename_i hr
      split at e
      · rename_i x ty hn
        obtain ⟨n, ns, q1, q2, q3⟩ := readNames_sound _ hn
        split at e
        · rename_i hx
          rw [q2]
          exact ⟨n, .named hb q1 hx (readCommaFree_sound e)⟩
        · rename_i hx
          simp only [Bool.and_eq_true, Bool.not_eq_true', decide_eq_false_iff_not, beq_iff_eq, not_or] at e
          have : ns.length = 1 := by
            have := congrArg List.length q2
            simp only [List.length_cons, List.length_append] at this
            omega
          obtain ⟨y, rfl⟩ := List.length_eq_one_iff.1 this
          cases q2
          exact ⟨0, .embedded hb hr (by simpa using e.1)⟩
      · rename_i hn
        cases ts with
        | nil => exact ⟨0, .embedded hb hr (by simp)⟩
        | cons _ _ => cases e
      · cases e
    · rename_i hr
      exact ⟨0, .other hb ⟨hr, by simpa using e, hg⟩⟩

theorem readFields_sound : ∀ (f : Nat) {ts : List Token} {u : Token} {M : List Token}, readFields f ts = some (u, M) →
    u.1 = .curlyR ∧ ∃ ts', Fields (u :: M) ts ts'
  | 0, _, _, _, e => by simp [readFields] at e
  | f + 1, [], _, _, e => by simp [readFields] at e
  | f + 1, t :: ts, u, M, e => by
    unfold readFields at e
    split at e
    · rename_i h
      simp only [Option.some.injEq, Prod.mk.injEq] at e
      obtain ⟨rfl, rfl⟩ := e
      exact ⟨h, _, .stop⟩
    · rename_i hcr
      split at e
      · rename_i h
        obtain ⟨q1, ts', q2⟩ := readFields_sound f e
        exact ⟨q1, _, .skip h q2⟩
      · rename_i hsk
        split at e
        · rename_i us v rest er
          split at e
          · rename_i hc
            simp only [Bool.and_eq_true, decide_eq_true_eq] at hc
            obtain ⟨q1, ts', q2⟩ := readFields_sound f e
            obtain ⟨r1, r2, r3⟩ := readRow_sound _ er
            obtain ⟨n, fd⟩ := readField_sound hc.1
            have row : ∃ us', Row n (t :: us) us' := by
              by_cases hr : t.1 = .raw
              · obtain ⟨us', r3⟩ := r3 (n - 1)
                exact ⟨_, .word hr r3⟩
              · obtain ⟨us', r3⟩ := r3 n
                exact ⟨_, .keep ⟨hr, by grind, hc.2⟩ r3⟩
            obtain ⟨us', row⟩ := row
            refine ⟨q1, us' ++ v :: ts', ?_⟩
            rw [r1, ← List.cons_append]
            exact .line ⟨by grind, by grind, hcr⟩ fd row r2 q2
          · cases e
        · cases e

theorem readMethods_sound : ∀ (f : Nat) {ts : List Token} {u : Token} {M : List Token}, readMethods f ts = some (u, M) →
    u.1 = .curlyR ∧ ∃ ts', Methods (u :: M) ts ts'
  | 0, _, _, _, e => by simp [readMethods] at e
  | f + 1, [], _, _, e => by simp [readMethods] at e
  | f + 1, t :: ts, u, M, e => by
    unfold readMethods at e
    split at e
    · rename_i h
      simp only [Option.some.injEq, Prod.mk.injEq] at e
      obtain ⟨rfl, rfl⟩ := e
      exact ⟨h, _, .stop⟩
    · rename_i hcr
      split at e
      · rename_i h
        obtain ⟨q1, ts', q2⟩ := readMethods_sound f e
        exact ⟨q1, _, .skip h q2⟩
      · rename_i hsk
        split at e
        · rename_i h
          split at e
          · rename_i v M' er
            obtain ⟨⟨ts', sg⟩, dn⟩ := readSig_sound _ er
            obtain ⟨q1, ts2, q2⟩ := readMethods_sound f e
            cases ts with
            | nil => simp at h
            | cons p ts =>
              have hv : v.1 = .newLine := by
                rcases dn with dn | ⟨_, y, hy, hy'⟩
                · cases dn
                · cases hy; exact hy'
              exact ⟨q1, _, .method h.1 (by simpa using h.2) hv sg q2⟩
          · cases e
        · rename_i hm
          simp only [] at e
          split at e
          · rename_i hall
            split at e
            · cases e
            · rename_i v rest hd
              obtain ⟨q1, ts', q2⟩ := readMethods_sound f e
              have e1 : ts = ts.takeWhile (fun u => decide (u.1 ≠ .newLine)) ++ v :: rest := by rw [← hd]; exact List.takeWhile_append_dropWhile.symm
              have hv : v.1 = .newLine := by
                have := List.head?_dropWhile_not (fun u : Token => decide (u.1 ≠ .newLine)) ts
                rw [hd] at this
                simpa using this
              have hu : ∀ x ∈ ts.takeWhile (fun u => decide (u.1 ≠ .newLine)), x.1 ≠ .newLine := fun x hx => by
                have := List.all_eq_true.1 List.all_takeWhile x hx
                simpa using this
              generalize ts.takeWhile (fun u => decide (u.1 ≠ .newLine)) = us at *
              simp only [Bool.and_eq_true, List.all_eq_true, decide_eq_true_eq, beq_iff_eq] at hall
              rw [e1, ← List.cons_append]
              refine ⟨q1, _, .embedded (by grind) (fun x hx => ⟨?_, hall.1 x hx⟩) hall.2 hv q2⟩
              rcases List.mem_cons.1 hx with rfl | hx
              · intro h; exact hsk (.inl (.inr (.inr (.inl h))))
              · exact hu x hx
          · cases e

theorem readDef_sound : ∀ (f : Nat) {ts : List Token}, readDef f ts = true → ∃ ts', Def [] ts ts'
  | 0, _, e => by simp [readDef] at e
  | f + 1, [], e => ⟨_, .stop⟩
  | f + 1, t :: ts, e => by
    unfold readDef at e
    split at e
    · rename_i h
      obtain ⟨ts', d⟩ := readDef_sound f e
      exact ⟨_, .pass h d⟩
    · split at e
      · rename_i h
        split at e
        · cases e
        · rename_i inner u rest hc
          obtain ⟨ts', d⟩ := readDef_sound f e
          exact ⟨_, .square h hc d⟩
      · split at e
        · rename_i h
          split at e
          · cases e
          · rename_i o rest hd
            split at e
            · cases e
            · rename_i u M er
              obtain ⟨gap, e1, e2, e3⟩ := dropWhile_split (fun x : Token => decide (x.1 ≠ .curlyL)) ts
              obtain ⟨hu, ts1, fd⟩ := readFields_sound f er
              obtain ⟨ts', d⟩ := readDef_sound f e
              rw [e1, hd]
              exact ⟨_, .struct h (fun x hx => by simpa using e2 x hx) (by simpa using e3 o (by rw [hd]; rfl)) hu fd d⟩
        · split at e
          · rename_i h
            split at e
            · cases e
            · rename_i o rest hd
              split at e
              · cases e
              · rename_i u M er
                obtain ⟨gap, e1, e2, e3⟩ := dropWhile_split (fun x : Token => decide (x.1 ≠ .curlyL)) ts
                obtain ⟨hu, ts1, fd⟩ := readMethods_sound f er
                obtain ⟨ts', d⟩ := readDef_sound f e
                rw [e1, hd]
                exact ⟨_, .interface h (fun x hx => by simpa using e2 x hx) (by simpa using e3 o (by rw [hd]; rfl)) hu fd d⟩
          · split at e
            · rename_i h
              simp only [] at e
              split at e
              · rename_i hn
                obtain ⟨us, e1, e2, _⟩ := dropWhile_split (fun x : Token => decide (x.1 ≠ .newLine ∧ x.1 ≠ .parenL ∧ x.1 ≠ .curlyL ∧ x.1 ≠ .squareL ∧ x.1 ≠ .func_ ∧ x.1 ≠ .comment)) ts
                obtain ⟨cs, e3, e4, _⟩ := dropWhile_split (fun x : Token => decide (x.1 = .comment)) (ts.dropWhile (fun x : Token => decide (x.1 ≠ .newLine ∧ x.1 ≠ .parenL ∧ x.1 ≠ .curlyL ∧ x.1 ≠ .squareL ∧ x.1 ≠ .func_ ∧ x.1 ≠ .comment)))
                obtain ⟨ts', d⟩ := readDef_sound f e
                rw [e1, e3]
                refine ⟨_, .word h (fun x hx => by simpa using e2 x hx) (fun x hx => by simpa using e4 x hx) ?_ d⟩
                intro x hx
                rw [hx] at hn
                simpa using hn
              · cases e
            · cases e

/-- **C64** The program is right: what it accepts survives. -/
theorem C64_check {ts : List Token} (e : survives ts = true) : Survives ts := by
  unfold survives at e
  split at e
  · exact .other (by simp)
  · rename_i t r
    split at e
    · rename_i h
      exact .other (by simpa using h)
    · split at e
      · rename_i hno h
        simp only [Bool.and_eq_true, List.all_eq_true, decide_eq_true_eq, Bool.or_eq_true] at h
        refine .bare (fun t ht => by simpa using h.1 t ht) ?_
        intro y hy hk
        cases hy
        rcases h.2 with h | h
        · exact absurd hk (by simpa using h)
        · exact (okRun_iff _ _).1 h _ (by simp)
      · split at e
        · rename_i s n r _
          split at e
          · rename_i h
            obtain ⟨rfl, rfl⟩ := h
            split at e
            · rename_i hn
              obtain ⟨⟨fin, R⟩, er⟩ := Option.isSome_iff_exists.1 e
              obtain ⟨⟨ts', sg⟩, d⟩ := readSig_sound _ er
              obtain ⟨k, name⟩ := n
              cases hn
              exact .func sg d
            · split at e
              · rename_i hn
                subst hn
                split at e
                · rename_i ps u s' n' r' er
                  simp only [Bool.and_eq_true, decide_eq_true_eq, Bool.not_eq_true', decide_eq_false_iff_not] at e
                  obtain ⟨⟨⟨⟨rfl, rfl⟩, hn⟩, hc⟩, e⟩ := e
                  obtain ⟨⟨fin, R⟩, er'⟩ := Option.isSome_iff_exists.1 e
                  obtain ⟨⟨ts', sg⟩, d⟩ := readSig_sound _ er'
                  obtain ⟨r1, _, ps', r3⟩ := (readParams_sound false (nk := .methodReceiverName) (tk := .methodReceiverType) (by simp) _).1 er
                  obtain ⟨k, name⟩ := n'
                  cases hn
                  rw [r1] at hc ⊢
                  exact .method hc r3 sg d
                · cases e
              · cases e
          · split at e
            · rename_i h
              obtain ⟨rfl, rfl, hn⟩ := h
              obtain ⟨k, name⟩ := n
              cases hn
              split at e
              · cases e
              · rename_i b r
                split at e
                · rename_i hb
                  subst hb
                  obtain ⟨ts', d⟩ := readDef_sound _ e
                  exact .type (tp := []) .none d
                · split at e
                  · rename_i hb
                    split at e
                    · rename_i inner u b' r' hc
                      simp only [Bool.and_eq_true, decide_eq_true_eq] at e
                      obtain ⟨rfl, e⟩ := e
                      obtain ⟨ts', d⟩ := readDef_sound _ e
                      obtain ⟨c1, c2⟩ := closeAt_split hc
                      have := Survives.type (name := name) (.some hb (c2 [])) d
                      rw [c1]
                      simpa using this
                    · cases e
                  · cases e
            · cases e
        · cases e

/-! ## Cases that meet the hypotheses -/

/-- All the program asks of a file. -/
def keepsText (data : Bytes) : Bool :=
  (sectionsOf 0 data).2.all survives && (sectionsOf 0 data).1.isEmpty &&
    (sectionsOf 0 data).2.any fun g => g.head?.any fun t => b!"package".isPrefixOf t.2

/-- **C64** Parsing and saving a formatted file that the program accepts leaves all files as they were. -/
theorem C64_keepsText (env : Env) (spare : Nat) (fs : FS) (st : AState) (w : WF st.heap) (ac : Acyclic st.heap)
    {file name data : Bytes} (hk : keepsText data = true) (hn : IsGoName file name) (hf : fs name = some data)
    (o1 : env.openDenied name = false) (o2 : env.readFails name = false) (o3 : env.formatSource data = some data)
    (o4 : env.mkdirOk (env.dir name) = true) (o5 : env.createOk name = true) (o6 : env.writeFailsAfter name data = none) :
    ∃ st' ast, parseAst env spare fs st file = some (.ok (st', ast)) ∧ ast.save env fs st' file [] = some (fs, none) := by
  simp only [keepsText, Bool.and_eq_true, List.all_eq_true, List.isEmpty_iff, List.any_eq_true, Option.any_eq_true] at hk
  obtain ⟨⟨h1, h2⟩, g, h3, t, h4, h5⟩ := hk
  exact C64_save env spare fs st w ac (fun g hg => C64_check (h1 g hg)) h2 ⟨g, h3, t, h4, h5⟩ hn hf o1 o2 o3 o4 o5 o6

set_option maxRecDepth 1000000

/-- A file with comments before, between, behind and inside of its declarations. -/
def commented : Bytes := b!"// Package a is an example.\npackage a\n\nimport \"fmt\" // for Println\n\n/* S has\ntwo fields. */\ntype S struct {\n\tA, B int // both\n\t// F is a function\n\tF func(a int, s string) error // inline\n}\n\n// I is an interface.\ntype I[K comparable] interface {\n\t// Get gets.\n\tGet(k K) (int, error) // or fails\n\tfmt.Stringer\n}\n\ntype E int // an alias\n\n// Get gets.\nfunc (s *S) Get(k string /* key */, opts ...func(int) error) (n int, err error) { // begin\n\t// comment\n\tif k == \"\" /* none */ {\n\t\treturn 0, nil\n\t}\n\treturn s.A, nil // done\n}\n\nfunc f(a, b int) map[string]int { /* empty */ }\n"

example : keepsText commented = true := by decide +kernel

/-- Two declarations that are read with their comments, and one whose comment is lost (`C15_comment_lost`). -/
example : survives (tokens b!"func (s *S) Get(k string /* key */) (n int, err error) { // begin\n}\n") = true ∧
    survives (tokens b!"type S struct {\n\tA, B int // both\n}\n") = true ∧
    survives (tokens b!"func (m *M) Start() []/*c*/T {}\n") = false := by decide +kernel

/-- The file trie.go of goast itself. -/
def trieGo : Bytes := b!"package goast\n\ntype trie[T comparable] interface {\n\tAddText(s string, value T) *trie_[T]\n\tFindText(s string) (T, bool)\n\tFindTextReversely(s string) (T, bool)\n\tFindByte(b []byte) (T, bool)\n\tFindByteReversely(b []byte) (T, bool)\n\tInsert(key byte, value T) *trie_[T]\n\tNext(key byte) (*trie_[T], bool)\n\tValue() T\n}\n\ntype trie_[T comparable] struct {\n\tvalue T\n\tnext  map[byte]*trie_[T]\n}\n\nfunc (t *trie_[T]) AddText(s string, value T) *trie_[T] {\n\tif t == nil {\n\t\treturn nil\n\t}\n\n\tvar zero T\n\tn := t\n\tfor i := range s {\n\t\tn = n.Insert(s[i], zero)\n\t}\n\tn.value = value\n\treturn n\n}\n\nfunc (t *trie_[T]) Insert(key byte, value T) *trie_[T] {\n\tif t == nil {\n\t\treturn nil\n\t}\n\n\tif t.next == nil {\n\t\tt.next = map[byte]*trie_[T]{}\n\t}\n\n\tif _, ok := t.next[key]; !ok {\n\t\tt.next[key] = &trie_[T]{}\n\t}\n\n\tt.next[key].value = value\n\n\treturn t.next[key]\n}\n\nfunc (t *trie_[T]) FindText(s string) (T, bool) {\n\tif t == nil {\n\t\treturn t.Value(), false\n\t}\n\n\tn := t\n\tok := false\n\tfor i := range s {\n\t\tn, ok = n.Next(s[i])\n\t\tif !ok {\n\t\t\treturn n.Value(), false\n\t\t}\n\t}\n\treturn n.Value(), true\n}\n\nfunc (t *trie_[T]) FindTextReversely(s string) (T, bool) {\n\tif t == nil {\n\t\treturn t.Value(), false\n\t}\n\n\tn := t\n\tok := false\n\tfor i := len(s) - 1; i >= 0; i-- {\n\t\tn, ok = n.Next(s[i])\n\t\tif !ok {\n\t\t\treturn n.Value(), false\n\t\t}\n\t}\n\treturn n.Value(), true\n}\n\nfunc (t *trie_[T]) FindByte(b []byte) (T, bool) {\n\tif t == nil {\n\t\treturn t.Value(), false\n\t}\n\n\tn := t\n\tok := false\n\tfor i := range b {\n\t\tn, ok = n.Next(b[i])\n\t\tif !ok {\n\t\t\treturn n.Value(), false\n\t\t}\n\t}\n\n\treturn n.Value(), true\n}\n\nfunc (t *trie_[T]) FindByteReversely(b []byte) (T, bool) {\n\tif t == nil {\n\t\treturn t.Value(), false\n\t}\n\n\tn := t\n\tok := false\n\tfor i := len(b) - 1; i >= 0; i-- {\n\t\tn, ok = n.Next(b[i])\n\t\tif !ok {\n\t\t\treturn n.Value(), false\n\t\t}\n\t}\n\n\treturn n.Value(), true\n}\n\nfunc (t *trie_[T]) Value() T {\n\tif t == nil {\n\t\tvar zero T\n\t\treturn zero\n\t}\n\treturn t.value\n}\n\nfunc (t *trie_[T]) Next(key byte) (*trie_[T], bool) {\n\tif t == nil || t.next == nil {\n\t\treturn nil, false\n\t}\n\n\tn, ok := t.next[key]\n\treturn n, ok\n}\n\nfunc newTrie[T comparable](set map[string]T) trie[T] {\n\troot := &trie_[T]{}\n\tfor k, v := range set {\n\t\t_ = root.AddText(k, v)\n\t}\n\n\treturn root\n}\n"

/-- **C64** Parsing and saving goast's own trie.go leaves it as it is. -/
theorem C64_trie_go (env : Env) (spare : Nat) (fs : FS) (st : AState) (w : WF st.heap) (ac : Acyclic st.heap)
    {file name : Bytes} (hn : IsGoName file name) (hf : fs name = some trieGo)
    (o1 : env.openDenied name = false) (o2 : env.readFails name = false) (o3 : env.formatSource trieGo = some trieGo)
    (o4 : env.mkdirOk (env.dir name) = true) (o5 : env.createOk name = true) (o6 : env.writeFailsAfter name trieGo = none) :
    ∃ st' ast, parseAst env spare fs st file = some (.ok (st', ast)) ∧ ast.save env fs st' file [] = some (fs, none) :=
  C64_keepsText env spare fs st w ac (by decide +kernel) hn hf o1 o2 o3 o4 o5 o6

example : IsGoName b!"trie" b!"trie.go" ∧ demoEnv.formatSource trieGo = some trieGo ∧ demoEnv.mkdirOk (demoEnv.dir b!"trie.go") = true ∧
    demoEnv.createOk b!"trie.go" = true ∧ demoEnv.writeFailsAfter b!"trie.go" trieGo = none :=
  ⟨.inr ⟨by rintro ⟨t, ht⟩; have := congrArg (fun l => l.getLast?) ht; simp at this, rfl⟩, rfl, rfl, rfl, rfl⟩

/-- Declarations as `C64_declarations` wants them. -/
example : ∀ d ∈ [b!"package a\n\n", b!"// F does.\n", b!"func F(a int) error {\n\treturn nil // ok\n}\n"],
    Whole d ∧ BeginsScope d ∧ (sectionsOf 0 d).2.all survives = true := by
  intro d hd
  simp only [List.mem_cons, List.not_mem_nil, or_false] at hd
  rcases hd with rfl | rfl | rfl
  · exact ⟨by decide +kernel, ⟨⟨⟨b!"package", false⟩, by decide +kernel⟩, by decide +kernel⟩, by decide +kernel⟩
  · exact ⟨by decide +kernel, ⟨⟨⟨b!"// F does.", true⟩, by decide +kernel⟩, by decide +kernel⟩, by decide +kernel⟩
  · exact ⟨by decide +kernel, ⟨⟨⟨b!"func", false⟩, by decide +kernel⟩, by decide +kernel⟩, by decide +kernel⟩

end Goast
