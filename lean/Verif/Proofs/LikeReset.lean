import Verif.Proofs.Like

/-!
# `resetKind` does the same to the same nodes elsewhere
-/

set_option linter.unusedSimpArgs false
set_option linter.unusedVariables false

namespace Goast
open Heap

variable {φ : Addr → Addr}

theorem validParamCount_like {w W : World} (L : WLike φ w W) {p : Ptr} {n : Nat} (e : validParamCount w p = some n) :
    validParamCount W (p.map φ) = some n := by
  obtain ⟨⟨⟨w1, c⟩, q1⟩, e1, rfl⟩ := Option.map_eq_some_iff.1 e
  obtain ⟨W', e3, _⟩ := iterW_like (fn' := fun ws a =>
      match ws.1.heap.kind (some a) with
      | .comma | .parenR => some (ws, false)
      | .space | .tab | .comment | .newLine => some (ws, true)
      | _ => some ((ws.1, ws.2 + 1), true)) (fun w W s a L => by
        simp only [L.kindA]
        generalize w.heap.kind (some a) = k
        cases k <;> exact IRes.ret L) L e1
  exact congrArg (Option.map fun r : (World × Nat) × Ptr => r.1.2) e3

theorem isTemporaryFunc_like {w W : World} (L : WLike φ w W) {p : Ptr} {b : Bool} (e : isTemporaryFunc w p = some b) :
    isTemporaryFunc W (p.map φ) = some b := by
  unfold isTemporaryFunc at e ⊢
  split at e
  · cases e
  · rename_i w1 f hf
    obtain ⟨W1, e1, L1⟩ := findNext_like L _ _ _ _ _ _ hf
    rw [e1]
    simp only [L1.kind, L1.next]
    exact e

theorem isThisLineFunction_like {w W : World} (L : WLike φ w W) {p : Ptr} {b : Bool} (e : isThisLineFunction w p = some b) :
    isThisLineFunction W (p.map φ) = some b := by
  obtain ⟨⟨⟨w1, c⟩, q1⟩, e1, rfl⟩ := Option.map_eq_some_iff.1 e
  obtain ⟨W', e3, _⟩ := iterW_like (fn' := fun ws a =>
      match ws.1.heap.kind (some a) with
      | .parenL => some ((ws.1, true), false)
      | .newLine => some (ws, false)
      | _ => some (ws, true)) (fun w W s a L => by
        simp only [L.kindA]
        generalize w.heap.kind (some a) = k
        cases k <;> exact IRes.ret L) L e1
  exact congrArg (Option.map fun r : (World × Bool) × Ptr => r.1.2) e3

theorem getRowNameCount_like {w W : World} (L : WLike φ w W) {p : Ptr} {b : Nat} (e : getRowNameCount w p = some b) :
    getRowNameCount W (p.map φ) = some b := by
  obtain ⟨⟨⟨w1, c⟩, q1⟩, e1, rfl⟩ := Option.map_eq_some_iff.1 e
  obtain ⟨W', e3, _⟩ := iterW_like (fn' := fun ws a =>
      let r := ws.2.step (ws.1.heap.kind (some a))
      some ((ws.1, r.1), r.2)) (fun w W s a L => by
        simp only [L.kindA]
        exact IRes.ret L) L e1
  unfold getRowNameCount
  rw [e3]; rfl

/-- What is shown for all resetters that call each other, by induction on the depth. -/
structure LikeSim (φ : Addr → Addr) (d d' : Nat) : Prop where
  paren : ∀ {w W : World} (skip rc : Bool) (p : Ptr) (ks : List Hook), WLike φ w W →
    Res φ (parenRun d skip rc w p ks) (parenRun d' skip rc W (p.map φ) ks)
  param : ∀ {w W : World} (rc : Bool) (p : Ptr) (ks : List Hook), WLike φ w W →
    Res φ (parenParam d rc w p ks) (parenParam d' rc W (p.map φ) ks)
  func : ∀ {w W : World} (r : FuncCfg) (p : Ptr) (ks : List Hook), WLike φ w W →
    Res φ (funcRun d r w p ks) (funcRun d' r W (p.map φ) ks)
  general : ∀ {w W : World} (p : Ptr) (rk : List Kind) (ks : List Hook), WLike φ w W →
    Res φ (generalFunc d w p rk ks) (generalFunc d' W (p.map φ) rk ks)
  parameter : ∀ {w W : World} (p : Ptr) (ks : List Hook), WLike φ w W →
    Res φ (parameterFunc d w p ks) (parameterFunc d' W (p.map φ) ks)
  single : ∀ {w W : World} (p : Ptr) (ks : List Hook), WLike φ w W →
    Res φ (singleReturn d w p ks) (singleReturn d' W (p.map φ) ks)

theorem Res.hookNext {w W : World} (L : WLike φ w W) (p : Ptr) (ks : List Hook) :
    Res φ (some (handleHook w p ks, (handleHook w p ks).heap.next p)) (some (handleHook W (p.map φ) ks, (handleHook W (p.map φ) ks).heap.next (p.map φ))) := by
  have L2 := WLike.hooks p ks L
  rw [L2.next]
  exact Res.ret L2

theorem paren_like {d d' : Nat} (S : LikeSim φ d d') {w W : World} (skip rc : Bool) (p : Ptr) (ks : List Hook) (L : WLike φ w W) :
    Res φ (parenRun (d + 1) skip rc w p ks) (parenRun (d' + 1) skip rc W (p.map φ) ks) := by
  rw [parenRun, parenRun]
  refine Res.ite (fun _ => skipNestNext_like L p _ _ ks) (fun _ => ?_)
  simp only [L.kind]
  refine Res.ite (fun _ => Res.hookNext L p ks) (fun _ => ?_)
  refine jumpLoop_like (fun w W s a L => ?_) L () p
  have P := BRes.toJump (s := ()) (S.param rc (some a) ks L)
  simp only [L.kindA]
  generalize w.heap.kind (some a) = k
  cases k <;> first | exact BRes.ret L rfl | exact P

theorem param_like {d d' : Nat} (S : LikeSim φ d d') {w W : World} (rc : Bool) (p : Ptr) (ks : List Hook) (L : WLike φ w W) :
    Res φ (parenParam (d + 1) rc w p ks) (parenParam (d' + 1) rc W (p.map φ) ks) := by
  rw [parenParam, parenParam]
  cases hc : validParamCount w p with
  | none => exact Res.none
  | some count =>
    rw [validParamCount_like L hc]
    refine jumpLoop_like (fun w W s a L => ?_) L false p
    have P := BRes.toJump (s := s) (skipNestNext_like L (some a) .squareL .squareR ks)
    have Q := BRes.toJump (s := s) (S.func { isParameter := true } (some a) ks L)
    have R : ∀ k1 k2 : Kind, BRes φ (if count = 1 then some ({ w with heap := w.heap.setKind (some a) k2 }, s, Ctl.cont)
        else if s = false then some ({ w with heap := w.heap.setKind (some a) k1 }, true, Ctl.cont)
        else some ({ w with heap := w.heap.setKind (some a) k2 }, s, Ctl.cont))
        (if count = 1 then some ({ W with heap := W.heap.setKind (some (φ a)) k2 }, s, Ctl.cont)
        else if s = false then some ({ W with heap := W.heap.setKind (some (φ a)) k1 }, true, Ctl.cont)
        else some ({ W with heap := W.heap.setKind (some (φ a)) k2 }, s, Ctl.cont)) := fun k1 k2 =>
      BRes.ite (fun _ => BRes.ret (L.setKindA a _) rfl) (fun _ => BRes.ite (fun _ => BRes.ret (L.setKindA a _) rfl) (fun _ => BRes.ret (L.setKindA a _) rfl))
    simp only [L.kindA]
    generalize w.heap.kind (some a) = k
    cases k <;> first | exact BRes.ret L rfl | exact P | exact Q | exact R _ _

theorem func_like {d d' : Nat} (S : LikeSim φ d d') {w W : World} (r : FuncCfg) (p : Ptr) (ks : List Hook) (L : WLike φ w W) :
    Res φ (funcRun (d + 1) r w p ks) (funcRun (d' + 1) r W (p.map φ) ks) := by
  rw [funcRun, funcRun]
  refine Res.ite (fun _ => S.parameter p ks L) (fun _ => Res.ite (fun _ => S.general p _ ks L) (fun _ => ?_))
  cases ht : isTemporaryFunc w p with
  | none => exact Res.none
  | some b =>
    rw [isTemporaryFunc_like L ht]
    cases b with
    | true => exact S.general p _ ks L
    | false =>
      simp only [L.kind]
      refine Res.ite (fun _ => Res.hookNext L p ks) (fun _ => ?_)
      have L2 := WLike.hooks p ks L
      have e2 : ∃ q : Ptr, (if r.isFuncKeywordLeading = true then (if r.isFuncKeywordLeading = true then handleHook w p ks else w).heap.next p else p) = q ∧
          (if r.isFuncKeywordLeading = true then (if r.isFuncKeywordLeading = true then handleHook W (p.map φ) ks else W).heap.next (p.map φ) else p.map φ) = q.map φ := by
        refine ⟨_, rfl, ?_⟩
        split
        · rw [L2.next]
        · rfl
      obtain ⟨hd, q1, q2⟩ := e2
      have L3 : WLike φ (if r.isFuncKeywordLeading = true then handleHook w p ks else w) (if r.isFuncKeywordLeading = true then handleHook W (p.map φ) ks else W) := by
        split
        · exact L2
        · exact L
      rw [q1, q2]
      generalize (if r.isFuncKeywordLeading = true then handleHook w p ks else w) = wx at L3 ⊢
      generalize (if r.isFuncKeywordLeading = true then handleHook W (p.map φ) ks else W) = Wx at L3 ⊢
      refine jumpLoop_like (fun w W s a L => ?_) L3 _ hd
      simp only [L.kindA]
      refine BRes.ite (fun _ => BRes.ret L rfl) (fun _ => BRes.ite (fun _ => BRes.toJump (S.paren _ _ (some a) ks L))
        (fun _ => BRes.ite (fun _ => BRes.ret L rfl) (fun _ => BRes.toJump (S.general hd _ ks L))))

theorem general_like {d d' : Nat} (S : LikeSim φ d d') {w W : World} (p : Ptr) (rk : List Kind) (ks : List Hook) (L : WLike φ w W) :
    Res φ (generalFunc (d + 1) w p rk ks) (generalFunc (d' + 1) W (p.map φ) rk ks) := by
  rw [generalFunc, generalFunc]
  simp only [L.kind, decide_eq_true_eq]
  have L2 := WLike.hooks p ks L
  have e2 : ∃ q : Ptr, (if w.heap.kind p = .func_ then (if w.heap.kind p = .func_ then handleHook w p ks else w).heap.next p else p) = q ∧
      (if w.heap.kind p = .func_ then (if w.heap.kind p = .func_ then handleHook W (p.map φ) ks else W).heap.next (p.map φ) else p.map φ) = q.map φ := by
    refine ⟨_, rfl, ?_⟩
    split
    · rw [L2.next]
    · rfl
  obtain ⟨hd, q1, q2⟩ := e2
  have L3 : WLike φ (if w.heap.kind p = .func_ then handleHook w p ks else w) (if w.heap.kind p = .func_ then handleHook W (p.map φ) ks else W) := by
    split
    · exact L2
    · exact L
  rw [q1, q2]
  generalize (if w.heap.kind p = .func_ then handleHook w p ks else w) = wx at L3 ⊢
  generalize (if w.heap.kind p = .func_ then handleHook W (p.map φ) ks else W) = Wx at L3 ⊢
  generalize (if rk.length ≠ 0 then CharSet.new rk else CharSet.new [.newLine]) = cs
  refine jumpLoop_like (fun w W s a L => ?_) L3 _ hd
  have P := fun s => BRes.toJump (σ := Bool × Bool) (s := s) (S.paren false false (some a) ks L)
  have C := BRes.toJump (s := s) (skipNestNext_like L (some a) .curlyL .curlyR ks)
  have Q := fun s => BRes.toJump (σ := Bool × Bool) (s := s) (skipNestNext_like L (some a) .squareL .squareR ks)
  have N : BRes φ (if s.1 = false then some ({ w with heap := w.heap.setKind (some a) .funcName }, (true, s.2), Ctl.cont) else some (w, s, .cont))
      (if s.1 = false then some ({ W with heap := W.heap.setKind (some (φ a)) .funcName }, (true, s.2), Ctl.cont) else some (W, s, .cont)) :=
    BRes.ite (fun _ => BRes.ret (L.setKindA a _) rfl) (fun _ => BRes.ret L rfl)
  have T : BRes φ (if s.1 = true ∧ s.2 = true then toJump (singleReturn d w (some a) ks) s else some (w, s, .cont))
      (if s.1 = true ∧ s.2 = true then toJump (singleReturn d' W (some (φ a)) ks) s else some (W, s, .cont)) :=
    BRes.ite (fun _ => BRes.toJump (S.single (some a) ks L)) (fun _ => BRes.ret L rfl)
  simp only [L.kindA]
  refine BRes.ite (fun _ => BRes.ret L (by split <;> rfl)) (fun _ => ?_)
  generalize w.heap.kind (some a) = k
  cases k <;> first | exact BRes.ret L rfl | exact N | exact T | exact P _ | exact C | exact Q _

theorem parameter_like {d d' : Nat} (S : LikeSim φ d d') {w W : World} (p : Ptr) (ks : List Hook) (L : WLike φ w W) :
    Res φ (parameterFunc (d + 1) w p ks) (parameterFunc (d' + 1) W (p.map φ) ks) := by
  rw [parameterFunc, parameterFunc]
  cases h1 : generalFunc d w p [.comma, .parenR, .newLine] ks with
  | none => exact Res.none
  | some x =>
    obtain ⟨w1, n⟩ := x
    obtain ⟨W1, e1, L1⟩ := S.general p _ ks L _ _ h1
    rw [e1]
    simp only [L1.kind]
    exact Res.ite (fun _ => Res.hookNext L1 n ks) (fun _ => Res.ret L1)

theorem single_like {d d' : Nat} (S : LikeSim φ d d') {w W : World} (p : Ptr) (ks : List Hook) (L : WLike φ w W) :
    Res φ (singleReturn (d + 1) w p ks) (singleReturn (d' + 1) W (p.map φ) ks) := by
  rw [singleReturn, singleReturn]
  simp only [L.kind]
  refine Res.ite (fun _ => Res.hookNext L p ks) (fun _ => ?_)
  simp only [L.next]
  generalize w.heap.next p = hd
  cases h1 : findNext w hd [.comment] { targetReverse := true } ks with
  | none => exact Res.none
  | some x =>
    obtain ⟨w1, f⟩ := x
    obtain ⟨W1, e1, L1⟩ := findNext_like L hd _ _ ks _ _ h1
    rw [e1]
    have P := S.paren false false hd ks L1
    have Q := S.parameter hd ks L1
    have R : Res φ (match iterW (fun ws a =>
              let w := handleHook ws.1 (some a) ks
              match w.heap.kind (some a) with
              | .newLine | .space | .curlyL => some ((w, ws.2), false)
              | .comment => some ((w, ws.2), true)
              | _ => some ((w, appendUnrepeatable ws.2 [some a]), true)) w1 ([] : List Ptr) hd with
          | none => none
          | some ((w, buf), ret) =>
            match deferCombine w.heap buf .paramType with
            | none => none
            | some h => some ({ w with heap := h }, ret))
        (match iterW (fun ws a =>
              let w := handleHook ws.1 (some a) ks
              match w.heap.kind (some a) with
              | .newLine | .space | .curlyL => some ((w, ws.2), false)
              | .comment => some ((w, ws.2), true)
              | _ => some ((w, appendUnrepeatable ws.2 [some a]), true)) W1 ([] : List Ptr) (hd.map φ) with
          | none => none
          | some ((w, buf), ret) =>
            match deferCombine w.heap buf .paramType with
            | none => none
            | some h => some ({ w with heap := h }, ret)) := by
      split
      · exact Res.none
      · rename_i w2 buf ret hi
        obtain ⟨W2, e2, L2⟩ := iterWL_like (fn' := fun ws a =>
              let w := handleHook ws.1 (some a) ks
              match w.heap.kind (some a) with
              | .newLine | .space | .curlyL => some ((w, ws.2), false)
              | .comment => some ((w, ws.2), true)
              | _ => some ((w, appendUnrepeatable ws.2 [some a]), true)) (fun w W s a L => by
            have L3 := L.hooksA a ks
            have ap := appendUnrep_map L.heap s (some a)
            intro w' s' b e
            simp only [L3.kindA]
            simp only at e
            revert e
            generalize (handleHook w (some a) ks).heap.kind (some a) = k
            cases k <;> (rintro ⟨⟩; first | exact ⟨_, rfl, L3⟩ | exact ⟨_, by rw [← ap]; rfl, L3⟩)) L1 hi
        rw [e2]
        simp only
        cases hd2 : deferCombine w2.heap buf .paramType with
        | none => exact Res.none
        | some h3 =>
          obtain ⟨H3, e3, L3⟩ := deferCombine_like L2.heap buf _ hd2
          rw [e3]
          exact Res.ret ⟨L3, L2.buf⟩
    simp only [L1.kind]
    generalize w1.heap.kind f = k
    cases k <;> first | exact P | exact Q | exact R

theorem likeSim (φ : Addr → Addr) : ∀ (d d' : Nat), d ≤ d' → LikeSim φ d d'
  | 0, d', _ => by
    refine ⟨?_, ?_, ?_, ?_, ?_, ?_⟩
    · intro _ _ _ _ _ _ _; rw [parenRun]; exact Res.none
    · intro _ _ _ _ _ _; rw [parenParam]; exact Res.none
    · intro _ _ _ _ _ _; rw [funcRun]; exact Res.none
    · intro _ _ _ _ _ _; rw [generalFunc]; exact Res.none
    · intro _ _ _ _ _; rw [parameterFunc]; exact Res.none
    · intro _ _ _ _ _; rw [singleReturn]; exact Res.none
  | d + 1, 0, h => absurd h (by omega)
  | d + 1, d' + 1, h =>
    have S := likeSim φ d d' (by omega)
    ⟨paren_like S, param_like S, func_like S, general_like S, parameter_like S, single_like S⟩

/-! ## Types -/

/-- The end of `paramRun`, as a function of what its loop gives. -/
def paramEnd (buf : List Ptr) (r : Option (World × Ptr)) : Option (World × Ptr) :=
  match r with
  | none => none
  | some (w, ret) =>
    match deferCombine w.heap w.buf .paramType with
    | none => none
    | some h => some ({ heap := h, buf := buf }, ret)

theorem paramEnd_like {r r' : Option (World × Ptr)} (R : Res φ r r') {buf buf' : List Ptr} (hb : buf' = buf.map (Option.map φ)) :
    Res φ (paramEnd buf r) (paramEnd buf' r') := by
  cases r with
  | none => exact Res.none
  | some x =>
    obtain ⟨w1, q⟩ := x
    obtain ⟨W1, rfl, L1⟩ := R _ _ rfl
    simp only [paramEnd, L1.buf]
    cases hd : deferCombine w1.heap w1.buf .paramType with
    | none => exact Res.none
    | some h3 =>
      obtain ⟨H3, e3, L3⟩ := deferCombine_like L1.heap _ _ hd
      rw [e3]
      exact Res.ret ⟨L3, hb⟩

theorem paramRun_like {d d' : Nat} (S : LikeSim φ d d') {w W : World} (p : Ptr) (L : WLike φ w W) :
    Res φ (paramRun d w p) (paramRun d' W (p.map φ)) := by
  refine paramEnd_like (jumpLoop_like (fun w W s a L => ?_)
      (show WLike φ { w with buf := [] } { W with buf := [] } from ⟨L.heap, rfl⟩) () p) L.buf
  have P := BRes.toJump (s := ()) (S.paren false false (some a) [.appendBuf] L)
  have C := BRes.toJump (s := ()) (skipNestNext_like L (some a) .curlyL .curlyR [.appendBuf])
  have Q := BRes.toJump (s := ()) (skipNestNext_like L (some a) .squareL .squareR [.appendBuf])
  have F := BRes.toJump (s := ()) (S.func { isNotMethod := true } (some a) [] L)
  have A := BRes.ret (s := ()) (c := .cont) (L.append (some a)) rfl
  simp only [L.kindA]
  generalize w.heap.kind (some a) = k
  cases k <;> first | exact BRes.ret L rfl | exact A | exact P | exact C | exact Q | exact F

theorem interfaceRun_like {d d' : Nat} (S : LikeSim φ d d') {w W : World} (p : Ptr) (L : WLike φ w W) :
    Res φ (interfaceRun d w p) (interfaceRun d' W (p.map φ)) := by
  unfold interfaceRun
  cases h1 : findNext w p [.curlyL] {} [] with
  | none => exact Res.none
  | some x =>
    obtain ⟨w1, f⟩ := x
    obtain ⟨W1, e1, L1⟩ := findNext_like L p _ _ _ _ _ h1
    rw [e1]
    refine jumpLoop_like (fun w W s a L => ?_) L1 () f
    have T : ∀ k : Kind, w.heap.kind (some a) = k → BRes φ
        (match isThisLineFunction w (some a) with
          | none => none
          | some true => toJump (funcRun d { isInterfaceDefinition := true } w (some a) []) ()
          | some false =>
            let w := if k = .raw then { w with heap := w.heap.setKind (some a) .typeName } else w
            toJump (findNext w (some a) [.newLine, .curlyR]
              { isOutsideParenthesis := true, isOutsideCurlyBracket := true,
                isOutsideSquareBracket := true } []) ())
        (match isThisLineFunction W (some (φ a)) with
          | none => none
          | some true => toJump (funcRun d' { isInterfaceDefinition := true } W (some (φ a)) []) ()
          | some false =>
            let w := if k = .raw then { W with heap := W.heap.setKind (some (φ a)) .typeName } else W
            toJump (findNext w (some (φ a)) [.newLine, .curlyR]
              { isOutsideParenthesis := true, isOutsideCurlyBracket := true,
                isOutsideSquareBracket := true } []) ()) := by
      intro k hk
      cases ht : isThisLineFunction w (some a) with
      | none => exact BRes.none
      | some b =>
        have ht' : isThisLineFunction W (some (φ a)) = some b := isThisLineFunction_like L ht
        rw [ht']
        cases b with
        | true => exact BRes.toJump (S.func _ (some a) [] L)
        | false =>
          simp only
          have L2 : WLike φ (if k = .raw then { w with heap := w.heap.setKind (some a) .typeName } else w)
              (if k = .raw then { W with heap := W.heap.setKind (some (φ a)) .typeName } else W) := by
            split
            · exact L.setKindA a _
            · exact L
          exact BRes.toJump (findNext_like L2 (some a) _ _ _)
    simp only [L.kindA]
    revert T
    generalize w.heap.kind (some a) = k
    intro T
    have T := T k rfl
    cases k <;> first | exact BRes.ret L rfl | exact T

theorem structRow_like {d d' : Nat} (S : LikeSim φ d d') {w W : World} (p : Ptr) (L : WLike φ w W) :
    Res φ (structRow d w p) (structRow d' W (p.map φ)) := by
  unfold structRow
  cases h1 : getRowNameCount w p with
  | none => exact Res.none
  | some n =>
    rw [getRowNameCount_like L h1]
    refine jumpLoop_like (fun w W s a L => ?_) L n p
    have N : BRes φ (if s ≠ 0 then some ({ w with heap := w.heap.setKind (some a) .paramName }, s - 1, Ctl.cont)
          else some ({ w with heap := w.heap.setKind (some a) .paramType }, s, .cont))
        (if s ≠ 0 then some ({ W with heap := W.heap.setKind (some (φ a)) .paramName }, s - 1, Ctl.cont)
          else some ({ W with heap := W.heap.setKind (some (φ a)) .paramType }, s, .cont)) :=
      BRes.ite (fun _ => BRes.ret (L.setKindA a _) rfl) (fun _ => BRes.ret (L.setKindA a _) rfl)
    have F := BRes.toJump (s := s) (S.func { isParameter := true } (some a) [.rawToParamType] L)
    simp only [L.kindA]
    generalize w.heap.kind (some a) = k
    cases k <;> first | exact BRes.ret L rfl | exact N | exact F

theorem structRun_like {d d' : Nat} (S : LikeSim φ d d') {w W : World} (p : Ptr) (L : WLike φ w W) :
    Res φ (structRun d w p) (structRun d' W (p.map φ)) := by
  unfold structRun
  cases h1 : findNext w p [.curlyL] {} [] with
  | none => exact Res.none
  | some x =>
    obtain ⟨w1, f⟩ := x
    obtain ⟨W1, e1, L1⟩ := findNext_like L p _ _ _ _ _ h1
    rw [e1]
    simp only [L1.next]
    refine jumpLoop_like (fun w W s a L => ?_) L1 () _
    have R := BRes.toJump (s := ()) (structRow_like S (some a) L)
    simp only [L.kindA]
    generalize w.heap.kind (some a) = k
    cases k <;> first | exact BRes.ret L rfl | exact R

theorem typeRun_like {d d' : Nat} (S : LikeSim φ d d') {w W : World} (p : Ptr) (L : WLike φ w W) :
    Res φ (typeRun d w p) (typeRun d' W (p.map φ)) := by
  unfold typeRun
  simp only [L.kind, L.next]
  refine Res.ite (fun _ => Res.ret L) (fun _ => ?_)
  refine jumpLoop_like (fun w W s a L => ?_) L _ p
  have Q := BRes.toJump (s := s) (skipNestNext_like L (some a) .squareL .squareR [])
  have I := BRes.toJump (s := s) (interfaceRun_like S (some a) L)
  have T := BRes.toJump (s := s) (structRun_like S (some a) L)
  have F := BRes.toJump (s := s) (S.func { isNotMethod := true } (some a) [] L)
  have P := BRes.toJump (s := s) (paramRun_like S (some a) L)
  have N := BRes.ret (s := (true, s.2)) (c := .cont) (L.setKindA a .typeName) rfl
  simp only [L.kindA]
  generalize w.heap.kind (some a) = k
  refine BRes.ite (fun _ => ?_) (fun _ => BRes.ite (fun _ => ?_) (fun _ => ?_))
  · cases k <;> first | exact BRes.ret L rfl | exact N
  · cases k <;> first | exact BRes.ret L rfl | exact Q
  · cases k <;> first | exact BRes.ret L rfl | exact I | exact T | exact F | exact P | exact Q

/-- `resetKind` does the same to the same nodes elsewhere. -/
theorem resetKind_like {h H : Heap} (L : Like φ h H) {p : Ptr} {h' : Heap} {q : Ptr} (e : resetKind h p = some (h', q)) :
    ∃ H', resetKind H (p.map φ) = some (H', q.map φ) ∧ Like φ h' H' := by
  have S := likeSim φ (resetDepth h) (resetDepth H) (by have := L.size; simp only [resetDepth]; omega)
  have LW : WLike φ ⟨h, []⟩ ⟨H, []⟩ := ⟨L, rfl⟩
  unfold resetKind at e ⊢
  simp only [L.kind]
  have F : ∀ {r r' : Option (World × Ptr)}, Res φ r r' → r.map (fun r => (r.1.heap, r.2)) = some (h', q) →
      ∃ H', r'.map (fun r => (r.1.heap, r.2)) = some (H', q.map φ) ∧ Like φ h' H' := by
    intro r r' R e
    obtain ⟨⟨w1, q1⟩, e1, e2⟩ := Option.map_eq_some_iff.1 e
    simp only [Prod.mk.injEq] at e2
    obtain ⟨rfl, rfl⟩ := e2
    obtain ⟨W1, e3, L3⟩ := R _ _ e1
    exact ⟨_, by rw [e3]; rfl, L3.heap⟩
  have F1 := F (S.func { isFuncKeywordLeading := true } p [] LW)
  have F2 := F (typeRun_like S p LW)
  revert e
  generalize h.kind p = k
  intro e
  cases k <;> first | exact F1 e | exact F2 e | (cases e; exact ⟨H, rfl, L⟩)

end Goast
