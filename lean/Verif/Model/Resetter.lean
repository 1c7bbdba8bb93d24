import Verif.Model.Heap

/-!
# Model of `/repo/node.go:460-555`, `/repo/kind_resetter_all.go`, `kind_resetter_func.go`,
`kind_resetter_parenthesis.go` and `kind_resetter_type.go`

The resetters walk a chain of nodes with `IterNext`, change kinds and merge nodes.  Two kinds of
unbounded behaviour are cut off by counters, and hitting either is reported as `none`:

* iterations of one `IterNext` loop: `heap.size + 1`;
* nesting depth of resetter calls: the argument `d`.

`none` also stands for a nil-pointer panic (only `CombineNext` can have one).
`Verif/Props/Reset.lean` proves that on every chain `ParseScope` can produce (in fact on every
acyclic chain) the result is never `none`, so neither bound is ever hit.

The calls of `helper.DebugPrint` only print when debugging is switched on (`Verif/Model/Debug.lean`); what the
resetters print is not part of their model.
`parenthesisResetter2` (kind_resetter_parenthesis.go:169-255) is dead code: no caller in /repo.
-/

namespace Goast

/-- The callbacks (`hooks ...func(*Node)`) that exist in /repo: the closure of
kind_resetter_all.go:159-161 that appends to the `buf` of the enclosing `paramResetter.Run`, and the
closure of kind_resetter_type.go:259-263 that turns `Raw` into `ParamType`. -/
inductive Hook
  | appendBuf
  | rawToParamType
deriving DecidableEq, Repr

/-- What resetters can change: the heap, and the variable `buf` of the enclosing
`paramResetter.Run` (captured by the first hook; `paramResetter.Run` never nests). -/
structure World where
  heap : Heap
  buf : List Ptr
deriving DecidableEq, Repr, Inhabited

/-- Effect of one hook on one node (kind_resetter_all.go:159-161, kind_resetter_type.go:259-263). -/
def runHook (w : World) (n : Ptr) : Hook → World
  | .appendBuf => { w with buf := appendUnrepeatable w.buf [n] }
  | .rawToParamType =>
    if w.heap.kind n = .raw then { w with heap := w.heap.setKind n .paramType } else w

/-- kind_resetter_all.go:23-27 `handleHook`. -/
def handleHook (w : World) (n : Ptr) (hooks : List Hook) : World :=
  hooks.foldl (fun w k => runHook w n k) w

/-- `IterNext` (node.go:115-120) inside the resetters: the callback may change the world and its
captured variables `σ`; the next node is read from the current heap. -/
def iterW {σ : Type} (fn : World × σ → Addr → Option ((World × σ) × Bool))
    (w : World) (s : σ) (n : Ptr) : Option ((World × σ) × Ptr) :=
  loop (fun ws a => ws.1.heap.next (some a)) fn (w.heap.size + 1) (w, s) n

/-! ## node.go:460-555 -/

/-- node.go:547-555 `findNodeOption`. -/
structure FindOpt where
  targetReverse : Bool := false
  isInsideParenthesis : Bool := false
  isInsideCurlyBracket : Bool := false
  isInsideSquareBracket : Bool := false
  isOutsideParenthesis : Bool := false
  isOutsideCurlyBracket : Bool := false
  isOutsideSquareBracket : Bool := false
deriving DecidableEq, Repr

/-- The three counters captured by the callback of `findNext` (node.go:490-493). -/
structure Counts where
  paren : Int := 0
  curly : Int := 0
  square : Int := 0
deriving DecidableEq, Repr

/-- node.go:500-513: the bracket counters after a node of kind `k`. -/
def Counts.step (c : Counts) (k : Kind) : Counts :=
  match k with
  | .parenL => { c with paren := c.paren + 1 }
  | .curlyL => { c with curly := c.curly + 1 }
  | .squareL => { c with square := c.square + 1 }
  | .parenR => { c with paren := c.paren - 1 }
  | .curlyR => { c with curly := c.curly - 1 }
  | .squareR => { c with square := c.square - 1 }
  | _ => c

/-- node.go:515-543: keep iterating? (counters already updated for the node of kind `k`). -/
def findCont (target : List Kind) (opt : FindOpt) (c : Counts) (k : Kind) : Bool :=
  if opt.isInsideParenthesis && decide (c.paren = 0) then true
  else if opt.isInsideCurlyBracket && decide (c.curly = 0) then true
  else if opt.isInsideSquareBracket && decide (c.square = 0) then true
  else if opt.isOutsideParenthesis && decide (c.paren ≠ 0) then true
  else if opt.isOutsideCurlyBracket && decide (c.curly ≠ 0) then true
  else if opt.isOutsideSquareBracket && decide (c.square ≠ 0) then true
  else if (CharSet.new target).contain k then opt.targetReverse
  else !opt.targetReverse

/-- node.go:484-545 `findNext`. -/
def findNext (w : World) (n : Ptr) (target : List Kind) (opt : FindOpt) (hooks : List Hook) :
    Option (World × Ptr) :=
  (iterW (fun ws a =>
      let w := handleHook ws.1 (some a) hooks
      let k := w.heap.kind (some a)
      let c := ws.2.step k
      some ((w, c), findCont target opt c k)) w ({} : Counts) n).map
    fun r => (r.1.1, r.2)

/-- node.go:460-482 `skipNestNext`. -/
def skipNestNext (w : World) (n : Ptr) (nestLeft nestRight : Kind) (hooks : List Hook) :
    Option (World × Ptr) :=
  match (if w.heap.kind n = nestLeft then
      match findNext (handleHook w n hooks) n [nestLeft] {} hooks with
      | none => none
      | some (w, f) => some (w, w.heap.next f)      -- skip first nestLeft
    else some (w, n)) with
  | none => none
  | some (w, n) =>
    (iterW (fun ws a =>
        let w := handleHook ws.1 (some a) hooks
        let k := w.heap.kind (some a)
        if k = nestLeft then some ((w, ws.2 + 1), true)
        else if k = nestRight then some ((w, ws.2 - 1), decide (ws.2 - 1 ≠ 0))
        else some ((w, ws.2), true)) w (1 : Int) n).map
      fun r => (r.1.1, r.2)

/-! ## The common shape of the resetters' callbacks -/

/-- What one callback invocation decides after the common prologue. -/
inductive Ctl
  /-- `return false` -/
  | stop
  /-- `return true` -/
  | cont
  /-- `jumpTo = p; skipAll = jumpTo == nil; return true` -/
  | jump (p : Ptr)
deriving DecidableEq, Repr

/-- The captured variables `skipAll`, `jumpTo` plus the others (`σ`). -/
structure JState (σ : Type) where
  skipAll : Bool
  jumpTo : Ptr
  s : σ

/-- Apply a `Ctl`. -/
def applyCtl {σ : Type} (w : World) (s : σ) (c : Ctl) : (World × JState σ) × Bool :=
  match c with
  | .stop => ((w, ⟨false, none, s⟩), false)
  | .cont => ((w, ⟨false, none, s⟩), true)
  | .jump p => ((w, ⟨decide (p = none), p, s⟩), true)

/-- The prologue shared by every resetter callback (e.g. kind_resetter_func.go:73-83):
```
handleHook(n, hooks...)
if skipAll { return true }
if jumpTo != nil { if n != jumpTo { return true }; jumpTo = nil }
```
followed by `body`.  `consume` is the variant of kind_resetter_type.go:35-40, where the node jumped
to is itself passed over. -/
def jumpStep {σ : Type} (consume : Bool) (hooks : List Hook)
    (body : World → σ → Addr → Option (World × σ × Ctl))
    (ws : World × JState σ) (a : Addr) : Option ((World × JState σ) × Bool) :=
  let w := handleHook ws.1 (some a) hooks
  let j := ws.2
  if j.skipAll then some ((w, j), true)
  else if j.jumpTo ≠ none ∧ j.jumpTo ≠ some a then some ((w, j), true)
  else if j.jumpTo ≠ none ∧ consume = true then some ((w, ⟨false, none, j.s⟩), true)
  else
    match body w j.s a with
    | none => none
    | some (w, s, c) => some (applyCtl w s c)

/-- `return head.IterNext(func(n *Node) bool { prologue; body })`. -/
def jumpLoop {σ : Type} (consume : Bool) (hooks : List Hook)
    (body : World → σ → Addr → Option (World × σ × Ctl))
    (w : World) (s : σ) (head : Ptr) : Option (World × Ptr) :=
  (iterW (jumpStep consume hooks body) w (⟨false, none, s⟩ : JState σ) head).map
    fun r => (r.1.1, r.2)

/-- Run a nested resetter and turn its result into a jump. -/
def toJump {σ : Type} (r : Option (World × Ptr)) (s : σ) : Option (World × σ × Ctl) :=
  match r with
  | none => none
  | some (w, p) => some (w, s, .jump p)

/-- The deferred merge of kind_resetter_all.go:131-138 and kind_resetter_func.go:251-258. -/
def deferCombine (h : Heap) (buf : List Ptr) (k : Kind) : Option Heap :=
  match buf with
  | [] => some h
  | n :: rest =>
    let next := h.next ((n :: rest).getLast (by simp))
    match h.combineNext n k rest with
    | none => none
    | some (h, n) => some (h.replaceNext n next).1

/-! ## Brackets (kind_resetter_parenthesis.go) -/

/-- kind_resetter_parenthesis.go:135-150 `curlyBracketResetter.Run` (both branches are the same). -/
def curlyRun (w : World) (head : Ptr) (hooks : List Hook) : Option (World × Ptr) :=
  skipNestNext w head .curlyL .curlyR hooks

/-- kind_resetter_parenthesis.go:152-167 `squareBracketResetter.Run` (both branches are the same). -/
def squareRun (w : World) (head : Ptr) (hooks : List Hook) : Option (World × Ptr) :=
  skipNestNext w head .squareL .squareR hooks

/-- kind_resetter_parenthesis.go:77-88: count the relevant nodes up to `,` or `)`. -/
def validParamCount (w : World) (head : Ptr) : Option Nat :=
  (iterW (fun ws a =>
      match ws.1.heap.kind (some a) with
      | .comma | .parenR => some (ws, false)
      | .space | .tab | .comment | .newLine => some (ws, true)
      | _ => some ((ws.1, ws.2 + 1), true)) w (0 : Nat) head).map fun r => r.1.2

/-- kind_resetter_func.go:197-212 `isTemporaryFunc`. -/
def isTemporaryFunc (w : World) (head : Ptr) : Option Bool :=
  match findNext w head [.newLine, .curlyR]
      { isOutsideParenthesis := true, isOutsideCurlyBracket := true,
        isOutsideSquareBracket := true } [] with
  | none => none
  | some (w, found) =>
    if w.heap.kind found ≠ .curlyR then some false
    else some (decide (w.heap.kind (w.heap.next found) = .parenL))

/-- kind_resetter_func.go:26-31 `funcResetter`. -/
structure FuncCfg where
  isParameter : Bool := false
  isFuncKeywordLeading : Bool := false
  isInterfaceDefinition : Bool := false
  isNotMethod : Bool := false
deriving DecidableEq, Repr

mutual

/-- kind_resetter_parenthesis.go:14-56 `parenthesisResetter.Run`. -/
def parenRun : Nat → Bool → Bool → World → Ptr → List Hook → Option (World × Ptr)
  | 0, _, _, _, _, _ => none
  | d + 1, skip, isReceiver, w, head, hooks =>
    if skip then skipNestNext w head .parenL .parenR hooks
    else if w.heap.kind head ≠ .parenL then
      let w := handleHook w head hooks
      some (w, w.heap.next head)
    else
      jumpLoop false hooks (fun w (_ : Unit) a =>
        match w.heap.kind (some a) with
        | .parenR => some (w, (), .stop)
        | .comment | .comma | .parenL | .tab | .newLine | .space => some (w, (), .cont)
        | _ => toJump (parenParam d isReceiver w (some a) hooks) ()) w () head

/-- kind_resetter_parenthesis.go:58-133 `handleParenthesisParam`. -/
def parenParam : Nat → Bool → World → Ptr → List Hook → Option (World × Ptr)
  | 0, _, _, _, _ => none
  | d + 1, isReceiver, w, head, hooks =>
    let nameKind : Kind := if isReceiver then .methodReceiverName else .paramName
    let typeKind : Kind := if isReceiver then .methodReceiverType else .paramType
    match validParamCount w head with
    | none => none
    | some count =>
      jumpLoop false hooks (fun w (named : Bool) a =>
        match w.heap.kind (some a) with
        | .comma | .parenR => some (w, named, .stop)
        | .squareL => toJump (squareRun w (some a) hooks) named
        | .comment | .parenL | .tab | .newLine | .space => some (w, named, .cont)
        | .func_ => toJump (funcRun d { isParameter := true } w (some a) hooks) named
        | .raw | .paramType | .paramName =>
          if count = 1 then
            some ({ w with heap := w.heap.setKind (some a) typeKind }, named, .cont)
          else if named = false then
            some ({ w with heap := w.heap.setKind (some a) nameKind }, true, .cont)
          else some ({ w with heap := w.heap.setKind (some a) typeKind }, named, .cont)
        | _ => some (w, named, .cont)) w false head

/-- kind_resetter_func.go:33-115 `funcResetter.Run`. -/
def funcRun : Nat → FuncCfg → World → Ptr → List Hook → Option (World × Ptr)
  | 0, _, _, _, _ => none
  | d + 1, r, w, head, hooks =>
    if r.isParameter then parameterFunc d w head hooks
    else if r.isInterfaceDefinition then generalFunc d w head [.newLine] hooks
    else match isTemporaryFunc w head with
    | none => none
    | some true => generalFunc d w head [.newLine] hooks
    | some false =>
      if r.isFuncKeywordLeading ∧ w.heap.kind head ≠ .func_ then
        let w := handleHook w head hooks
        some (w, w.heap.next head)
      else
        let w := if r.isFuncKeywordLeading then handleHook w head hooks else w
        let head := if r.isFuncKeywordLeading then w.heap.next head else head
        -- captured state: (foundFuncOrMethod, isMethod)
        jumpLoop false hooks (fun w (s : Bool × Bool) a =>
          let k := w.heap.kind (some a)
          if s.1 = false ∧ k ≠ .raw ∧ k ≠ .parenL then some (w, s, .cont)
          else
            let isMethod := if s.1 = false then decide (k = .parenL) else s.2
            if isMethod then toJump (parenRun d false true w (some a) hooks) (true, false)
            else if k = .newLine then some (w, (true, false), .stop)
            else toJump (generalFunc d w head [.newLine] hooks) (true, false))
          w (r.isNotMethod, false) head

/-- kind_resetter_func.go:117-194 `handleGeneralFunc`. -/
def generalFunc : Nat → World → Ptr → List Kind → List Hook → Option (World × Ptr)
  | 0, _, _, _, _ => none
  | d + 1, w, head, returnKinds, hooks =>
    let isReturnKind : CharSet Kind :=
      if returnKinds.length ≠ 0 then CharSet.new returnKinds else CharSet.new [.newLine]
    let isFunc := decide (w.heap.kind head = .func_)
    let w := if isFunc then handleHook w head hooks else w
    let head := if isFunc then w.heap.next head else head
    -- captured state: (isFuncNameAssigned, isFuncParamHandled)
    jumpLoop false hooks (fun w (s : Bool × Bool) a =>
      let k := w.heap.kind (some a)
      if isReturnKind.contain k then some (w, s, if s.2 then .stop else .cont)
      else match k with
      | .comment => some (w, s, .cont)
      | .raw =>
        if s.1 = false then
          some ({ w with heap := w.heap.setKind (some a) .funcName }, (true, s.2), .cont)
        else some (w, s, .cont)
      | .space =>
        if s.1 = true ∧ s.2 = true then toJump (singleReturn d w (some a) hooks) s
        else some (w, s, .cont)
      | .parenL => toJump (parenRun d false false w (some a) hooks) (s.1, true)
      | .curlyL => toJump (curlyRun w (some a) hooks) s
      | .squareL => toJump (squareRun w (some a) hooks) (s.1, true)
      | _ => some (w, s, .cont)) w (false, false) head

/-- kind_resetter_func.go:214-225 `handleParameterFunc`. -/
def parameterFunc : Nat → World → Ptr → List Hook → Option (World × Ptr)
  | 0, _, _, _ => none
  | d + 1, w, head, hooks =>
    match generalFunc d w head [.comma, .parenR, .newLine] hooks with
    | none => none
    | some (w, n) =>
      if w.heap.kind n = .parenR then
        let w := handleHook w n hooks
        some (w, w.heap.next n)
      else some (w, n)

/-- kind_resetter_func.go:227-272 `handleSingleReturnType`. -/
def singleReturn : Nat → World → Ptr → List Hook → Option (World × Ptr)
  | 0, _, _, _ => none
  | d + 1, w, head, hooks =>
    if w.heap.kind head ≠ .space then
      let w := handleHook w head hooks
      some (w, w.heap.next head)
    else
      let head := w.heap.next head      -- skip first space
      match findNext w head [.comment] { targetReverse := true } hooks with
      | none => none
      | some (w, found) =>
        match w.heap.kind found with
        | .parenL => parenRun d false false w head hooks
        | .func_ => parameterFunc d w head hooks
        | _ =>
          match iterW (fun ws a =>
              let w := handleHook ws.1 (some a) hooks
              match w.heap.kind (some a) with
              | .newLine | .space | .curlyL => some ((w, ws.2), false)
              | .comment => some ((w, ws.2), true)
              | _ => some ((w, appendUnrepeatable ws.2 [some a]), true)) w ([] : List Ptr) head with
          | none => none
          | some ((w, buf), ret) =>
            match deferCombine w.heap buf .paramType with
            | none => none
            | some h => some ({ w with heap := h }, ret)

end

/-- kind_resetter_all.go:114-190 `paramResetter.Run` as its only caller uses it
(kind_resetter_type.go:83: `skip` false, `resetKind = ParamType`, `returnKinds = {NewLine}`, no
hooks).  `buf` starts empty and is dropped at the end. -/
def paramRun (d : Nat) (w : World) (head : Ptr) : Option (World × Ptr) :=
  let saved := w.buf
  match jumpLoop false [] (fun w (_ : Unit) a =>
      match w.heap.kind (some a) with
      | .newLine => some (w, (), .stop)
      | .parenL => toJump (parenRun d false false w (some a) [.appendBuf]) ()
      | .curlyL => toJump (curlyRun w (some a) [.appendBuf]) ()
      | .squareL => toJump (squareRun w (some a) [.appendBuf]) ()
      | .func_ => toJump (funcRun d { isNotMethod := true } w (some a) []) ()
      | .comment => some (w, (), .cont)
      | _ => some ({ w with buf := appendUnrepeatable w.buf [some a] }, (), .cont))
      { w with buf := [] } () head with
  | none => none
  | some (w, ret) =>
    match deferCombine w.heap w.buf .paramType with
    | none => none
    | some h => some ({ heap := h, buf := saved }, ret)

/-! ## Types (kind_resetter_type.go).  `typeResetter.Run` is only called by `resetKind`, without
hooks, so the functions of this section have none. -/

/-- kind_resetter_type.go:153-167 `isThisLineFunction`. -/
def isThisLineFunction (w : World) (head : Ptr) : Option Bool :=
  (iterW (fun ws a =>
      match ws.1.heap.kind (some a) with
      | .parenL => some ((ws.1, true), false)
      | .newLine => some (ws, false)
      | _ => some (ws, true)) w false head).map fun r => r.1.2

/-- kind_resetter_type.go:96-151 `interfaceResetter.Run`. -/
def interfaceRun (d : Nat) (w : World) (head : Ptr) : Option (World × Ptr) :=
  match findNext w head [.curlyL] {} [] with
  | none => none
  | some (w, head) =>
    jumpLoop false [] (fun w (_ : Unit) a =>
      match w.heap.kind (some a) with
      | .curlyR => some (w, (), .stop)
      | .tab | .comment | .newLine | .space | .curlyL => some (w, (), .cont)
      | k =>
        match isThisLineFunction w (some a) with
        | none => none
        | some true => toJump (funcRun d { isInterfaceDefinition := true } w (some a) []) ()
        | some false =>
          let w := if k = .raw then { w with heap := w.heap.setKind (some a) .typeName } else w
          toJump (findNext w (some a) [.newLine, .curlyR]
            { isOutsideParenthesis := true, isOutsideCurlyBracket := true,
              isOutsideSquareBracket := true } []) ()) w () head

/-- The captured variables of `getRowNameCount` (kind_resetter_type.go:275-281). -/
structure RowSt where
  rawCount : Nat := 0
  hasComma : Bool := false
  hasSpaceOrAfterRaw : Bool := false
  cacheNameCount : Nat := 0
  nameCount : Nat := 0
deriving DecidableEq, Repr

/-- The callback of kind_resetter_type.go:283-317. -/
def RowSt.step (s : RowSt) (k : Kind) : RowSt × Bool :=
  match k with
  | .newLine => (if s.hasSpaceOrAfterRaw then { s with nameCount := s.cacheNameCount } else s, false)
  | .comment | .tab => (s, true)
  | .raw => ({ s with rawCount := s.rawCount + 1 }, true)
  | .space =>
    if s.rawCount ≠ 0 then
      let s := if !s.hasComma && decide (s.cacheNameCount = 0)
        then { s with cacheNameCount := s.cacheNameCount + 1 } else s
      ({ s with hasSpaceOrAfterRaw := true }, true)
    else (s, true)
  | .comma =>
    let s := if s.cacheNameCount = 0 then { s with cacheNameCount := s.cacheNameCount + 1 } else s
    let c := s.cacheNameCount + 1
    ({ s with hasComma := true, cacheNameCount := c, nameCount := c }, true)
  | _ => (if s.hasSpaceOrAfterRaw then { s with nameCount := s.cacheNameCount } else s, false)

/-- kind_resetter_type.go:274-320 `getRowNameCount`. -/
def getRowNameCount (w : World) (head : Ptr) : Option Nat :=
  (iterW (fun ws a =>
      let r := ws.2.step (ws.1.heap.kind (some a))
      some ((ws.1, r.1), r.2)) w ({} : RowSt) head).map fun r => r.1.2.nameCount

/-- kind_resetter_type.go:211-272 `handleStructRow`. -/
def structRow (d : Nat) (w : World) (head : Ptr) : Option (World × Ptr) :=
  match getRowNameCount w head with
  | none => none
  | some count =>
    jumpLoop false [] (fun w (paramNameCount : Nat) a =>
      match w.heap.kind (some a) with
      | .newLine => some (w, paramNameCount, .stop)
      | .comment | .tab | .space | .comma => some (w, paramNameCount, .cont)
      | .raw =>
        if paramNameCount ≠ 0 then
          some ({ w with heap := w.heap.setKind (some a) .paramName }, paramNameCount - 1, .cont)
        else some ({ w with heap := w.heap.setKind (some a) .paramType }, paramNameCount, .cont)
      | .func_ =>
        toJump (funcRun d { isParameter := true } w (some a) [.rawToParamType]) paramNameCount
      | _ => some (w, paramNameCount, .cont)) w count head

/-- kind_resetter_type.go:169-209 `structResetter.Run`. -/
def structRun (d : Nat) (w : World) (head : Ptr) : Option (World × Ptr) :=
  match findNext w head [.curlyL] {} [] with
  | none => none
  | some (w, f) =>
    jumpLoop false [] (fun w (_ : Unit) a =>
      match w.heap.kind (some a) with
      | .curlyR => some (w, (), .stop)
      | .comment | .curlyL | .newLine => some (w, (), .cont)
      | _ => toJump (structRow d w (some a)) ()) w () (w.heap.next f)

/-- kind_resetter_type.go:13-94 `typeResetter.Run`.  Captured state:
`(isTypeNameAssigned, isSpaceAfterTypeName)`. -/
def typeRun (d : Nat) (w : World) (head : Ptr) : Option (World × Ptr) :=
  if w.heap.kind head ≠ .type_ then some (w, w.heap.next head)
  else
    jumpLoop true [] (fun w (s : Bool × Bool) a =>
      let k := w.heap.kind (some a)
      if s.1 = false then
        match k with
        | .curlyR | .newLine => some (w, s, .stop)
        | .raw => some ({ w with heap := w.heap.setKind (some a) .typeName }, (true, s.2), .cont)
        | _ => some (w, s, .cont)
      else if s.2 = false then
        match k with
        | .space => some (w, (s.1, true), .cont)
        | .squareL => toJump (squareRun w (some a) []) s
        | _ => some (w, s, .cont)
      else match k with
        | .comment => some (w, s, .cont)
        | .interface_ => toJump (interfaceRun d w (some a)) s
        | .struct_ => toJump (structRun d w (some a)) s
        | .func_ => toJump (funcRun d { isNotMethod := true } w (some a) []) s
        | .raw => toJump (paramRun d w (some a)) s
        | .squareL => toJump (squareRun w (some a) []) s
        | _ => some (w, s, .cont)) w (false, false) head

/-- Nesting depth allowed by the model; `Verif/Props/Reset.lean` shows it is never exhausted. -/
def resetDepth (h : Heap) : Nat := 8 * (h.size + 1)

/-- kind_resetter_all.go:9-17 `resetKind`. -/
def resetKind (h : Heap) (n : Ptr) : Option (Heap × Ptr) :=
  match h.kind n with
  | .func_ =>
    (funcRun (resetDepth h) { isFuncKeywordLeading := true } ⟨h, []⟩ n []).map
      fun r => (r.1.heap, r.2)
  | .type_ => (typeRun (resetDepth h) ⟨h, []⟩ n).map fun r => (r.1.heap, r.2)
  | _ => some (h, none)

end Goast
