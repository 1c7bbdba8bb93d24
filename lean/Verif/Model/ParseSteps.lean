import Verif.Model.Steps

/-!
# Model of `ParseScope`, one memory access at a time

`Verif/Model/Extract.lean`, `Verif/Model/Resetter.lean` and `Verif/Model/Scope.lean` take the functions behind `ParseScope` as functions
on the heap.  Here they are programs in the sense of `Verif/Model/Steps.lean`: every read and write of a field of a node is a step of its own,
in the order of the Go code, and so is every `NewNode`.  The texts, counters, builders and slices a call keeps to itself are plain values.

`F` bounds the rounds of one `IterNext`, `d` the nesting of resetter calls; beyond them the model gives up as if by a panic.
`Verif/Props/ParseSteps.lean` shows that large bounds are never reached.

The `debugText(5)` every resetter calls on entry (whether or not anything is printed) reads nodes and is here; the flag that
`DebugPrint` reads, and the package variables that are never assigned, are not.
-/

namespace Goast

namespace Code

/-! ## extractor.go -/

/-- What the nested `Run` calls share besides the nodes (extractor.go:120): `buf`, `i`, `line`. -/
structure Cursor where
  buf : Bytes
  i : Nat
  line : Int
deriving DecidableEq, Repr

/-- extractor.go:132-150 `insertNode`. -/
def insertNode (F : Nat) (l : Local) (n : Ptr) : Code Local :=
  if n = none then pure l
  else do
    let head := if l.head = none then n else l.head
    if l.cur ≠ none then
      let _ ← replaceNext l.cur n
    let cur ← last F n
    pure { l with head, cur }

/-- extractor.go:152-163 `pushNode`. -/
def pushNode (F : Nat) (s : Cursor) (l : Local) (useLine : Bool) (kinds : List Kind) : Code (Cursor × Local) :=
  if s.buf.length = 0 then pure (s, l)
  else do
    let n ← newNode (if useLine then s.line else l.bufLine) s.buf kinds
    let l ← insertNode F l n
    pure ({ s with buf := [] }, { l with bufLine := s.line })

/-- extractor.go:165-169 `lineStep`, given the current byte `text[*i]`. -/
def lineStep (char : UInt8) (s : Cursor) : Cursor :=
  if char = 10 then { s with line := s.line + 1 } else s

/-- The loop of extractor.go:171-223; as `runLoop` of `Verif/Model/Extract.lean`. -/
def runLoop (ord : Nat → List (Bytes × Ext)) (text : Bytes) (F : Nat) :
    Nat → Ext → Cursor → Local → Code (Cursor × Ptr)
  | 0, _, _, _ => .panic
  | fuel + 1, e, s, l =>
    match text[s.i]? with
    | none => do
      let r ← pushNode F s l true []
      pure (r.1, r.2.head)
    | some char =>
      match (if e.hasDeeper then prefixFit (ord s.i) (text.drop s.i) else none) with
      | some ee => do
        -- extractor.go:174-189
        let r ← pushNode F s l true []
        let r ← (if ee.includeOpen then pure ({ r.1 with buf := r.1.buf ++ [char] }, r.2)
          else do
            let n ← newNode r.2.bufLine (byteToString char)
            let l ← insertNode F r.2 n
            pure (r.1, l))
        let s := { r.1 with i := r.1.i + 1 }
        let ns ← runLoop ord text F fuel ee s { head := none, cur := none, bufLine := s.line }
        let l ← insertNode F r.2 ns.2
        runLoop ord text F fuel e { ns.1 with i := ns.1.i + 1 } l
      | none =>
        let trailing := text.take (s.i + 1)
        if e.skipReturnKeyword.length ≠ 0 && hasSuffix trailing e.skipReturnKeyword then
          -- extractor.go:192-197
          let s := lineStep char { s with buf := s.buf ++ [char] }
          runLoop ord text F fuel e { s with i := s.i + 1 } l
        else if e.returnKeyword.length ≠ 0 && hasSuffix trailing e.returnKeyword then do
          -- extractor.go:199-210
          let r ← (if e.includeClose then pushNode F { s with buf := s.buf ++ [char] } l false e.kinds
            else do
              let r ← pushNode F s l true e.kinds
              let n ← newNode r.1.line (byteToString char)
              let l ← insertNode F r.2 n
              pure (r.1, l))
          pure (lineStep char r.1, r.2.head)
        else do
          -- extractor.go:212-220
          let r ← (if e.separators.contain char then do
              let r ← pushNode F s l true []
              let n ← newNode r.1.line (byteToString char)
              let l ← insertNode F r.2 n
              pure (r.1, l)
            else pure ({ s with buf := s.buf ++ [char] }, l))
          let s := lineStep char r.1
          runLoop ord text F fuel e { s with i := s.i + 1 } r.2

/-- extractor.go:11-23 `extract`. -/
def extract (ord : Nat → List (Bytes × Ext)) (F : Nat) (text : Bytes) : Code Ptr := do
  let r ← runLoop ord text F (text.length + 2) .common { buf := [], i := 0, line := 0 } { head := none, cur := none, bufLine := 0 }
  pure r.2

/-! ## Resetters: code with the variable `buf` that the hook of kind_resetter_all.go:159-161 captures -/

end Code

/-- Code that may also read and set the captured variable `buf`. -/
abbrev RCode := StateT (List Ptr) Code

namespace RCode

/-- Code that leaves `buf` alone. -/
def run {α : Type} (p : Code α) : RCode α := fun buf => do let x ← p; pure (x, buf)

/-- node.go:364-371 `Kind`. -/
def kind (n : Ptr) : RCode Kind := run (Code.kind n)

/-- node.go:131-138 `Next`. -/
def next (n : Ptr) : RCode Ptr := run (Code.next n)

/-- node.go:373-378 `SetKind`. -/
def setKind (n : Ptr) (k : Kind) : RCode Unit := run (Code.setKind n k)

/-- The loop of node.go:402-406. -/
def debugTextLoop : Nat → Ptr → Bytes → Code Bytes
  | _, none, buf => pure buf
  | 0, some _, buf => pure buf
  | count + 1, some a, buf => do
    let t ← Code.text (some a)
    let buf := buf ++ tidyText t
    if count = 0 then pure buf
    else
      let n ← Code.next (some a)
      debugTextLoop count n buf

/-- node.go:388-408 `debugText(5)`, as every resetter calls it on entry; the text only matters when it is printed. -/
def debugText (n : Ptr) : RCode Unit := run (do let _ ← debugTextLoop 6 n []; pure ())

/-- Effect of one hook on one node (kind_resetter_all.go:159-161, kind_resetter_type.go:259-263). -/
def runHook (n : Ptr) : Hook → RCode Unit
  | .appendBuf => fun buf => pure ((), appendUnrepeatable buf [n])
  | .rawToParamType => do
    let k ← kind n
    if k = .raw then setKind n .paramType else pure ()

/-- kind_resetter_all.go:23-27 `handleHook`. -/
def handleHook (n : Ptr) : List Hook → RCode Unit
  | [] => pure ()
  | k :: ks => do
    runHook n k
    handleHook n ks

/-- node.go:115-120 `IterNext`. -/
def iter {σ : Type} (F : Nat) (fn : σ → Ptr → RCode (σ × Bool)) (s : σ) (n : Ptr) : RCode (σ × Ptr) := fun buf => do
  let r ← Code.iterNext F (fun (b : σ × List Ptr) a => do
    let r ← fn b.1 a b.2
    pure ((r.1.1, r.2), r.1.2)) (s, buf) n
  pure ((r.1.1, r.2), r.1.2)

/-- node.go:484-545 `findNext`; the kind is read once for the counters and once for the target (node.go:499, 539). -/
def findNext (F : Nat) (n : Ptr) (target : List Kind) (opt : FindOpt) (hooks : List Hook) : RCode Ptr := do
  let r ← iter F (fun (c : Counts) a => do
    handleHook a hooks
    let k ← kind a
    let c := c.step k
    let k ← kind a
    pure (c, findCont target opt c k)) {} n
  pure r.2

/-- node.go:460-482 `skipNestNext`. -/
def skipNestNext (F : Nat) (n : Ptr) (nestLeft nestRight : Kind) (hooks : List Hook) : RCode Ptr := do
  let k ← kind n
  let n ← (if k = nestLeft then do
      handleHook n hooks
      let f ← findNext F n [nestLeft] {} hooks
      next f
    else pure n)
  let r ← iter F (fun (count : Int) a => do
    handleHook a hooks
    let k ← kind a
    if k = nestLeft then pure (count + 1, true)
    else if k = nestRight then pure (count - 1, decide (count - 1 ≠ 0))
    else pure (count, true)) 1 n
  pure r.2

/-- What the callback of a resetter does with its decision: `return false`, `return true`, or
`jumpTo = p; skipAll = jumpTo == nil; return true`. -/
def ctl {σ : Type} (s : σ) : Ctl → JState σ × Bool
  | .stop => (⟨false, none, s⟩, false)
  | .cont => (⟨false, none, s⟩, true)
  | .jump p => (⟨decide (p = none), p, s⟩, true)

/-- The prologue shared by every resetter callback (e.g. kind_resetter_func.go:73-83), then `body`; as `jumpStep` of
`Verif/Model/Resetter.lean`. -/
def jumpStep {σ : Type} (consume : Bool) (hooks : List Hook) (body : σ → Ptr → RCode (σ × Ctl)) (j : JState σ) (a : Ptr) :
    RCode (JState σ × Bool) := do
  handleHook a hooks
  if j.skipAll then pure (j, true)
  else if j.jumpTo ≠ none ∧ j.jumpTo ≠ a then pure (j, true)
  else if j.jumpTo ≠ none ∧ consume = true then pure (⟨false, none, j.s⟩, true)
  else
    let r ← body j.s a
    pure (ctl r.1 r.2)

/-- `return head.IterNext(func(n *Node) bool { prologue; body })`. -/
def jumpLoop {σ : Type} (F : Nat) (consume : Bool) (hooks : List Hook) (body : σ → Ptr → RCode (σ × Ctl)) (s : σ) (head : Ptr) : RCode Ptr := do
  let r ← iter F (jumpStep consume hooks body) ⟨false, none, s⟩ head
  pure r.2

/-- Run a nested resetter and turn its result into a jump. -/
def toJump {σ : Type} (p : RCode Ptr) (s : σ) : RCode (σ × Ctl) := do
  let r ← p
  pure (s, .jump r)

/-- The deferred merge of kind_resetter_all.go:131-138 and kind_resetter_func.go:251-258. -/
def deferCombine (buf : List Ptr) (k : Kind) : Code Unit :=
  match buf with
  | [] => pure ()
  | n :: rest => do
    let next ← Code.next ((n :: rest).getLast (by simp))
    let n ← Code.combineNext n k rest
    let _ ← Code.replaceNext n next
    pure ()

/-- kind_resetter_parenthesis.go:135-150 `curlyBracketResetter.Run`. -/
def curlyRun (F : Nat) (head : Ptr) (hooks : List Hook) : RCode Ptr := do
  debugText head
  skipNestNext F head .curlyL .curlyR hooks

/-- kind_resetter_parenthesis.go:152-167 `squareBracketResetter.Run`. -/
def squareRun (F : Nat) (head : Ptr) (hooks : List Hook) : RCode Ptr := do
  debugText head
  skipNestNext F head .squareL .squareR hooks

/-- kind_resetter_parenthesis.go:77-88. -/
def validParamCount (F : Nat) (head : Ptr) : RCode Nat := do
  let r ← iter F (fun (c : Nat) a => do
    let k ← kind a
    match k with
    | .comma | .parenR => pure (c, false)
    | .space | .tab | .comment | .newLine => pure (c, true)
    | _ => pure (c + 1, true)) 0 head
  pure r.1

/-- kind_resetter_func.go:197-212 `isTemporaryFunc`. -/
def isTemporaryFunc (F : Nat) (head : Ptr) : RCode Bool := do
  let found ← findNext F head [.newLine, .curlyR]
    { isOutsideParenthesis := true, isOutsideCurlyBracket := true, isOutsideSquareBracket := true } []
  let k ← kind found
  if k ≠ .curlyR then pure false
  else
    let n ← next found
    let k ← kind n
    pure (decide (k = .parenL))

/-- kind_resetter_func.go:60-114, behind the `func` keyword; `paren` and `general` are the two resetters it calls (lines 101 and 110).
The state is `(foundFuncOrMethod, isMethod)`; as long as the first is false so is the second. -/
def funcBody (F : Nat) (paren : Ptr → RCode Ptr) (general : RCode Ptr) (isNotMethod : Bool) (head : Ptr) (hooks : List Hook) : RCode Ptr :=
  jumpLoop F false hooks (fun (s : Bool × Bool) a => do
    let det ← (if s.1 = false then do
        let k ← kind a
        pure (if k = .raw then some false else if k = .parenL then some true else none)
      else pure (some s.2))
    match det with
    | none => pure (s, .cont)
    | some true => toJump (paren a) (true, false)
    | some false =>
      let k ← kind a
      if k = .newLine then pure ((true, false), .stop)
      else toJump general (true, false)) (isNotMethod, false) head

mutual

/-- kind_resetter_parenthesis.go:14-56 `parenthesisResetter.Run`. -/
def parenRun (F : Nat) : Nat → Bool → Bool → Ptr → List Hook → RCode Ptr
  | 0, _, _, _, _ => run .panic
  | d + 1, skip, isReceiver, head, hooks => do
    debugText head
    if skip then skipNestNext F head .parenL .parenR hooks
    else
      let k ← kind head
      if k ≠ .parenL then
        handleHook head hooks
        next head
      else
        jumpLoop F false hooks (fun (_ : Unit) a => do
          let k ← kind a
          match k with
          | .parenR => pure ((), .stop)
          | .comment | .comma | .parenL | .tab | .newLine | .space => pure ((), .cont)
          | _ => toJump (parenParam F d isReceiver a hooks) ()) () head

/-- kind_resetter_parenthesis.go:58-133 `handleParenthesisParam`. -/
def parenParam (F : Nat) : Nat → Bool → Ptr → List Hook → RCode Ptr
  | 0, _, _, _ => run .panic
  | d + 1, isReceiver, head, hooks => do
    debugText head
    let nameKind : Kind := if isReceiver then .methodReceiverName else .paramName
    let typeKind : Kind := if isReceiver then .methodReceiverType else .paramType
    let count ← validParamCount F head
    jumpLoop F false hooks (fun (named : Bool) a => do
      let k ← kind a
      match k with
      | .comma | .parenR => pure (named, .stop)
      | .squareL => toJump (squareRun F a hooks) named
      | .comment | .parenL | .tab | .newLine | .space => pure (named, .cont)
      | .func_ => toJump (funcRun F d { isParameter := true } a hooks) named
      | .raw | .paramType | .paramName =>
        if count = 1 then do
          setKind a typeKind
          pure (named, .cont)
        else if named = false then do
          setKind a nameKind
          pure (true, .cont)
        else do
          setKind a typeKind
          pure (named, .cont)
      | _ => pure (named, .cont)) false head

/-- kind_resetter_func.go:33-115 `funcResetter.Run`. -/
def funcRun (F : Nat) : Nat → FuncCfg → Ptr → List Hook → RCode Ptr
  | 0, _, _, _ => run .panic
  | d + 1, r, head, hooks => do
    debugText head
    if r.isParameter then parameterFunc F d head hooks
    else if r.isInterfaceDefinition then generalFunc F d head [.newLine] hooks
    else
      let temporary ← isTemporaryFunc F head
      if temporary then generalFunc F d head [.newLine] hooks
      else if r.isFuncKeywordLeading then
        let k ← kind head
        handleHook head hooks
        let n ← next head
        if k ≠ .func_ then pure n
        else funcBody F (fun a => parenRun F d false true a hooks) (generalFunc F d n [.newLine] hooks) r.isNotMethod n hooks
      else funcBody F (fun a => parenRun F d false true a hooks) (generalFunc F d head [.newLine] hooks) r.isNotMethod head hooks

/-- kind_resetter_func.go:117-194 `handleGeneralFunc`; the kind of a node is read once for the end (line 155) and once for the `switch`. -/
def generalFunc (F : Nat) : Nat → Ptr → List Kind → List Hook → RCode Ptr
  | 0, _, _, _ => run .panic
  | d + 1, head, returnKinds, hooks => do
    debugText head
    let isReturnKind : CharSet Kind :=
      if returnKinds.length ≠ 0 then CharSet.new returnKinds else CharSet.new [.newLine]
    let k ← kind head
    let head ← (if k = .func_ then do
        handleHook head hooks
        next head
      else pure head)
    jumpLoop F false hooks (fun (s : Bool × Bool) a => do
      let k ← kind a
      if isReturnKind.contain k then pure (s, if s.2 then .stop else .cont)
      else
        let k ← kind a
        match k with
        | .comment => pure (s, .cont)
        | .raw =>
          if s.1 = false then do
            setKind a .funcName
            pure ((true, s.2), .cont)
          else pure (s, .cont)
        | .space =>
          if s.1 = true ∧ s.2 = true then toJump (singleReturn F d a hooks) s
          else pure (s, .cont)
        | .parenL => toJump (parenRun F d false false a hooks) (s.1, true)
        | .curlyL => toJump (curlyRun F a hooks) s
        | .squareL => toJump (squareRun F a hooks) (s.1, true)
        | _ => pure (s, .cont)) (false, false) head

/-- kind_resetter_func.go:214-225 `handleParameterFunc`. -/
def parameterFunc (F : Nat) : Nat → Ptr → List Hook → RCode Ptr
  | 0, _, _ => run .panic
  | d + 1, head, hooks => do
    debugText head
    let n ← generalFunc F d head [.comma, .parenR, .newLine] hooks
    let k ← kind n
    if k = .parenR then
      handleHook n hooks
      next n
    else pure n

/-- kind_resetter_func.go:227-272 `handleSingleReturnType`. -/
def singleReturn (F : Nat) : Nat → Ptr → List Hook → RCode Ptr
  | 0, _, _ => run .panic
  | d + 1, head, hooks => do
    debugText head
    let k ← kind head
    if k ≠ .space then
      handleHook head hooks
      next head
    else
      let head ← next head
      let found ← findNext F head [.comment] { targetReverse := true } hooks
      let k ← kind found
      match k with
      | .parenL => parenRun F d false false head hooks
      | .func_ => parameterFunc F d head hooks
      | _ =>
        let r ← iter F (fun (buf : List Ptr) a => do
          handleHook a hooks
          let k ← kind a
          match k with
          | .newLine | .space | .curlyL => pure (buf, false)
          | .comment => pure (buf, true)
          | _ => pure (appendUnrepeatable buf [a], true)) [] head
        run (deferCombine r.1 .paramType)
        pure r.2

end

/-- kind_resetter_all.go:114-190 `paramResetter.Run`, as its only caller uses it; the kind of a node is read once for the end (line 153) and
once for the `switch`. -/
def paramRun (F d : Nat) (head : Ptr) : RCode Ptr := do
  debugText head
  let saved : List Ptr ← get
  set ([] : List Ptr)
  let ret ← jumpLoop F false [] (fun (_ : Unit) a => do
    let k ← kind a
    if k = .newLine then pure ((), .stop)
    else
      let k ← kind a
      match k with
      | .parenL => toJump (parenRun F d false false a [.appendBuf]) ()
      | .curlyL => toJump (curlyRun F a [.appendBuf]) ()
      | .squareL => toJump (squareRun F a [.appendBuf]) ()
      | .func_ => toJump (funcRun F d { isNotMethod := true } a []) ()
      | .comment => pure ((), .cont)
      | _ =>
        runHook a .appendBuf
        pure ((), .cont)) () head
  let buf : List Ptr ← get
  run (deferCombine buf .paramType)
  set saved
  pure ret

/-- kind_resetter_type.go:153-167 `isThisLineFunction`. -/
def isThisLineFunction (F : Nat) (head : Ptr) : RCode Bool := do
  let r ← iter F (fun (b : Bool) a => do
    let k ← kind a
    match k with
    | .parenL => pure (true, false)
    | .newLine => pure (b, false)
    | _ => pure (b, true)) false head
  pure r.1

/-- kind_resetter_type.go:96-151 `interfaceResetter.Run`. -/
def interfaceRun (F d : Nat) (head : Ptr) : RCode Ptr := do
  debugText head
  let head ← findNext F head [.curlyL] {} []
  jumpLoop F false [] (fun (_ : Unit) a => do
    let k ← kind a
    match k with
    | .curlyR => pure ((), .stop)
    | .tab | .comment | .newLine | .space | .curlyL => pure ((), .cont)
    | _ =>
      let b ← isThisLineFunction F a
      if b then toJump (funcRun F d { isInterfaceDefinition := true } a []) ()
      else
        let k ← kind a
        if k = .raw then setKind a .typeName
        toJump (findNext F a [.newLine, .curlyR]
          { isOutsideParenthesis := true, isOutsideCurlyBracket := true, isOutsideSquareBracket := true } []) ()) () head

/-- kind_resetter_type.go:274-320 `getRowNameCount`. -/
def getRowNameCount (F : Nat) (head : Ptr) : RCode Nat := do
  let r ← iter F (fun (s : RowSt) a => do
    let k ← kind a
    pure (s.step k)) {} head
  pure r.1.nameCount

/-- kind_resetter_type.go:211-272 `handleStructRow`. -/
def structRow (F d : Nat) (head : Ptr) : RCode Ptr := do
  debugText head
  let count ← getRowNameCount F head
  jumpLoop F false [] (fun (paramNameCount : Nat) a => do
    let k ← kind a
    match k with
    | .newLine => pure (paramNameCount, .stop)
    | .comment | .tab | .space | .comma => pure (paramNameCount, .cont)
    | .raw =>
      if paramNameCount ≠ 0 then do
        setKind a .paramName
        pure (paramNameCount - 1, .cont)
      else do
        setKind a .paramType
        pure (paramNameCount, .cont)
    | .func_ => toJump (funcRun F d { isParameter := true } a [.rawToParamType]) paramNameCount
    | _ => pure (paramNameCount, .cont)) count head

/-- kind_resetter_type.go:169-209 `structResetter.Run`. -/
def structRun (F d : Nat) (head : Ptr) : RCode Ptr := do
  debugText head
  let f ← findNext F head [.curlyL] {} []
  let head ← next f
  jumpLoop F false [] (fun (_ : Unit) a => do
    let k ← kind a
    match k with
    | .curlyR => pure ((), .stop)
    | .comment | .curlyL | .newLine => pure ((), .cont)
    | _ => toJump (structRow F d a) ()) () head

/-- kind_resetter_type.go:13-94 `typeResetter.Run`. -/
def typeRun (F d : Nat) (head : Ptr) : RCode Ptr := do
  debugText head
  let k ← kind head
  if k ≠ .type_ then next head
  else
    jumpLoop F true [] (fun (s : Bool × Bool) a => do
      let k ← kind a
      if s.1 = false then
        match k with
        | .curlyR | .newLine => pure (s, .stop)
        | .raw => do
          setKind a .typeName
          pure ((true, s.2), .cont)
        | _ => pure (s, .cont)
      else if s.2 = false then
        match k with
        | .space => pure ((s.1, true), .cont)
        | .squareL => toJump (squareRun F a []) s
        | _ => pure (s, .cont)
      else match k with
        | .comment => pure (s, .cont)
        | .interface_ => toJump (interfaceRun F d a) s
        | .struct_ => toJump (structRun F d a) s
        | .func_ => toJump (funcRun F d { isNotMethod := true } a []) s
        | .raw => toJump (paramRun F d a) s
        | .squareL => toJump (squareRun F a []) s
        | _ => pure (s, .cont)) (false, false) head

/-- kind_resetter_all.go:9-17 `resetKind`. -/
def resetKind (F d : Nat) (n : Ptr) : RCode Unit := do
  let k ← kind n
  match k with
  | .func_ =>
    let _ ← funcRun F d { isFuncKeywordLeading := true } n []
  | .type_ =>
    let _ ← typeRun F d n
  | _ => pure ()

end RCode

namespace Code

/-! ## scope.go -/

/-- The variables of `ParseScope` captured by its closures (scope.go:69-74), without the nodes. -/
structure ParseVars where
  scs : List ScopeRec
  head : Ptr
  k : ScopeKind
  line : Int
deriving DecidableEq, Repr

/-- scope.go:76-89 `tryAppendScope`. -/
def tryAppendScope (s : ParseVars) : Code ParseVars := do
  let s ← (if s.k ≠ .unknown then do
      let l ← line s.head
      pure { s with scs := s.scs ++ [newScope l s.k s.head] }
    else pure s)
  let p ← prev s.head
  if p ≠ none then
    let _ ← removePrev s.head
  pure s

/-- The callback of scope.go:91-107. -/
def parseStep (s : ParseVars) (a : Ptr) : Code (ParseVars × Bool) := do
  let l ← line a
  if l = s.line then pure (s, true)
  else
    let l ← line a
    let s := { s with line := l }
    let t ← text a
    let nk := newScopeKind t
    if nk = .unknown then pure (s, true)
    else
      let s ← tryAppendScope s
      pure ({ s with head := a, k := nk }, true)

/-- scope.go:111-113: reset the kinds of every scope, in order. -/
def resetAll (F d : Nat) : List ScopeRec → Code Unit
  | [] => pure ()
  | sc :: scs => do
    let _ ← RCode.resetKind F d sc.node []
    resetAll F d scs

/-- scope.go:62-116 `ParseScope(startLine, text)`. -/
def parseScope (ord : Nat → List (Bytes × Ext)) (F : Nat) (startLine : Int) (text : Bytes) : Code (List ScopeRec) := do
  let node ← extract ord F text
  let r ← iterNext F parseStep { scs := [], head := node, k := .unknown, line := startLine - 1 } node
  let s ← tryAppendScope r.1
  resetAll F (8 * F) s.scs
  pure s.scs

end Code

end Goast
