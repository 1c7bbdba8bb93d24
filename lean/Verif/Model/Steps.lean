import Verif.Model.Describe

/-!
# Model of `/repo/node.go` and the getters of `/repo/scope.go`, one memory access at a time

`Verif/Model/Heap.lean` takes a method call as one function on the heap.  Here a call is a program whose single steps are the reads
and writes of the fields of a node and the allocation of a node, in the order of the Go code.  Goroutines goTogether at these steps.
The address of a new node is chosen by the allocator: any address that is not in use.
-/

namespace Goast

/-- node.go:43-51: the fields of a `Node`. -/
inductive NodeField
  | line | kind | text | prev | next
deriving DecidableEq, Repr

/-- node.go:43-51: the types of the fields. -/
def NodeField.Val : NodeField → Type
  | .line => Int
  | .kind => Kind
  | .text => Bytes
  | .prev => Ptr
  | .next => Ptr

/-- A field of a node. -/
def NodeRec.get (r : NodeRec) : (f : NodeField) → f.Val
  | .line => r.line
  | .kind => r.kind
  | .text => r.text
  | .prev => r.prev
  | .next => r.next

/-- Assignment to a field of a node. -/
def NodeRec.put (r : NodeRec) : (f : NodeField) → f.Val → NodeRec
  | .line, v => { r with line := v }
  | .kind, v => { r with kind := v }
  | .text, v => { r with text := v }
  | .prev, v => { r with prev := v }
  | .next, v => { r with next := v }

/-- What a goroutine still has to do: it is done with a result, it has panicked (a nil pointer was followed, or the stack overflowed), or its
next step is a read, a write or an allocation. -/
inductive Code (α : Type) : Type where
  | ret (x : α)
  | panic
  | read (a : Nat) (f : NodeField) (k : f.Val → Code α)
  | write (a : Nat) (f : NodeField) (v : f.Val) (k : Code α)
  | alloc (r : NodeRec) (k : Nat → Code α)

namespace Code

/-- One piece of code after the other. -/
def bind {α β : Type} : Code α → (α → Code β) → Code β
  | .ret x, g => g x
  | .panic, _ => .panic
  | .read a f k, g => .read a f fun v => (k v).bind g
  | .write a f v k, g => .write a f v (k.bind g)
  | .alloc r k, g => .alloc r fun a => (k a).bind g

instance : Monad Code where
  pure := .ret
  bind := bind

/-- `n.f` in Go: a panic if `n` is nil. -/
def load (n : Ptr) (f : NodeField) : Code f.Val :=
  match n with
  | none => .panic
  | some a => .read a f .ret

/-- `n.f = v` in Go: a panic if `n` is nil. -/
def store (n : Ptr) (f : NodeField) (v : f.Val) : Code Unit :=
  match n with
  | none => .panic
  | some a => .write a f v (.ret ())

/-- node.go:122-129 `Prev`. -/
def prev (n : Ptr) : Code Ptr := if n = none then pure none else load n .prev

/-- node.go:131-138 `Next`. -/
def next (n : Ptr) : Code Ptr := if n = none then pure none else load n .next

/-- node.go:355-362 `Line`. -/
def line (n : Ptr) : Code Int := if n = none then pure (-2) else load n .line

/-- node.go:364-371 `Kind`. -/
def kind (n : Ptr) : Code Kind := if n = none then pure .none else load n .kind

/-- node.go:380-386 `Text`. -/
def text (n : Ptr) : Code Bytes := if n = none then pure [] else load n .text

/-- node.go:373-378 `SetKind`. -/
def setKind (n : Ptr) (k : Kind) : Code Unit := if n = none then pure () else store n .kind k

/-- node.go:410-416 `SetText`. -/
def setText (n : Ptr) (t : Bytes) : Code Unit := if n = none then pure () else store n .text t

/-- node.go:434-445 `setPrev`; `n.prev` is read twice. -/
def setPrev (n nn : Ptr) : Code Unit :=
  if n = nn ∨ n = none then pure ()
  else do
    let p : Ptr ← load n .prev
    if p ≠ none then
      let p : Ptr ← load n .prev
      store p .next (none : Ptr)
    store n .prev nn

/-- node.go:447-458 `setNext`; `n.next` is read twice. -/
def setNext (n nn : Ptr) : Code Unit :=
  if n = nn ∨ n = none then pure ()
  else do
    let p : Ptr ← load n .next
    if p ≠ none then
      let p : Ptr ← load n .next
      store p .prev (none : Ptr)
    store n .next nn

/-- node.go:17-24 `NewNode`. -/
def newNode (line : Int) (text : Bytes) (kinds : List Kind := []) : Code Ptr :=
  match kinds with
  | k :: _ => .alloc { line, kind := k, text, prev := none, next := none } fun a => .ret (some a)
  | [] => .alloc { line, kind := Kind.new text, text, prev := none, next := none } fun a => .ret (some a)

/-- node.go:150-170 `InsertPrev`. -/
def insertPrev (n nn : Ptr) : Code (Ptr × Ptr) :=
  if n = nn then pure (none, none)
  else do
    let p ← prev n
    if p = nn then pure (none, none)
    else
      let oldPrev ← prev nn
      let oldNext ← next nn
      let nPrev ← prev n
      setPrev n nn
      setNext nn n
      setPrev nn nPrev
      setNext nPrev nn
      setNext oldPrev none
      setPrev oldNext none
      pure (oldPrev, oldNext)

/-- node.go:172-192 `InsertNext`. -/
def insertNext (n nn : Ptr) : Code (Ptr × Ptr) :=
  if n = nn then pure (none, none)
  else do
    let p ← next n
    if p = nn then pure (none, none)
    else
      let oldPrev ← prev nn
      let oldNext ← next nn
      let nNext ← next n
      setNext n nn
      setPrev nn n
      setNext nn nNext
      setPrev nNext nn
      setNext oldPrev none
      setPrev oldNext none
      pure (oldPrev, oldNext)

/-- node.go:194-211 `ReplacePrev`. -/
def replacePrev (n nn : Ptr) : Code (Ptr × Ptr) :=
  if n = nn then pure (none, none)
  else do
    let p ← prev n
    if p = nn then pure (none, none)
    else
      let oldPrev ← prev n
      let oldNext ← next nn
      setPrev n nn
      setNext nn n
      setNext oldPrev none
      setPrev oldNext none
      pure (oldPrev, oldNext)

/-- node.go:213-230 `ReplaceNext`. -/
def replaceNext (n nn : Ptr) : Code (Ptr × Ptr) :=
  if n = nn then pure (none, none)
  else do
    let p ← next n
    if p = nn then pure (none, none)
    else
      let oldPrev ← prev nn
      let oldNext ← next n
      setNext n nn
      setPrev nn n
      setNext oldPrev none
      setPrev oldNext none
      pure (oldPrev, oldNext)

/-- node.go:232-244 `TakePrev`. -/
def takePrev (n : Ptr) : Code Ptr := do
  let removed ← prev n
  let newPrev ← prev removed
  setPrev n newPrev
  setNext newPrev n
  setNext removed none
  setPrev removed none
  pure removed

/-- node.go:246-258 `TakeNext`. -/
def takeNext (n : Ptr) : Code Ptr := do
  let removed ← next n
  let newNext ← next removed
  setNext n newNext
  setPrev newNext n
  setNext removed none
  setPrev removed none
  pure removed

/-- node.go:260-267 `RemovePrev`. -/
def removePrev (n : Ptr) : Code Ptr := do
  let removed ← prev n
  setPrev n none
  setNext removed none
  pure removed

/-- node.go:269-276 `RemoveNext`. -/
def removeNext (n : Ptr) : Code Ptr := do
  let removed ← next n
  setNext n none
  setPrev removed none
  pure removed

/-- node.go:346-353 `Isolate`. -/
def isolate (n : Ptr) : Code Unit := do
  let p ← prev n
  setNext p none
  let q ← next n
  setPrev q none
  setPrev n none
  setNext n none

/-- The loop of node.go:296-304 and 331-339. -/
def combineLoop (n : Ptr) : List Ptr → List Bytes → Code (List Bytes)
  | [], buf => pure buf
  | nn :: nns, buf =>
    if nn = none ∨ n = nn then combineLoop n nns buf
    else do
      let t ← text nn
      isolate nn
      combineLoop n nns (buf ++ [t])

/-- node.go:317-344 `CombineNext`. -/
def combineNext (n : Ptr) (k : Kind) (nns : List Ptr) : Code Ptr := do
  setKind n k
  match nns with
  | [] => pure n
  | nn0 :: rest =>
    let m := if n = none then (nn0, rest) else (n, nns)
    let t ← text m.1
    let buf ← combineLoop m.1 m.2 [t]
    store m.1 .text buf.flatten
    pure m.1

/-- node.go:278-311 `CombinePrev`. -/
def combinePrev (n : Ptr) (k : Kind) (nns : List Ptr) : Code Ptr := do
  setKind n k
  match nns with
  | [] => pure n
  | nn0 :: rest =>
    let m := if n = none then (nn0, rest) else (n, nns)
    let t ← text m.1
    let buf ← combineLoop m.1 m.2 [t]
    store m.1 .text buf.reverse.flatten
    pure m.1

/-- node.go:73-96 `deepCopy`; `fuel` is the depth of the stack, beyond it the goroutine crashes. -/
def deepCopy : Nat → Ptr → Ptr → Ptr → Code Ptr
  | _, none, _, _ => pure none
  | 0, some _, _, _ => .panic
  | fuel + 1, some a, pre, nxt => do
    let l ← load (some a) .line
    let k ← load (some a) .kind
    let t ← load (some a) .text
    let nn : Ptr ← Code.alloc { line := l, kind := k, text := t, prev := none, next := none } fun a => .ret (some a)
    let pre : Ptr ← (if pre = none then (do
        let p ← prev (some a)
        deepCopy fuel p none nn)
      else pure pre)
    let nxt : Ptr ← (if nxt = none then (do
        let q ← next (some a)
        deepCopy fuel q nn none)
      else pure nxt)
    store nn .prev pre
    store nn .next nxt
    pure nn

/-- node.go:53-71 `Copy`. -/
def copy (fuel : Nat) (n : Ptr) (copyRelative : Bool) : Code Ptr :=
  if n = none then pure none
  else if copyRelative then deepCopy fuel n none none
  else do
    let l ← load n .line
    let k ← load n .kind
    let t ← load n .text
    .alloc { line := l, kind := k, text := t, prev := none, next := none } fun a => .ret (some a)

/-- The loop of node.go:33-38. -/
def newNodesLoop : Ptr → Int → List Bytes → Code Unit
  | _, _, [] => pure ()
  | cur, startLine, t :: ts => do
    let nn ← newNode startLine t
    let _ ← insertNext cur nn
    let cur ← next cur
    newNodesLoop cur (startLine + countNL t) ts

/-- node.go:26-41 `NewNodes`. -/
def newNodes (startLine : Int) (texts : List Bytes) : Code Ptr :=
  match texts with
  | [] => pure none
  | t :: ts => do
    let head ← newNode startLine t
    newNodesLoop head startLine ts
    pure head

/-- node.go:98-106 `loop`, the callback being code too; `fuel` bounds the number of rounds (beyond it the model gives up as if by a panic). -/
def loop {σ : Type} (iter : Ptr → Code Ptr) (fn : σ → Ptr → Code (σ × Bool)) : Nat → σ → Ptr → Code (σ × Ptr)
  | _, s, none => pure (s, none)
  | 0, _, some _ => .panic
  | fuel + 1, s, some a => do
    let (s, go) ← fn s (some a)
    if go then
      let nn ← iter (some a)
      loop iter fn fuel s nn
    else pure (s, some a)

/-- node.go:115-120 `IterNext`. -/
def iterNext {σ : Type} (fuel : Nat) (fn : σ → Ptr → Code (σ × Bool)) (s : σ) (n : Ptr) : Code (σ × Ptr) := loop next fn fuel s n

/-- node.go:108-113 `IterPrev`. -/
def iterPrev {σ : Type} (fuel : Nat) (fn : σ → Ptr → Code (σ × Bool)) (s : σ) (n : Ptr) : Code (σ × Ptr) := loop prev fn fuel s n

/-- node.go:140-143 `First`. -/
def first (fuel : Nat) (n : Ptr) : Code Ptr := do
  let r ← iterPrev fuel (fun () a => do let p ← prev a; pure ((), decide (p ≠ none))) () n
  pure r.2

/-- node.go:145-148 `Last`. -/
def last (fuel : Nat) (n : Ptr) : Code Ptr := do
  let r ← iterNext fuel (fun () a => do let p ← next a; pure ((), decide (p ≠ none))) () n
  pure r.2

/-- node.go:418-426 `Description` of a node. -/
def describe (n : Ptr) : Code Bytes :=
  if n = none then pure b!"<nil>"
  else do
    let l ← line n
    let t ← text n
    let k ← kind n
    pure (itoa (l + 1) ++ b!" .... " ++ tidyText t ++ b!" .... *Node." ++ k.name)

/-- The search of scope.go:209-302 (`findKindName` in Model/Scope). -/
def findKindName (fuel : Nat) (n : Ptr) (k : Kind) : Code (Bytes × Bool) := do
  let r ← iterNext fuel (fun (_ : Bytes × Bool) a => do
    let k' ← kind a
    let t ← text a
    pure ((t, decide (k' = k)), !decide (k' = k))) ([], false) n
  pure r.1

/-- scope.go:186-207 `GetFuncName`. -/
def getFuncName (fuel : Nat) (d : ScopeRec) : Code (Bytes × Bool) :=
  if d.kind ≠ .func_ then pure ([], false)
  else do
    let r ← iterNext fuel (fun (s : Bytes × Bool) a => do
      let k ← kind a
      if k = .funcName then
        let t ← text a
        pure ((t, true), false)
      else pure (s, true)) ([], false) d.node
    pure r.1

/-- scope.go:209-226 `GetTypeName`. -/
def getTypeName (fuel : Nat) (d : ScopeRec) : Code (Bytes × Bool) :=
  if d.kind ≠ .type_ then pure ([], false) else findKindName fuel d.node .typeName

/-- The search of scope.go:228-260: is some node of kind `k`? -/
def hasKind (fuel : Nat) (n : Ptr) (k : Kind) : Code Bool := do
  let r ← iterNext fuel (fun (_ : Bool) a => do
    let k' ← kind a
    pure (decide (k' = k), !decide (k' = k))) false n
  pure r.1

/-- scope.go:228-243 `GetStructName`. -/
def getStructName (fuel : Nat) (d : ScopeRec) : Code (Bytes × Bool) :=
  if d.kind ≠ .type_ then pure ([], false)
  else do
    let b ← hasKind fuel d.node .struct_
    let r ← getTypeName fuel d
    pure (r.1, b)

/-- scope.go:245-260 `GetInterfaceName`. -/
def getInterfaceName (fuel : Nat) (d : ScopeRec) : Code (Bytes × Bool) :=
  if d.kind ≠ .type_ then pure ([], false)
  else do
    let b ← hasKind fuel d.node .interface_
    let r ← getTypeName fuel d
    pure (r.1, b)

/-- scope.go:285-302 `GetMethodReceiver`. -/
def getMethodReceiver (fuel : Nat) (d : ScopeRec) : Code (Bytes × Bool) :=
  if d.kind ≠ .func_ then pure ([], false) else findKindName fuel d.node .methodReceiverType

/-- scope.go:262-283 `GetMethodName`. -/
def getMethodName (fuel : Nat) (d : ScopeRec) : Code (Bytes × Bool) :=
  if d.kind ≠ .func_ then pure ([], false)
  else do
    let r ← getMethodReceiver fuel d
    if r.2 then findKindName fuel d.node .funcName else pure ([], false)

end Code

/-! ## One goroutine alone, and many together -/

/-- The memory: which addresses hold a node, and which. -/
abbrev Mem := Nat → Option NodeRec

/-- Assignment to an address. -/
def Mem.set (m : Mem) (a : Nat) (r : NodeRec) : Mem := fun b => if b = a then some r else m b

/-- One step of a goroutine; `c` is the address the allocator would give.  `none`: it is done, has panicked, or an address in use was offered. -/
def Code.step {α : Type} (m : Mem) : Code α → Nat → Option (Mem × Code α)
  | .ret _, _ => none
  | .panic, _ => none
  | .read a f k, _ => (m a).map fun r => (m, k (r.get f))
  | .write a f v k, _ => (m a).map fun r => (m.set a (r.put f v), k)
  | .alloc r k, c => if m c = none then some (m.set c r, k c) else none

/-- A goroutine alone: as many steps as there are addresses offered. -/
def Code.alone {α : Type} (m : Mem) (p : Code α) : List Nat → Option (Mem × Code α)
  | [] => some (m, p)
  | c :: cs => match p.step m c with
    | none => none
    | some (m, p) => alone m p cs

/-- Many goroutines on one memory: the schedule says who makes the next step, and which address the allocator offers. -/
def goTogether {α : Type} (m : Mem) (ps : Nat → Code α) : List (Nat × Nat) → Option (Mem × (Nat → Code α))
  | [] => some (m, ps)
  | (i, c) :: sched => match (ps i).step m c with
    | none => none
    | some (m, p) => goTogether m (fun j => if j = i then p else ps j) sched

/-- The address the next step of a goroutine touches, and whether it writes. -/
def Code.touches {α : Type} : Code α → Option (Nat × Bool)
  | .read a _ _ => some (a, false)
  | .write a _ _ _ => some (a, true)
  | _ => none

/-- The nodes of a heap as memory. -/
def Heap.mem (h : Heap) : Mem := fun a => h.cells[a]?

/-- Code run to its end by the only goroutine, new nodes being put behind the old ones; `none` is a panic. -/
def Code.exec {α : Type} (h : Heap) : Code α → Option (Heap × α)
  | .ret x => some (h, x)
  | .panic => none
  | .read a f k => match h.cells[a]? with
    | none => none
    | some r => (k (r.get f)).exec h
  | .write a f v k => if a < h.size then k.exec (h.modify a (·.put f v)) else none
  | .alloc r k => (k (h.alloc r).2).exec (h.alloc r).1

end Goast
