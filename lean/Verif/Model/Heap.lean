import Verif.Model.Kind

/-!
# Model of `/repo/node.go`: a heap of doubly linked nodes

A `*Node` is an address into a heap (`none` is the nil pointer).  A method that mutates through
pointers becomes a function returning the new heap.  Go `int` is unbounded `Int` here.
`Description` (node.go:418-426), `Print` (node.go:429-431) and `debugText` (node.go:388-408) are in
`Verif/Model/Describe.lean`; `skipNestNext` and `findNext` (node.go:460-546) are in
`Verif/Model/Resetter.lean`.
-/

namespace Goast

/-- The address of a node: an index into the heap (a name for `Nat`). -/
macro "Addr" : term => `(Nat)

/-- A Go `*Node`: `none` is nil. -/
abbrev Ptr := Option Addr

/-- node.go:43-51 `type Node struct`. -/
structure NodeRec where
  line : Int
  kind : Kind
  text : Bytes
  prev : Ptr
  next : Ptr
deriving DecidableEq, Repr, Inhabited

/-- The nodes allocated so far; the address of a node is its index. -/
structure Heap where
  cells : List NodeRec
deriving DecidableEq, Repr, Inhabited

namespace Heap

/-- Number of allocated nodes. -/
def size (h : Heap) : Nat := h.cells.length

/-- Change one allocated node in place (`n.field = …` in Go). -/
def modify (h : Heap) (a : Addr) (f : NodeRec → NodeRec) : Heap :=
  ⟨h.cells.modify a f⟩

/-- Go `&Node{…}`: allocate a fresh node. -/
def alloc (h : Heap) (r : NodeRec) : Heap × Addr :=
  (⟨h.cells ++ [r]⟩, h.cells.length)

/-- node.go:122-129 `Prev` (nil-safe). -/
def prev (h : Heap) (n : Ptr) : Ptr :=
  match n with
  | none => none
  | some a => (h.cells[a]?).bind (·.prev)

/-- node.go:131-138 `Next` (nil-safe). -/
def next (h : Heap) (n : Ptr) : Ptr :=
  match n with
  | none => none
  | some a => (h.cells[a]?).bind (·.next)

/-- node.go:355-362 `Line`: -2 on nil. -/
def line (h : Heap) (n : Ptr) : Int :=
  match n with
  | none => -2
  | some a => match h.cells[a]? with
    | none => -2
    | some r => r.line

/-- node.go:364-371 `Kind`: `None` on nil. -/
def kind (h : Heap) (n : Ptr) : Kind :=
  match n with
  | none => .none
  | some a => match h.cells[a]? with
    | none => .none
    | some r => r.kind

/-- node.go:380-386 `Text`: empty on nil. -/
def text (h : Heap) (n : Ptr) : Bytes :=
  match n with
  | none => []
  | some a => match h.cells[a]? with
    | none => []
    | some r => r.text

/-- node.go:373-378 `SetKind`. -/
def setKind (h : Heap) (n : Ptr) (k : Kind) : Heap :=
  match n with
  | none => h
  | some a => h.modify a ({ · with kind := k })

/-- node.go:410-416 `SetText`. -/
def setText (h : Heap) (n : Ptr) (t : Bytes) : Heap :=
  match n with
  | none => h
  | some a => h.modify a ({ · with text := t })

/-- node.go:434-445 `setPrev`: a no-op when `n == nn` or `n` is nil; otherwise the old
predecessor's `next` is cleared and `n.prev` becomes `nn` (`nn.next` is not touched). -/
def setPrev (h : Heap) (n nn : Ptr) : Heap :=
  match n with
  | none => h
  | some a =>
    if n = nn then h
    else
      let h := match h.prev n with
        | none => h
        | some p => h.modify p ({ · with next := none })
      h.modify a ({ · with prev := nn })

/-- node.go:447-458 `setNext`. -/
def setNext (h : Heap) (n nn : Ptr) : Heap :=
  match n with
  | none => h
  | some a =>
    if n = nn then h
    else
      let h := match h.next n with
        | none => h
        | some p => h.modify p ({ · with prev := none })
      h.modify a ({ · with next := nn })

/-- node.go:17-24 `NewNode`: the first of `kinds` if any, else the kind of the text. -/
def newNode (h : Heap) (line : Int) (text : Bytes) (kinds : List Kind := []) : Heap × Addr :=
  match kinds with
  | k :: _ => h.alloc { line, kind := k, text, prev := none, next := none }
  | [] => h.alloc { line, kind := Kind.new text, text, prev := none, next := none }

/-- node.go:150-170 `InsertPrev`. -/
def insertPrev (h : Heap) (n nn : Ptr) : Heap × Ptr × Ptr :=
  if n = nn ∨ h.prev n = nn then (h, none, none)
  else
    let oldPrev := h.prev nn
    let oldNext := h.next nn
    let nPrev := h.prev n
    let h := h.setPrev n nn
    let h := h.setNext nn n
    let h := h.setPrev nn nPrev
    let h := h.setNext nPrev nn
    let h := h.setNext oldPrev none
    let h := h.setPrev oldNext none
    (h, oldPrev, oldNext)

/-- node.go:172-192 `InsertNext`. -/
def insertNext (h : Heap) (n nn : Ptr) : Heap × Ptr × Ptr :=
  if n = nn ∨ h.next n = nn then (h, none, none)
  else
    let oldPrev := h.prev nn
    let oldNext := h.next nn
    let nNext := h.next n
    let h := h.setNext n nn
    let h := h.setPrev nn n
    let h := h.setNext nn nNext
    let h := h.setPrev nNext nn
    let h := h.setNext oldPrev none
    let h := h.setPrev oldNext none
    (h, oldPrev, oldNext)

/-- node.go:194-211 `ReplacePrev`. -/
def replacePrev (h : Heap) (n nn : Ptr) : Heap × Ptr × Ptr :=
  if n = nn ∨ h.prev n = nn then (h, none, none)
  else
    let oldPrev := h.prev n
    let oldNext := h.next nn
    let h := h.setPrev n nn
    let h := h.setNext nn n
    let h := h.setNext oldPrev none
    let h := h.setPrev oldNext none
    (h, oldPrev, oldNext)

/-- node.go:213-230 `ReplaceNext`. -/
def replaceNext (h : Heap) (n nn : Ptr) : Heap × Ptr × Ptr :=
  if n = nn ∨ h.next n = nn then (h, none, none)
  else
    let oldPrev := h.prev nn
    let oldNext := h.next n
    let h := h.setNext n nn
    let h := h.setPrev nn n
    let h := h.setNext oldPrev none
    let h := h.setPrev oldNext none
    (h, oldPrev, oldNext)

/-- node.go:232-244 `TakePrev`. -/
def takePrev (h : Heap) (n : Ptr) : Heap × Ptr :=
  let removed := h.prev n
  let newPrev := h.prev removed
  let h := h.setPrev n newPrev
  let h := h.setNext newPrev n
  let h := h.setNext removed none
  let h := h.setPrev removed none
  (h, removed)

/-- node.go:246-258 `TakeNext`. -/
def takeNext (h : Heap) (n : Ptr) : Heap × Ptr :=
  let removed := h.next n
  let newNext := h.next removed
  let h := h.setNext n newNext
  let h := h.setPrev newNext n
  let h := h.setNext removed none
  let h := h.setPrev removed none
  (h, removed)

/-- node.go:260-267 `RemovePrev`. -/
def removePrev (h : Heap) (n : Ptr) : Heap × Ptr :=
  let removed := h.prev n
  let h := h.setPrev n none
  let h := h.setNext removed none
  (h, removed)

/-- node.go:269-276 `RemoveNext`. -/
def removeNext (h : Heap) (n : Ptr) : Heap × Ptr :=
  let removed := h.next n
  let h := h.setNext n none
  let h := h.setPrev removed none
  (h, removed)

/-- node.go:346-353 `Isolate`. -/
def isolate (h : Heap) (n : Ptr) : Heap :=
  let h := h.setNext (h.prev n) none
  let h := h.setPrev (h.next n) none
  let h := h.setPrev n none
  let h := h.setNext n none
  h

/-- The loop shared by `CombinePrev` (node.go:296-304) and `CombineNext` (node.go:331-339): collect
the texts of the incoming nodes, isolating each; nil and the receiver are skipped. -/
def combineLoop (n : Ptr) : Heap → List Ptr → List Bytes → Heap × List Bytes
  | h, [], buf => (h, buf)
  | h, nn :: nns, buf =>
    if nn = none ∨ n = nn then combineLoop n h nns buf
    else
      let buf := buf ++ [h.text nn]
      combineLoop n (h.isolate nn) nns buf

/-- node.go:317-344 `CombineNext`.  `none` is a Go panic: the receiver and the first incoming node
are both nil, so line 341 (`n.text = …`) dereferences nil. -/
def combineNext (h : Heap) (n : Ptr) (k : Kind) (nns : List Ptr) : Option (Heap × Ptr) :=
  let h := h.setKind n k
  match nns with
  | [] => some (h, n)
  | nn0 :: rest =>
    let m := match n with
      | none => (nn0, rest)
      | some _ => (n, nns)
    let r := combineLoop m.1 h m.2 [h.text m.1]
    match m.1 with
    | none => none
    | some _ => some (r.1.setText m.1 r.2.flatten, m.1)

/-- node.go:278-311 `CombinePrev`: as `CombineNext`, texts joined in reverse order. -/
def combinePrev (h : Heap) (n : Ptr) (k : Kind) (nns : List Ptr) : Option (Heap × Ptr) :=
  let h := h.setKind n k
  match nns with
  | [] => some (h, n)
  | nn0 :: rest =>
    let m := match n with
      | none => (nn0, rest)
      | some _ => (n, nns)
    let r := combineLoop m.1 h m.2 [h.text m.1]
    match m.1 with
    | none => none
    | some _ => some (r.1.setText m.1 r.2.reverse.flatten, m.1)

end Heap

/-- node.go:98-106 `loop` (and node.go:108-120 `IterPrev`/`IterNext`, its two instances):
`for nn := n; nn != nil; nn = iter(nn) { if !fn(nn) { return nn } }; return nil`.

`ω` is everything the callback can change (the heap and the variables its closure captures), so
`iter` reads the *current* world.  The callback may itself fail to terminate (`none`).  `fuel`
bounds the number of iterations; running out of it is reported as `none`, never as a result. -/
def loop {ω : Type} (iter : ω → Addr → Ptr) (fn : ω → Addr → Option (ω × Bool)) :
    Nat → ω → Ptr → Option (ω × Ptr)
  | _, w, none => some (w, none)
  | 0, _, some _ => none
  | fuel + 1, w, some a =>
    match fn w a with
    | none => none
    | some (w', true) => loop iter fn fuel w' (iter w' a)
    | some (w', false) => some (w', some a)

namespace Heap

/-- node.go:115-120 `IterNext` with a callback that does not change the heap (but may change the
state `σ` captured by its closure).  The fuel `size + 1` is enough on every acyclic chain
(`Verif/Props/Node.lean`). -/
def iterNext {σ : Type} (h : Heap) (fn : σ → Addr → σ × Bool) (s : σ) (n : Ptr) :
    Option (σ × Ptr) :=
  loop (fun _ a => h.next (some a)) (fun s a => some (fn s a)) (h.size + 1) s n

/-- node.go:108-113 `IterPrev`, same restriction. -/
def iterPrev {σ : Type} (h : Heap) (fn : σ → Addr → σ × Bool) (s : σ) (n : Ptr) :
    Option (σ × Ptr) :=
  loop (fun _ a => h.prev (some a)) (fun s a => some (fn s a)) (h.size + 1) s n

/-- node.go:140-143 `First`. -/
def first (h : Heap) (n : Ptr) : Option Ptr :=
  (h.iterPrev (fun () a => ((), h.prev (some a) ≠ none)) () n).map (·.2)

/-- node.go:145-148 `Last`. -/
def last (h : Heap) (n : Ptr) : Option Ptr :=
  (h.iterNext (fun () a => ((), h.next (some a) ≠ none)) () n).map (·.2)

/-- node.go:73-96 `deepCopy(prev, next)`.  `fuel` bounds the recursion depth (`none`: the Go code
would overflow its stack).  The two recursive calls happen in source order. -/
def deepCopy : Nat → Heap → Ptr → Ptr → Ptr → Option (Heap × Ptr)
  | _, h, none, _, _ => some (h, none)
  | 0, _, some _, _, _ => none
  | fuel + 1, h, some a, pre, nxt =>
    let r := h.alloc { line := h.line (some a), kind := h.kind (some a), text := h.text (some a),
                       prev := none, next := none }
    let nn : Ptr := some r.2
    match (match pre with
      | none => deepCopy fuel r.1 (r.1.prev (some a)) none nn
      | some p => some (r.1, some p)) with
    | none => none
    | some (h, pre) =>
      match (match nxt with
        | none => deepCopy fuel h (h.next (some a)) nn none
        | some q => some (h, some q)) with
      | none => none
      | some (h, nxt) =>
        some (h.modify r.2 (fun c => { c with prev := pre, next := nxt }), nn)

/-- node.go:53-71 `Copy(copyRelativeNode...)`: the flag is the first variadic argument, false when
absent. -/
def copy (h : Heap) (n : Ptr) (copyRelative : Bool) : Option (Heap × Ptr) :=
  match n with
  | none => some (h, none)
  | some a =>
    if copyRelative then deepCopy (h.size + 1) h n none none
    else
      let r := h.alloc { line := h.line (some a), kind := h.kind (some a),
                         text := h.text (some a), prev := none, next := none }
      some (r.1, some r.2)

/-- The loop of node.go:33-38: append one node per remaining text; `startLine` grows by the
newlines of each text *after* its node was made. -/
def newNodesLoop : Heap → Addr → Int → List Bytes → Heap
  | h, _, _, [] => h
  | h, cur, startLine, text :: texts =>
    let r := h.newNode startLine text
    let h := (r.1.insertNext (some cur) (some r.2)).1
    match h.next (some cur) with
    | none => h
    | some cur => newNodesLoop h cur (startLine + countNL text) texts

/-- node.go:26-41 `NewNodes`. -/
def newNodes (h : Heap) (startLine : Int) (texts : List Bytes) : Heap × Ptr :=
  match texts with
  | [] => (h, none)
  | t :: ts =>
    let r := h.newNode startLine t
    (newNodesLoop r.1 r.2 startLine ts, some r.2)

end Heap

end Goast
