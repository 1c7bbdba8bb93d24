import Verif.Model.Helper

/-!
# Model of `/repo/trie.go`

A `*trie_[T]` reachable from a root is a tree (no node is shared), so in-place mutation along a
path is modelled by rebuilding that path.  `T` is a type `α` with its Go zero value `default`.
A nil `*trie_` (all methods are nil-safe) is modelled as `none`.
-/

namespace Goast

/-- trie.go:14-17 `trie_[T]`; the Go map `next` is an association list (nil and empty maps behave
alike under `Next`). -/
inductive Trie (α : Type) where
  | node (value : α) (next : List (UInt8 × Trie α))

namespace Trie

variable {α : Type}

/-- trie.go:117-123 `Value` on a non-nil node. -/
def value : Trie α → α
  | .node v _ => v

/-- Field `next`. -/
def children : Trie α → List (UInt8 × Trie α)
  | .node _ c => c

/-- trie.go:125-132 `Next` on a non-nil node: `none` is `(nil, false)`. -/
def next (t : Trie α) (key : UInt8) : Option (Trie α) := t.children.lookup key

/-- `&trie_[T]{}`. -/
def empty [Inhabited α] : Trie α := .node default []

/-- Write one entry of an association list (`m[key] = v`). -/
def setChild (key : UInt8) (v : Trie α) : List (UInt8 × Trie α) → List (UInt8 × Trie α)
  | [] => [(key, v)]
  | (k, t) :: rest => if key == k then (k, v) :: rest else (k, t) :: setChild key v rest

/-- trie.go:33-49 `Insert`, then `f` applied in place to the child it returns. -/
def insertThen [Inhabited α] (t : Trie α) (key : UInt8) (v : α) (f : Trie α → Trie α) : Trie α :=
  let child := match t.next key with
    | some c => c
    | none => empty
  .node t.value (setChild key (f (.node v child.children)) t.children)

/-- The loop of trie.go:26-29, over the bytes met by `for i := range s`: every node on the way gets
the zero value; line 29 then stores the value in the last one. -/
def addPath [Inhabited α] : Bytes → α → Trie α → Trie α
  | [], value, t => .node value t.children
  | b :: bs, value, t => t.insertThen b default (addPath bs value)

/-- trie.go:19-31 `AddText` (its effect on the receiver; the returned inner node is dropped). -/
def addText [Inhabited α] (t : Trie α) (s : Bytes) (value : α) : Trie α :=
  addPath (rangeBytes s) value t

/-- The loop shared by trie.go:58-64, 74-80, 90-96 and 107-113. -/
def findPath [Inhabited α] : Bytes → Trie α → α × Bool
  | [], t => (t.value, true)
  | b :: bs, t => match t.next b with
    | none => (default, false)
    | some c => findPath bs c

/-- trie.go:51-65 `FindText`: `for i := range s` over a string. -/
def findText [Inhabited α] (t : Trie α) (s : Bytes) : α × Bool := findPath (rangeBytes s) t

/-- trie.go:67-81 `FindTextReversely`: byte indices, last to first. -/
def findTextReversely [Inhabited α] (t : Trie α) (s : Bytes) : α × Bool := findPath s.reverse t

/-- trie.go:83-98 `FindByte`. -/
def findByte [Inhabited α] (t : Trie α) (b : Bytes) : α × Bool := findPath b t

/-- trie.go:100-115 `FindByteReversely`. -/
def findByteReversely [Inhabited α] (t : Trie α) (b : Bytes) : α × Bool := findPath b.reverse t

/-- trie.go:134-141 `newTrie`: `entries` are the entries of the Go map in the order the runtime
happens to iterate them. -/
def ofEntries [Inhabited α] (entries : List (Bytes × α)) : Trie α :=
  entries.foldl (fun t kv => t.addText kv.1 kv.2) empty

end Trie

end Goast
