import Verif.Model.Heap

/-!
# Specification vocabulary for linked nodes

Only the observers `next`, `prev`, `line`, `kind`, `text` of the model occur here.
-/

namespace Goast

/-- Go has no dangling pointers: a `*Node` is nil or an allocated node. -/
def Valid (h : Heap) (p : Ptr) : Prop := ∀ a, p = some a → a < h.size

/-- `Next` and `Prev` are inverse to each other on non-nil nodes, and no node is its own
neighbour. -/
structure WF (h : Heap) : Prop where
  inverse : ∀ a b : Addr, h.next (some a) = some b ↔ h.prev (some b) = some a
  irrefl : ∀ a : Addr, h.next (some a) ≠ some a

/-- Two heaps hold the same nodes with the same line, kind and text (links aside). -/
def SameData (h h' : Heap) : Prop :=
  h'.size = h.size ∧ ∀ p : Ptr, h'.line p = h.line p ∧ h'.kind p = h.kind p ∧ h'.text p = h.text p

/-- Following `Next` from `p` visits exactly the nodes `l`, in this order, and then ends. -/
inductive Fwd (h : Heap) : Ptr → List Addr → Prop
  | nil : Fwd h none []
  | cons {a : Addr} {l : List Addr} : a < h.size → Fwd h (h.next (some a)) l → Fwd h (some a) (a :: l)

/-- Following `Prev` from `p` visits exactly the nodes `l`, in this order, and then ends. -/
inductive Bwd (h : Heap) : Ptr → List Addr → Prop
  | nil : Bwd h none []
  | cons {a : Addr} {l : List Addr} : a < h.size → Bwd h (h.prev (some a)) l → Bwd h (some a) (a :: l)

/-- `l` is a complete chain: its first node has no `Prev`, its last no `Next`, and neighbours in `l`
are neighbours in the heap. -/
def Chain (h : Heap) (l : List Addr) : Prop :=
  (∀ a ∈ l, a < h.size) ∧
  (∀ a, l.head? = some a → h.prev (some a) = none) ∧
  (∀ a, l.getLast? = some a → h.next (some a) = none) ∧
  (∀ l₁ a b l₂, l = l₁ ++ a :: b :: l₂ → h.next (some a) = some b ∧ h.prev (some b) = some a)

/-- Every node lies on a finite chain: iteration from anywhere ends. -/
def Acyclic (h : Heap) : Prop := ∀ a, a < h.size → ∃ l, Fwd h (some a) l

/-- `a` reaches `b` by following `Next` zero or more times. -/
inductive Reach (h : Heap) : Addr → Addr → Prop
  | refl (a : Addr) : Reach h a a
  | step {a b c : Addr} : h.next (some a) = some b → Reach h b c → Reach h a c

/-- The line, kind and text of a node. -/
def data (h : Heap) (a : Addr) : Int × Kind × Bytes := (h.line (some a), h.kind (some a), h.text (some a))

/-- Every node of `h` is in `h'` as it was: same links, line, kind and text. -/
def Extends (h h' : Heap) : Prop :=
  h.size ≤ h'.size ∧ ∀ a, a < h.size → h'.next (some a) = h.next (some a) ∧
    h'.prev (some a) = h.prev (some a) ∧ data h' a = data h a

/-- The empty heap, before any node was made. -/
def Heap.empty : Heap := ⟨[]⟩

end Goast
