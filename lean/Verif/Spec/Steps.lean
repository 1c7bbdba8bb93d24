import Verif.Model.Steps
import Verif.Spec.Goroutines

/-!
# Goroutines interleaved at single memory accesses: what they may touch

`R` and `W` are sets of nodes: those a goroutine may read and those it may also write.  New nodes it makes are its own in any case.
-/

namespace Goast

variable {α : Type}

/-- The addresses the schedule offered to goroutine `i`, one per step it made. -/
def offered (i : Nat) (sched : List (Nat × Nat)) : List Nat := (sched.filter (·.1 == i)).map (·.2)

/-- A goroutine that runs alone from memory `m`, for any number of steps and whatever addresses it is given, writes only nodes in `W` and nodes
it made itself, and reads only nodes in `R` or `W` and nodes it made itself. -/
def StaysIn (m : Mem) (p : Code α) (R W : Nat → Prop) : Prop :=
  ∀ cs m₁ p₁, p.alone m cs = some (m₁, p₁) → ∀ a w, p₁.touches = some (a, w) →
    W a ∨ (w = false ∧ R a) ∨ (m a = none ∧ m₁ a ≠ none)

/-- Many goroutines do not get in each other's way: what one of them may write no other may read or write; all these nodes exist. -/
structure NoConflict (m : Mem) (R W : Nat → Nat → Prop) : Prop where
  read : ∀ i j a, W i a → R j a → i = j
  write : ∀ i j a, W i a → W j a → i = j
  existR : ∀ i a, R i a → m a ≠ none
  existW : ∀ i a, W i a → m a ≠ none

/-- A set of nodes that contains the neighbours of its nodes, all of which exist. -/
structure Island (m : Mem) (S : Nat → Prop) : Prop where
  exist : ∀ a, S a → ∃ r, m a = some r
  prev : ∀ a r b, S a → m a = some r → r.prev = some b → S b
  next : ∀ a r b, S a → m a = some r → r.next = some b → S b

/-- A pointer into a set of nodes, or nil. -/
def PtrTo (S : Nat → Prop) (n : Ptr) : Prop := ∀ a, n = some a → S a

/-- A value of a field: if it is a pointer, it points into the set. -/
def ValTo (S : Nat → Prop) : (f : NodeField) → f.Val → Prop
  | .prev, v => PtrTo S v
  | .next, v => PtrTo S v
  | _, _ => True

/-- Code that gets its pointers from `own` and `shared` only: it writes nodes of `own` only, pointers to `own` nodes, it reads nodes of `own` and
`shared`, and this goes on whatever values it reads, as long as a pointer read from a node of one of the two sets points into that set again.
`Q` is what is demanded of the result. -/
def Careful (shared : Nat → Prop) : Code α → (own : Nat → Prop) → (Q : (Nat → Prop) → α → Prop) → Prop
  | .ret x, own, Q => Q own x
  | .panic, _, _ => True
  | .read a f k, own, Q => (own a ∧ ∀ v, ValTo own f v → Careful shared (k v) own Q) ∨ (shared a ∧ ∀ v, ValTo shared f v → Careful shared (k v) own Q)
  | .write a f v k, own, Q => own a ∧ ValTo own f v ∧ Careful shared k own Q
  | .alloc r k, own, Q => PtrTo own r.prev ∧ PtrTo own r.next ∧
      ∀ a, ¬ own a → ¬ shared a → Careful shared (k a) (fun b => own b ∨ b = a) Q

/-- The single steps of a call, and the nodes it returns; `fuel` bounds the depth of the recursion of `Copy(true)`. -/
def Op.code (fuel : Nat) : Op → Code (List Ptr)
  | .newNode l t ks => do let r ← Code.newNode l t ks; pure [r]
  | .newNodes l ts => do let r ← Code.newNodes l ts; pure [r]
  | .insertNext n m => do let r ← Code.insertNext n m; pure [r.1, r.2]
  | .insertPrev n m => do let r ← Code.insertPrev n m; pure [r.1, r.2]
  | .replaceNext n m => do let r ← Code.replaceNext n m; pure [r.1, r.2]
  | .replacePrev n m => do let r ← Code.replacePrev n m; pure [r.1, r.2]
  | .takeNext n => do let r ← Code.takeNext n; pure [r]
  | .takePrev n => do let r ← Code.takePrev n; pure [r]
  | .removeNext n => do let r ← Code.removeNext n; pure [r]
  | .removePrev n => do let r ← Code.removePrev n; pure [r]
  | .isolate n => do Code.isolate n; pure []
  | .combineNext n k ms => do let r ← Code.combineNext n k ms; pure [r]
  | .combinePrev n k ms => do let r ← Code.combinePrev n k ms; pure [r]
  | .copy n r => do let r ← Code.copy fuel n r; pure [r]
  | .setKind n k => do Code.setKind n k; pure []
  | .setText n t => do Code.setText n t; pure []

/-- The goroutine has ended with a result. -/
def Code.returned : Code α → Bool
  | .ret _ => true
  | _ => false

/-- The goroutine has panicked. -/
def Code.panicked : Code α → Bool
  | .panic => true
  | _ => false

/-- Code without writes and allocations. -/
def ReadOnly : Code α → Prop
  | .ret _ => True
  | .panic => True
  | .read _ _ k => ∀ v, ReadOnly (k v)
  | .write _ _ _ _ => False
  | .alloc _ _ => False

/-- Code without allocations. -/
def MakesNone : Code α → Prop
  | .ret _ => True
  | .panic => True
  | .read _ _ k => ∀ v, MakesNone (k v)
  | .write _ _ _ k => MakesNone k
  | .alloc _ _ => False

end Goast
