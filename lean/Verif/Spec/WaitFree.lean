import Verif.Spec.Steps

/-!
# How many steps the calls take

A step is a read or a write of one field of a node, or the allocation of a node.
-/

namespace Goast

variable {α : Type}

/-- The largest number of steps of a call, where it does not depend on the lists the nodes are in: only `Copy(true)` walks along a list. -/
def Op.steps : Op → Option Nat
  | .newNode .. => some 1
  | .newNodes _ ts => some (30 * ts.length)
  | .insertNext .. | .insertPrev .. => some 28
  | .replaceNext .. | .replacePrev .. => some 19
  | .takeNext _ | .takePrev _ => some 18
  | .removeNext _ | .removePrev _ => some 9
  | .isolate _ => some 18
  | .combineNext _ _ ms | .combinePrev _ _ ms => some (19 * ms.length + 3)
  | .copy _ false => some 4
  | .copy _ true => none
  | .setKind .. | .setText .. => some 1

/-- Whatever addresses the allocator gives it, the goroutine alone from memory `m` makes exactly `n` steps, can go on until it has made them, and has
then returned. -/
def Code.ReturnsAfter (m : Mem) (p : Code α) (n : Nat) : Prop :=
  ∀ cs m' q, p.alone m cs = some (m', q) →
    (cs.length = n ∧ ∃ x, q = .ret x) ∨ (cs.length < n ∧ ∀ c, m' c = none → ∃ r, q.step m' c = some r)

/-- There are no dangling pointers: a node that is pointed to exists. -/
def Mem.Sound (m : Mem) : Prop := Island m fun a => m a ≠ none

/-- Code that forges no pointers: in every memory in which the nodes of `S` exist, it reads and writes nodes of the memory only, and writes pointers
into the memory only, as long as the pointers it reads point into the memory. -/
def Honest (p : Code α) (S : Nat → Prop) : Prop := ∀ T : Nat → Prop, (∀ a, S a → T a) → Careful (fun _ => False) p T fun _ _ => True

end Goast
