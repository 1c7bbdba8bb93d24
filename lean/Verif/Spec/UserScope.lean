import Verif.Model.UserScope
import Verif.Spec.Links

/-! # What is called, in which order -/

namespace Goast

/-- A call of a method of a scope that returned, with its answer. -/
inductive ScopeCall
  | kind (sc : Nat) (k : ScopeKind)
  | node (sc : Nat) (p : Ptr)
  | description (sc : Nat) (d : Bytes)
  | copy (sc : Nat) (c : Nat)

/-- The call was made in `w` and left `w'` behind. -/
def ScopeCall.Made {World : Type} (I : Scopes World) (w : World) : ScopeCall → World → Prop
  | kind sc k, w' => I.kind sc w = some (k, w')
  | node sc p, w' => I.node sc w = some (p, w')
  | description sc d, w' => I.description sc w = some (d, w')
  | copy sc c, w' => I.copy sc w = some (c, w')

/-- These calls were made, one after the other, and nothing else happened; with each call, the world behind it. -/
inductive Calls {World : Type} (I : Scopes World) : World → List (ScopeCall × World) → World → Prop
  | nil {w} : Calls I w [] w
  | cons {w c w1 cs w2} : c.Made I w w1 → Calls I w1 cs w2 → Calls I w ((c, w1) :: cs) w2

/-- The text of the nodes that can be reached from `p` with `Next`. -/
def TextFrom (h : Heap) (p : Ptr) (t : Bytes) : Prop :=
  ∃ l, Fwd h p l ∧ t = (l.map fun a => h.text (some a)).flatten

/-- What the nodes reached from `p` with `Next` say about themselves. -/
def LooksFrom (h : Heap) (p : Ptr) (t : Bytes) : Prop :=
  ∃ l, Fwd h p l ∧ t = (l.map fun a => h.describe (some a)).flatten

end Goast
