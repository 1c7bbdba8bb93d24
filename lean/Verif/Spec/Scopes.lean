import Verif.Model.Scope
import Verif.Spec.Links

/-!
# Specification of the division of a chain into scopes, on plain lists
-/

namespace Goast

/-- Node `a`, whose predecessor has line `prev`, opens a scope: it begins a new line (its line differs
from its predecessor's) and its text begins with a scope keyword. -/
def Opens (h : Heap) (prev : Int) (a : Addr) : Prop :=
  h.line (some a) ≠ prev ∧ newScopeKind (h.text (some a)) ≠ .unknown

instance (h : Heap) (prev : Int) (a : Addr) : Decidable (Opens h prev a) := by unfold Opens; infer_instance

/-- Divide the nodes `l` (the node before them has line `prev`) at every node that opens a scope: the
nodes before the first such node, and the groups that begin with one. -/
def divide (h : Heap) : Int → List Addr → List Addr × List (List Addr)
  | _, [] => ([], [])
  | prev, a :: l =>
    let r := divide h (h.line (some a)) l
    if Opens h prev a then ([], (a :: r.1) :: r.2) else (a :: r.1, r.2)

/-- The scope made of a group of nodes: its first node decides kind and line. -/
def scopeOf (h : Heap) (g : List Addr) : ScopeRec :=
  { line := h.line g.head?, kind := newScopeKind (h.text g.head?), node := g.head? }

end Goast
