import Verif.Model.Scope

/-!
# The same nodes at other addresses
-/

namespace Goast

/-- A pointer into nodes that were moved up by `n` addresses. -/
def moved (n : Nat) (p : Ptr) : Ptr := p.map (· + n)

/-- A node that was moved, together with its neighbours, up by `n` addresses. -/
def NodeRec.moved (n : Nat) (r : NodeRec) : NodeRec := { r with prev := Goast.moved n r.prev, next := Goast.moved n r.next }

/-- All nodes of `o`, unchanged, and behind them the nodes of `h`, moved. -/
def Heap.beside (o h : Heap) : Heap := ⟨o.cells ++ h.cells.map (NodeRec.moved o.size)⟩

/-- A scope whose nodes were moved. -/
def ScopeRec.moved (n : Nat) (sc : ScopeRec) : ScopeRec := { sc with node := Goast.moved n sc.node }

end Goast
