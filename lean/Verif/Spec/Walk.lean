import Verif.Model.Heap

/-!
# Specification of iteration, on plain lists
-/

namespace Goast

/-- Visit the elements of a list in order, threading a state, until the callback says stop: the final
state and the element stopped at (`none`: ran to the end). -/
def walk {σ : Type} (fn : σ → Addr → σ × Bool) : σ → List Addr → σ × Ptr
  | s, [] => (s, none)
  | s, a :: l =>
    match fn s a with
    | (s', true) => walk fn s' l
    | (s', false) => (s', some a)

end Goast
