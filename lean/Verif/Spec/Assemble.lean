import Verif.Spec.Compose

/-!
# Parts put one below the other (C85)
-/

namespace Goast

/-- Parts, each a text with the scopes a parse of it gave, put one below the other, the first on line `n`: what the methods show of
their scopes in the heap `h`, every part further down by the lines of the parts above it. -/
def stacked (h : Heap) : Int → List (Bytes × List ScopeRec) → List Look
  | _, [] => []
  | n, (text, scs) :: parts => scs.map (fun sc => (sc.look h).below n) ++ stacked h (n + text.count 10) parts

end Goast
