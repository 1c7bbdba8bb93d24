import Verif.Spec.Compose

/-!
# Declarations picked out of files and put one below the other (C88)
-/

namespace Goast

/-- The lines above each of the declarations of a file, the first on line `n`. -/
def linesAbove : Int → List Bytes → List Int
  | _, [] => []
  | n, d :: ds => n :: linesAbove (n + d.count 10) ds

/-- A declaration in a file: its text, the lines above it, and the scopes a parse of the file gave it. -/
structure Decl where
  text : Bytes
  above : Int
  scopes : List ScopeRec

/-- Declarations put one below the other, the first on line `n`: what the methods show of their scopes in the heap `h`, every declaration moved
from where it was to below the ones before it. -/
def restacked (h : Heap) : Int → List Decl → List Look
  | _, [] => []
  | n, d :: ds => d.scopes.map (fun sc => (sc.look h).below (n - d.above)) ++ restacked h (n + d.text.count 10) ds

end Goast
