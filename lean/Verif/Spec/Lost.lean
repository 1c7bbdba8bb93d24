import Verif.Spec.Labels
import Verif.Spec.Scopes
import Verif.Spec.Alias

/-!
# Losing comments only
-/

namespace Goast
open Heap

/-- `kept` is `l` with some of the nodes that are comments in `h` left out. -/
inductive OnlyCommentsLost (h : Heap) : List Addr → List Addr → Prop
  | nil : OnlyCommentsLost h [] []
  | keep {a : Addr} {l kept : List Addr} : OnlyCommentsLost h l kept → OnlyCommentsLost h (a :: l) (a :: kept)
  | lose {a : Addr} {l kept : List Addr} : h.kind (some a) = .comment → OnlyCommentsLost h l kept →
      OnlyCommentsLost h (a :: l) kept

/-- A group of nodes that does not begin with the keyword `type`, or whose reading as a type declaration meets
no `(` while it collects an aliased type. -/
def Safe (h : Heap) (g : List Addr) : Prop := h.kind g.head? = .type_ → Ok .name (kindsOf h g)

instance (h : Heap) (g : List Addr) : Decidable (Safe h g) := by unfold Safe; infer_instance

/-- Nodes that `ParseScope` may rebuild: those of groups that begin with the keyword `func` or `type`. -/
def Rebuilt (h : Heap) (g : List Addr) : Prop := h.kind g.head? = .func_ ∨ h.kind g.head? = .type_

instance (h : Heap) (g : List Addr) : Decidable (Rebuilt h g) := by unfold Rebuilt; infer_instance

/-! The same of tokens. -/

/-- `kept` is `ts` with some of the comments left out. -/
inductive CommentsLost : List Token → List Token → Prop
  | nil : CommentsLost [] []
  | keep {t : Token} {ts kept : List Token} : CommentsLost ts kept → CommentsLost (t :: ts) (t :: kept)
  | lose {t : Token} {ts kept : List Token} : t.1 = .comment → CommentsLost ts kept → CommentsLost (t :: ts) kept

/-- A section that does not begin with the keyword `type`, or whose reading as a type declaration meets no `(` while it collects an
aliased type. -/
def SafeSection (g : List Token) : Prop := g.head?.map Prod.fst = some .type_ → Ok .name (g.map Prod.fst)

/-- A section that begins with the keyword `func` or `type`. -/
def RebuiltSection (g : List Token) : Prop := g.head?.map Prod.fst = some .func_ ∨ g.head?.map Prod.fst = some .type_

instance (g : List Token) : Decidable (SafeSection g) := by unfold SafeSection; infer_instance
instance (g : List Token) : Decidable (RebuiltSection g) := by unfold RebuiltSection; infer_instance

end Goast
