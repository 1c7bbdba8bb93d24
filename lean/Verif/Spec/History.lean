import Verif.Spec.Links

/-!
# Histories of calls on nodes
-/

namespace Goast

/-- A call of the public API of `Node` that makes or changes nodes. -/
inductive Op
  | newNode (line : Int) (text : Bytes) (kinds : List Kind)
  | newNodes (startLine : Int) (texts : List Bytes)
  | insertNext (n m : Ptr)
  | insertPrev (n m : Ptr)
  | replaceNext (n m : Ptr)
  | replacePrev (n m : Ptr)
  | takeNext (n : Ptr)
  | takePrev (n : Ptr)
  | removeNext (n : Ptr)
  | removePrev (n : Ptr)
  | isolate (n : Ptr)
  | combineNext (n : Ptr) (k : Kind) (ms : List Ptr)
  | combinePrev (n : Ptr) (k : Kind) (ms : List Ptr)
  | copy (n : Ptr) (relative : Bool)
  | setKind (n : Ptr) (k : Kind)
  | setText (n : Ptr) (t : Bytes)

/-- The node arguments of a call, receiver included. -/
def Op.args : Op → List Ptr
  | .newNode .. | .newNodes .. => []
  | .insertNext n m | .insertPrev n m | .replaceNext n m | .replacePrev n m => [n, m]
  | .takeNext n | .takePrev n | .removeNext n | .removePrev n | .isolate n | .copy n _
  | .setKind n _ | .setText n _ => [n]
  | .combineNext n _ ms | .combinePrev n _ ms => n :: ms

/-- The effect of a call on the nodes; `none` is a panic or non-termination. -/
def Op.apply (h : Heap) : Op → Option Heap
  | .newNode l t ks => some (h.newNode l t ks).1
  | .newNodes l ts => some (h.newNodes l ts).1
  | .insertNext n m => some (h.insertNext n m).1
  | .insertPrev n m => some (h.insertPrev n m).1
  | .replaceNext n m => some (h.replaceNext n m).1
  | .replacePrev n m => some (h.replacePrev n m).1
  | .takeNext n => some (h.takeNext n).1
  | .takePrev n => some (h.takePrev n).1
  | .removeNext n => some (h.removeNext n).1
  | .removePrev n => some (h.removePrev n).1
  | .isolate n => some (h.isolate n)
  | .combineNext n k ms => (h.combineNext n k ms).map (·.1)
  | .combinePrev n k ms => (h.combinePrev n k ms).map (·.1)
  | .copy n r => (h.copy n r).map (·.1)
  | .setKind n k => some (h.setKind n k)
  | .setText n t => some (h.setText n t)

/-- The call is `ReplaceNext` or `ReplacePrev`. -/
def Op.isReplace : Op → Prop
  | .replaceNext .. | .replacePrev .. => True
  | _ => False

/-- `Run P h h'`: some finite sequence of calls, each satisfying `P`, each on nil or existing nodes, leads
from `h` to `h'`. -/
inductive Run (P : Op → Prop) (h : Heap) : Heap → Prop
  | refl : Run P h h
  | step {h₁ h₂ : Heap} (op : Op) : Run P h h₁ → P op → (∀ p ∈ op.args, Valid h₁ p) →
      op.apply h₁ = some h₂ → Run P h h₂

end Goast
