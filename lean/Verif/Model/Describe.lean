import Verif.Model.Ast

/-!
# Model of the `Description` methods (node.go:418-426, scope.go:144-150, ast.go:211-224)
-/

namespace Goast

/-- Decimal digits of a natural number, most significant first. -/
def natDigits (n : Nat) : Bytes := (Nat.toDigits 10 n).map fun c => UInt8.ofNat c.toNat

/-- Go `%d` of an `int`. -/
def itoa (i : Int) : Bytes :=
  match i with
  | .ofNat n => natDigits n
  | .negSucc n => b!"-" ++ natDigits (n + 1)

/-- node.go:418-426 `Node.Description`. -/
def Heap.describe (h : Heap) (n : Ptr) : Bytes :=
  match n with
  | none => b!"<nil>"
  | some _ => itoa (h.line n + 1) ++ b!" .... " ++ tidyText (h.text n) ++ b!" .... *Node." ++
      (h.kind n).name

/-- scope.go:144-150 `scopeStruct.Description`. -/
def ScopeRec.describe (d : ScopeRec) : Bytes :=
  itoa (d.lineNo + 1) ++ b!" .... *Scope." ++ d.kind.string

/-- ast.go:211-224 `Description`. -/
def astDescription (h : Heap) : List ScopeRec → Option Bytes
  | [] => some []
  | sc :: scs =>
    match h.iterNext (fun (buf : Bytes) a => (buf ++ h.describe (some a), true)) [] sc.node with
    | none => none
    | some (t, _) => (astDescription h scs).map fun r => sc.describe ++ t ++ r

/-- node.go:430-432 `Node.Print`: what it writes to standard error (`println` puts a blank between its arguments). -/
def Heap.print (h : Heap) (n : Ptr) : Bytes := b!"\t " ++ h.describe n ++ b!"\n"

/-- scope.go:152-154 `scopeStruct.Print`: what it writes to standard error. -/
def ScopeRec.print (d : ScopeRec) : Bytes := d.describe ++ b!"\n"

/-- node.go:388-408 `Node.debugText(nextCount)`, called on entry by every resetter (with 5), whether or not anything is
printed.  `count` is a Go `uint`; it starts at `nextCount + 1` (no overflow modelled) and so stays positive. -/
def Heap.debugText (h : Heap) (n : Ptr) (nextCount : Nat) : Option Bytes :=
  match n with
  | none => some []
  | some _ =>
    (h.iterNext (fun (s : Bytes × Nat) a => ((s.1 ++ tidyText (h.text (some a)), s.2 - 1), s.2 - 1 != 0)) ([], nextCount + 1) n).map (·.1.1)

end Goast
