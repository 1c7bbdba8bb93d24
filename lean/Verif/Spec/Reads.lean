import Verif.Spec.Labels
import Verif.Spec.Lexer
import Verif.Model.Heap

/-!
# How a text reads, and what a chain of nodes says
-/

namespace Goast

/-- The mode of the scanner, and the piece begun, at the end of a text. -/
def lexEnd : Mode → Bytes → Bytes → Mode × Bytes
  | m, buf, [] => (m, buf)
  | .code, buf, c :: rest =>
    if c = 47 ∧ rest.head? = some 47 then lexEnd .lineComment [c] rest
    else if c = 47 ∧ rest.head? = some 42 then lexEnd .blockComment [c] rest
    else if c = 34 then lexEnd .str [c] rest
    else if c = 96 then lexEnd .rawStr [c] rest
    else if c ∈ separatorBytes then lexEnd .code [] rest
    else lexEnd .code (buf ++ [c]) rest
  | .lineComment, buf, c :: rest =>
    if c = 10 then lexEnd .code [] rest else lexEnd .lineComment (buf ++ [c]) rest
  | .blockComment, buf, c :: rest =>
    if c = 47 ∧ buf.getLast? = some 42 then lexEnd .code [] rest else lexEnd .blockComment (buf ++ [c]) rest
  | .str, buf, c :: rest =>
    if c = 34 ∧ buf.getLast? ≠ some 92 then lexEnd .code [] rest else lexEnd .str (buf ++ [c]) rest
  | .rawStr, buf, c :: rest =>
    if c = 96 then lexEnd .code [] rest else lexEnd .rawStr (buf ++ [c]) rest

/-- The text does not end within a word, string or comment. -/
def Complete (t : Bytes) : Prop := lexEnd .code [] t = (.code, [])

instance (t : Bytes) : Decidable (Complete t) := by unfold Complete; infer_instance

/-- The tokens of a text: its pieces, with the kinds `NewKind` gives them. -/
def tokens (t : Bytes) : List Token := (lexAll t).map fun x => (if x.comment then .comment else Kind.new x.text, x.text)

/-- Kind and text of the nodes reached from `n` by `Next`. -/
def chainTokens (h : Heap) (n : Ptr) : Option (List Token) :=
  (h.iterNext (fun (l : List Token) a => (l ++ [(h.kind (some a), h.text (some a))], true)) [] n).map (·.1)

end Goast
