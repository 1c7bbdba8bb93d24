import Verif.Spec.Lexer

/-!
# The line of every piece

The line a node reports, from the pieces of the text alone.  Every piece is on the line where it starts, with two
exceptions: a piece that is cut off by the end of the text is on the last line, and a `(` or `{` is on the line of
the last word before it inside the same pair of brackets (of the opening bracket, if there is no such word; 0
outside all brackets).
-/

namespace Goast

instance (t : Bytes) : Decidable (IsWord t) := by unfold IsWord; infer_instance

/-- A block comment, string or raw string that has no end. -/
def cutOff (t : Bytes) : Bool :=
  if b!"/*".isPrefixOf t then !b!"*/".isSuffixOf t
  else if t.head? = some 34 then !(decide (2 ≤ t.length) && t.getLast? = some 34 && t.dropLast.getLast? ≠ some 92)
  else if t.head? = some 96 then !(decide (2 ≤ t.length) && t.getLast? = some 96)
  else false

/-- The lines of the pieces in the last argument.  `n`: the number of newlines before them.  `last`: the line of the
last word before them inside the innermost pair of brackets that is still open, or else of that pair's opening bracket.
`up`: for every open pair, innermost first, the text that closes it and the `last` outside of it. -/
def lineList : (n last : Int) → (up : List (Bytes × Int)) → List Bytes → List Int
  | _, _, _, [] => []
  | n, last, up, t :: ts =>
    if t = b!"(" then last :: lineList n n ((b!")", last) :: up) ts
    else if t = b!"{" then last :: lineList n n ((b!"}", last) :: up) ts
    else if (up.head?.map (·.1)) = some t then n :: lineList n ((up.head?.map (·.2)).getD 0) up.tail ts
    else if IsWord t then n :: lineList n n up ts
    else if cutOff t then (n + t.count 10) :: lineList (n + t.count 10) last up ts
    else n :: lineList (n + t.count 10) last up ts

end Goast
