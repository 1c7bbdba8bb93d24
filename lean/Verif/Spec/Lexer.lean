import Verif.Spec.Text

/-!
# A flat one-pass scanner

Independent of the model of /repo: five modes, one pass from left to right, no nesting.
-/

namespace Goast

/-- What the scanner is inside of. -/
inductive Mode
  | code | lineComment | blockComment | str | rawStr
deriving DecidableEq, Repr

/-- A piece of text; `comment` says that it is a comment that was closed before the end of the text. -/
structure Lexeme where
  text : Bytes
  comment : Bool
deriving DecidableEq, Repr

/-- The separator bytes: space `[ ] ( ) { } , : ;` newline, tab, carriage return. -/
def separatorBytes : Bytes := b!" [](){},:;\n\t\r"

/-- The pending word, if any, becomes a piece. -/
def word (buf : Bytes) : List Lexeme := if buf = [] then [] else [⟨buf, false⟩]

/-- Scan the third argument, having read `buf` of the current piece already.
The bytes: 47 `/`, 42 `*`, 34 `"`, 96 the back quote, 92 the backslash, 10 newline. -/
def lex : Mode → Bytes → Bytes → List Lexeme
  | _, buf, [] => word buf
  | .code, buf, c :: rest =>
    if c = 47 ∧ rest.head? = some 47 then word buf ++ lex .lineComment [c] rest
    else if c = 47 ∧ rest.head? = some 42 then word buf ++ lex .blockComment [c] rest
    else if c = 34 then word buf ++ lex .str [c] rest
    else if c = 96 then word buf ++ lex .rawStr [c] rest
    else if c ∈ separatorBytes then word buf ++ ⟨[c], false⟩ :: lex .code [] rest
    else lex .code (buf ++ [c]) rest
  | .lineComment, buf, c :: rest =>
    if c = 10 then ⟨buf, true⟩ :: ⟨[c], false⟩ :: lex .code [] rest
    else lex .lineComment (buf ++ [c]) rest
  | .blockComment, buf, c :: rest =>
    if c = 47 ∧ buf.getLast? = some 42 then ⟨buf ++ [c], true⟩ :: lex .code [] rest
    else lex .blockComment (buf ++ [c]) rest
  | .str, buf, c :: rest =>
    if c = 34 ∧ buf.getLast? ≠ some 92 then ⟨buf ++ [c], false⟩ :: lex .code [] rest
    else lex .str (buf ++ [c]) rest
  | .rawStr, buf, c :: rest =>
    if c = 96 then ⟨buf ++ [c], false⟩ :: lex .code [] rest
    else lex .rawStr (buf ++ [c]) rest

/-- The pieces of a text. -/
def lexAll (text : Bytes) : List Lexeme := lex .code [] text

/-- A complete line comment (without its newline) or block comment. -/
def IsComment (t : Bytes) : Prop :=
  (∃ b, t = 47 :: 47 :: b ∧ 10 ∉ b) ∨ ([47, 42] <+: t ∧ [42, 47] <:+ t)

/-- A run of bytes without separators and quotes that does not begin a comment. -/
def IsWord (t : Bytes) : Prop :=
  t ≠ [] ∧ (∀ b ∈ t, b ∉ separatorBytes ∧ b ≠ 34 ∧ b ≠ 96) ∧ ¬ [47, 47] <+: t ∧ ¬ [47, 42] <+: t

end Goast
