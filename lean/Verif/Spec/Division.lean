import Verif.Spec.Lines
import Verif.Spec.Reads

/-!
# The sections of a text

Where the scopes of a text begin and what they consist of, by the pieces of the text alone: nothing of the model of the parser
occurs here.
-/

namespace Goast

/-- The words that can begin a scope. -/
def scopeWords : List Bytes := [b!"package", b!"//", b!"/*", b!"import", b!"var", b!"const", b!"type", b!"func"]

/-- The piece begins with a word that can begin a scope. -/
def startsScope (t : Bytes) : Bool := scopeWords.any fun w => w.isPrefixOf t

/-- The texts of tokens, put together. -/
def tokText (ts : List Token) : Bytes := (ts.map Prod.snd).flatten

/-- The tokens of a text with their lines. -/
def placed (text : Bytes) : List (Int × Token) := (lineList 0 0 [] ((lexAll text).map Lexeme.text)).zip (tokens text)

/-- Divide tokens at every one that begins a new line (its line is not that of the token before it; `prev` for the first) with a
scope word: what precedes the first such token, and the sections that begin with one. -/
def sections : Int → List (Int × Token) → List Token × List (List Token)
  | _, [] => ([], [])
  | prev, (n, t) :: ts =>
    let r := sections n ts
    if n ≠ prev ∧ startsScope t.2 then ([], (t :: r.1) :: r.2) else (t :: r.1, r.2)

/-- The sections of a text: what precedes the first one, and the sections. -/
def sectionsOf (startLine : Int) (text : Bytes) : List Token × List (List Token) := sections (startLine - 1) (placed text)

end Goast
