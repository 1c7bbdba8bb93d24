import Verif.Spec.Lexer
import Verif.Model.Kind

/-!
# Words: what the scanner turns into single nodes of kind `Raw`
-/

namespace Goast

/-- Bytes that just extend a word: no separator, quote, back quote or slash. -/
def WordByte (b : UInt8) : Prop := b ∉ separatorBytes ∧ b ≠ 34 ∧ b ≠ 96 ∧ b ≠ 47

instance (b : UInt8) : Decidable (WordByte b) := by unfold WordByte; infer_instance

/-- A word that becomes a node of kind `Raw`: every identifier that is no keyword and no basic type (see
`Ident.word`), and also `*T` or `pkg.T`. -/
structure Word (s : Bytes) : Prop where
  bytes : ∀ b ∈ s, WordByte b
  ne_nil : s ≠ []
  raw : Kind.new s = .raw

end Goast
