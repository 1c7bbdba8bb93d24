import Verif.Model.Basic

/-!
# Specification vocabulary for strings

Nothing here refers to the model of /repo.
-/

namespace Goast

/-- Finite domain: a decidable statement about all 256 bytes is decidable. -/
instance (priority := low) decForallByte (p : UInt8 → Prop) [DecidablePred p] : Decidable (∀ b, p b) :=
  decidable_of_iff (∀ n ∈ List.range 256, p (UInt8.ofNat n))
    ⟨fun h b => by
      have := h b.toNat (List.mem_range.2 b.toNat_lt)
      rwa [UInt8.ofNat_toNat] at this, fun h n _ => h _⟩

/-- Every byte is below 128. -/
def Ascii (s : Bytes) : Prop := ∀ b ∈ s, b < 0x80

/-- The length of the first rune of a Go string (Go specification, "For statements with range clause"): the length of the UTF-8
encoding of a character if the string starts with one, and 1 otherwise. -/
def RuneLen (s : Bytes) (k : Nat) : Prop :=
  (∃ c : Char, String.utf8EncodeChar c <+: s ∧ k = (String.utf8EncodeChar c).length) ∨
  ((∀ c : Char, ¬ String.utf8EncodeChar c <+: s) ∧ k = 1)

/-- The byte offsets at which the runes of a Go string start: 0, then each time one rune further. -/
inductive RuneStart : Bytes → Nat → Prop
  | zero (b : UInt8) (s : Bytes) : RuneStart (b :: s) 0
  | step (s : Bytes) (k i : Nat) : s ≠ [] → RuneLen s k → RuneStart (s.drop k) i → RuneStart s (k + i)

/-- The first bytes of the runes of a Go string, in order. -/
inductive FirstBytes : Bytes → Bytes → Prop
  | nil : FirstBytes [] []
  | cons (b : UInt8) (s : Bytes) (k : Nat) (r : Bytes) : RuneLen (b :: s) k → FirstBytes ((b :: s).drop k) r → FirstBytes (b :: s) (b :: r)

/-- The UTF-8 text of some characters. -/
def utf8Text (cs : List Char) : Bytes := cs.flatMap String.utf8EncodeChar

/-- The 25 Go keywords (Go specification, "Keywords"). -/
def goKeywords : List Bytes :=
  [b!"break", b!"case", b!"chan", b!"const", b!"continue", b!"default", b!"defer", b!"else",
   b!"fallthrough", b!"for", b!"func", b!"go", b!"goto", b!"if", b!"import", b!"interface",
   b!"map", b!"package", b!"range", b!"return", b!"select", b!"struct", b!"switch", b!"type",
   b!"var"]

/-- The predeclared numeric, string and boolean types of Go. -/
def goBasicTypes : List Bytes :=
  [b!"bool", b!"byte", b!"complex64", b!"complex128", b!"float32", b!"float64", b!"int",
   b!"int8", b!"int16", b!"int32", b!"int64", b!"rune", b!"string", b!"uint", b!"uint8",
   b!"uint16", b!"uint32", b!"uint64", b!"uintptr"]

/-- ASCII letter or underscore. -/
def isLetter (b : UInt8) : Prop := (65 ≤ b ∧ b ≤ 90) ∨ (97 ≤ b ∧ b ≤ 122) ∨ b = 95

/-- ASCII digit. -/
def isDigit (b : UInt8) : Prop := 48 ≤ b ∧ b ≤ 57

instance (b : UInt8) : Decidable (isLetter b) := by unfold isLetter; infer_instance
instance (b : UInt8) : Decidable (isDigit b) := by unfold isDigit; infer_instance

/-- An ASCII Go identifier that is not a keyword, not a predeclared basic type and not made of
underscores only: what a user may declare a function or type as. -/
structure Ident (s : Bytes) : Prop where
  head : ∃ b t, s = b :: t ∧ isLetter b
  rest : ∀ b ∈ s, isLetter b ∨ isDigit b
  notKeyword : s ∉ goKeywords
  notBasic : s ∉ goBasicTypes
  notBlank : ∃ b ∈ s, b ≠ 95

end Goast
