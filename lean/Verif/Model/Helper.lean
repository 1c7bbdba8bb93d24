import Verif.Model.Basic

/-!
# Model of `/repo/helper/helper.go` (pure part) and `/repo/charset/charset.go`

`ReadFile`/`SaveFile` (helper.go:37-105) are modelled in `Verif/Model/File.lean`.
`SetDebug`/`DebugPrint` (helper.go:17-35) are modelled in `Verif/Model/Debug.lean`.
-/

namespace Goast

/-! ## helper/helper.go -/

/-- Worker of `hasPrefix`: the loop of helper.go:112-116.  `skip` counts the bytes of the
current rune of `prefix` that `range` passes over without comparing. -/
def hasPrefixAux : Nat → Bytes → Bytes → Bool
  | _, _, [] => true
  | _, [], _ :: _ => false
  | 0, c :: s, p :: ps => c == p && hasPrefixAux (runeWidth (p :: ps) - 1) s ps
  | skip + 1, _ :: s, _ :: ps => hasPrefixAux skip s ps

/-- helper/helper.go:107-119 `HasPrefix(s []byte, prefix string)`.  The Go loop is
`for i := range prefix` over a *string*, so only the bytes at rune starts are compared. -/
def hasPrefix (s pre : Bytes) : Bool :=
  if pre.length > s.length then false else hasPrefixAux 0 s pre

/-- helper/helper.go:121-133 `HasSuffix(s []byte, suffix string)`; here the loop ranges over
a byte slice, so every byte is compared. -/
def hasSuffix (s suf : Bytes) : Bool :=
  if suf.length > s.length then false else s.drop (s.length - suf.length) == suf

/-- Go `strings.ReplaceAll(s, old, new)` for a one-byte `old`. -/
def replaceByte (old : UInt8) (new : Bytes) (s : Bytes) : Bytes :=
  s.flatMap fun c => if c == old then new else [c]

/-- helper/helper.go:135-141 `TidyText`. -/
def tidyText (s : Bytes) : Bytes :=
  let s := replaceByte 10 b!"\\n" s
  let s := replaceByte 13 b!"·" s
  let s := replaceByte 32 b!"·" s
  let s := replaceByte 9 b!" -> " s
  s

/-- helper/helper.go:143-157 `AppendUnrepeatable`. (The Go function may share the backing
array of `slice` or `elems` with its result; both callers in /repo assign the result back to
the only variable holding `slice`, so values suffice.) -/
def appendUnrepeatable {α : Type} [DecidableEq α] (slice elems : List α) : List α :=
  match elems with
  | [] => slice
  | e :: es =>
    match slice.getLast? with
    | none => e :: es
    | some l => if l = e then slice ++ es else slice ++ (e :: es)

/-! ## charset/charset.go -/

/-- charset/charset.go:3 `Set[T]`, a Go `map[T]struct{}`: `none` is the nil map, `some ks` a
map whose keys are the members of `ks`. -/
abbrev CharSet (α : Type) := Option (List α)

/-- charset/charset.go:5-11 `Contain`. -/
def CharSet.contain {α : Type} [DecidableEq α] (cs : CharSet α) (key : α) : Bool :=
  match cs with
  | none => false
  | some ks => decide (key ∈ ks)

/-- charset/charset.go:13-19 `New`: insert every argument (a map keeps one copy of a key). -/
def CharSet.new {α : Type} [DecidableEq α] (chars : List α) : CharSet α :=
  some (chars.foldl (fun set c => if c ∈ set then set else set ++ [c]) [])

/-- charset/charset.go:21-29 `NewSlice`. -/
def CharSet.newSlice {α : Type} [DecidableEq α] (chars : List (List α)) : CharSet α :=
  some (chars.foldl
    (fun set cs => cs.foldl (fun set c => if c ∈ set then set else set ++ [c]) set) [])

/-- charset/charset.go:32-34 `SeparatorCharset`:
`' ' '[' ']' '(' ')' '{' '}' ',' ':' ';' '\n' '\t' '\r'`. -/
def separatorCharset : CharSet UInt8 :=
  some [32, 91, 93, 40, 41, 123, 125, 44, 58, 59, 10, 9, 13]

/-- charset/charset.go:36-38 `NumberCharset`. -/
def numberCharset : CharSet UInt8 :=
  some [49, 50, 51, 52, 53, 54, 55, 56, 57, 48]

/-- charset/charset.go:40-66 `GolangKeywords`. -/
def golangKeywords : CharSet Bytes :=
  some [b!"break", b!"default", b!"func", b!"interface", b!"select", b!"case", b!"defer",
    b!"go", b!"map", b!"struct", b!"chan", b!"else", b!"goto", b!"package", b!"switch",
    b!"const", b!"fallthrough", b!"if", b!"range", b!"type", b!"continue", b!"for",
    b!"import", b!"return", b!"var"]

/-- The operator list of charset/charset.go:69-117, as written there. -/
def golangSymbolList : List Bytes :=
  [b!"+", b!"&", b!"+=", b!"&=", b!"&&", b!"==", b!"!=", b!"(", b!")",
    b!"-", b!"|", b!"-=", b!"|=", b!"||", b!"<", b!"<=", b!"[", b!"]", b!"*", b!"^",
    b!"*=", b!"^=", b!"<-", b!">", b!">=", b!"{", b!"}", b!"/", b!"<<", b!"/=", b!"<<=",
    b!"++", b!"=", b!":=", b!",", b!";", b!"%", b!">>", b!"%=", b!">>=", b!"--", b!"!",
    b!"...", b!".", b!":", b!"&^", b!"&^=", b!"~", b!"_"]

/-- charset/charset.go:68-118 `GolangSymbol`: the set of bytes of the listed operators
(each operator contributes its bytes; duplicates collapse).  Written out as its elements;
`golangSymbol_eq` checks that it is `NewSlice` of the operator list. -/
def golangSymbol : CharSet UInt8 := some b!"+&=!()-|<[]*^>{}/:,;%.~_"

theorem golangSymbol_eq : CharSet.newSlice golangSymbolList = golangSymbol := by decide +kernel

/-- charset/charset.go:120-140 `GolangBasicType`. -/
def golangBasicType : CharSet Bytes :=
  some [b!"bool", b!"string", b!"byte", b!"rune", b!"int", b!"uint", b!"int8", b!"uint8",
    b!"int16", b!"uint16", b!"int32", b!"uint32", b!"int64", b!"uint64", b!"uintptr",
    b!"float32", b!"float64", b!"complex64", b!"complex128"]

/-! The other sets are written out as their elements too; they are `New` of the Go argument
lists, which have no duplicates. -/

theorem separatorCharset_eq :
    CharSet.new [32, 91, 93, 40, 41, 123, 125, 44, 58, 59, 10, 9, 13] = separatorCharset := by
  decide +kernel

theorem numberCharset_eq : CharSet.new b!"1234567890" = numberCharset := by decide +kernel

end Goast
