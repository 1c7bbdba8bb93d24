/-!
# Go strings, byte slices and `range` over a string

Go `string` and `[]byte` values are finite byte sequences: both are `List UInt8` here.
Nothing in this file models code of /repo: it models the parts of the Go language the code
of /repo rests on.  It belongs to the trusted base (see DESIGN.md).
-/

namespace Goast

/-- Go `string` / `[]byte`: a finite sequence of bytes. -/
abbrev Bytes := List UInt8

/-- `b!"abc"` is the byte sequence of a Go string literal (its UTF-8 encoding). -/
macro:max "b!" s:str : term => do
  let es : Array (Lean.TSyntax `term) :=
    (s.getString.toUTF8.toList.map
      (fun c => Lean.Syntax.mkNumLit (toString c.toNat))).toArray
  `(([ $es,* ] : List UInt8))

/-- Continuation byte test `0x80 ≤ b ≤ 0xBF` (Go `unicode/utf8`). -/
def isCont (b : UInt8) : Bool := 0x80 ≤ b && b ≤ 0xBF

/-- Width of the first rune of a Go string, as `for i := range s` advances
(Go `unicode/utf8.DecodeRuneInString`): an invalid or truncated sequence has width 1. -/
def runeWidth : Bytes → Nat
  | [] => 0
  | b0 :: rest =>
    if b0 < 0x80 then 1
    else if 0xC2 ≤ b0 && b0 ≤ 0xDF then
      match rest with
      | b1 :: _ => if isCont b1 then 2 else 1
      | _ => 1
    else if 0xE0 ≤ b0 && b0 ≤ 0xEF then
      match rest with
      | b1 :: b2 :: _ =>
        let lo : UInt8 := if b0 == 0xE0 then 0xA0 else 0x80
        let hi : UInt8 := if b0 == 0xED then 0x9F else 0xBF
        if lo ≤ b1 && b1 ≤ hi && isCont b2 then 3 else 1
      | _ => 1
    else if 0xF0 ≤ b0 && b0 ≤ 0xF4 then
      match rest with
      | b1 :: b2 :: b3 :: _ =>
        let lo : UInt8 := if b0 == 0xF0 then 0x90 else 0x80
        let hi : UInt8 := if b0 == 0xF4 then 0x8F else 0xBF
        if lo ≤ b1 && b1 ≤ hi && isCont b2 && isCont b3 then 4 else 1
      | _ => 1
    else 1

/-- Worker of `rangeBytes`: `skip` bytes of the current rune are still to be passed over. -/
def rangeBytesAux : Nat → Bytes → Bytes
  | _, [] => []
  | 0, b :: bs => b :: rangeBytesAux (runeWidth (b :: bs) - 1) bs
  | skip + 1, _ :: bs => rangeBytesAux skip bs

/-- The bytes `s[i]` met by the Go loop `for i := range s { … s[i] … }` over a *string* `s`:
`i` runs over the first byte of every rune only. -/
def rangeBytes (s : Bytes) : Bytes := rangeBytesAux 0 s

/-- Number of `'\n'` bytes (Go `strings.Count(text, "\n")`). -/
def countNL (s : Bytes) : Nat := s.count 10

/-- For `#eval` output only. -/
def Bytes.show (s : Bytes) : String := String.ofList (s.map fun b => Char.ofNat b.toNat)

end Goast
