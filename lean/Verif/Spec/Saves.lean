import Verif.Spec.Path
import Verif.Props.Save

/-!
# What a row of calls of `Save` leaves at a place
-/

namespace Goast

open PathSpec

/-- One call of `Save`: the working directory at that time, the path, the text and the optional argument. -/
structure SaveAt where
  cwd : List Bytes
  file : Bytes
  data : Bytes
  autoImport : List Bool := []

/-- `Leaves env p calls before after`: the calls, with the errors they returned, turn the contents of place `p` from `before` into `after`
(`none`: no file).  A call that returned an error changes nothing, nor does one whose path names another place; one that returned nil leaves
the formatted text. -/
inductive Leaves (env : Env) (p : List Bytes) : List (SaveAt × Option Err) → Option Bytes → Option Bytes → Prop
  | done {b} : Leaves env p [] b b
  | failed {c e l b b'} : Leaves env p l b b' → Leaves env p ((c, some e) :: l) b b'
  | elsewhere {c : SaveAt} {name l b b'} : IsGoName c.file name → place c.cwd name ≠ p → Leaves env p l b b' → Leaves env p ((c, none) :: l) b b'
  | here {c : SaveAt} {name out l b b'} : IsGoName c.file name → place c.cwd name = p → IsOutput env name c.data c.autoImport out →
      Leaves env p l (some out) b' → Leaves env p ((c, none) :: l) b b'

end Goast
