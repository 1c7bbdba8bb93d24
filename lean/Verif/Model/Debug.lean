import Verif.Model.Helper

/-!
# Model of `SetDebug` and `DebugPrint` (helper/helper.go:17-36)

Only string arguments are modelled: every call in /repo passes strings.  The stack that `debug.Stack()` returns is an
input.  Several goroutines calling `SetDebug` and `DebugPrint` at once are not modelled.
-/

namespace Goast

/-- Go `strings.Split(s, sep)` for a separator of one byte. -/
def splitByte (sep : UInt8) : Bytes → List Bytes
  | [] => [[]]
  | c :: s =>
    if c = sep then [] :: splitByte sep s
    else match splitByte sep s with
      | [] => [[c]]
      | w :: ws => (c :: w) :: ws

/-- Go `fmt.Println` of strings: a blank between the arguments, a newline at the end. -/
def printlnArgs : List Bytes → Bytes
  | [] => b!"\n"
  | [a] => a ++ b!"\n"
  | a :: as => a ++ b!" " ++ printlnArgs as

/-- helper/helper.go:25-35 `DebugPrint`: what it writes to standard output; `debug` is the package variable. -/
def debugPrint (debug : Bool) (stack : Bytes) (args : List Bytes) : Bytes :=
  if debug then
    let ss := splitByte 10 stack
    let s := if 7 ≤ ss.length then ss[6]?.getD [] else []
    let args := args ++ [b!"\t", (splitByte 32 s)[0]?.getD []]
    printlnArgs args
  else []

/-- A call of one of the two functions; with `DebugPrint` comes the stack at that moment. -/
inductive DebugCall
  | setDebug (b : Bool)
  | debugPrint (stack : Bytes) (args : List Bytes)

/-- What a sequence of calls writes to standard output, and the flag behind it (helper.go:17-23: initially false). -/
def runDebug : Bool → List DebugCall → Bytes × Bool
  | d, [] => ([], d)
  | _, .setDebug b :: cs => runDebug b cs
  | d, .debugPrint stack args :: cs => let r := runDebug d cs; (debugPrint d stack args ++ r.1, r.2)

end Goast
