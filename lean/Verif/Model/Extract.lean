import Verif.Model.Heap

/-!
# Model of `/repo/extractor.go`
-/

namespace Goast

/-- The seven extractor values of extractor.go:26-79 (`*extractor` is compared by identity as a
map key in `_deeperExtractTable`, so an enumeration is faithful). -/
inductive Ext
  | common | paren | curly | comment | innerComment | string | multiline
deriving DecidableEq, Repr, Inhabited

namespace Ext

/-- Field `kind` (extractor.go:26-79); unset, hence the zero kind, in `_commonExtractor`. -/
def kind : Ext → Kind
  | .common => .none | .paren => .raw | .curly => .raw
  | .comment => .comment | .innerComment => .comment
  | .string => .string | .multiline => .string

/-- Field `IncludeOpen` (extractor.go:26-79). -/
def includeOpen : Ext → Bool
  | .comment | .innerComment | .string | .multiline => true
  | _ => false

/-- Field `IncludeClose` (extractor.go:26-79). -/
def includeClose : Ext → Bool
  | .innerComment | .string | .multiline => true
  | _ => false

/-- Field `SeparatorCharset` (extractor.go:26-79); nil for comments and strings. -/
def separators : Ext → CharSet UInt8
  | .common | .paren | .curly => separatorCharset
  | _ => none

/-- Field `ReturnKeyword` (extractor.go:26-79). -/
def returnKeyword : Ext → Bytes
  | .common => [] | .paren => b!")" | .curly => b!"}" | .comment => b!"\n"
  | .innerComment => b!"*/" | .string => b!"\"" | .multiline => b!"`"

/-- Field `SkipReturnKeyword` (extractor.go:26-79). -/
def skipReturnKeyword : Ext → Bytes
  | .string => b!"\\\""
  | _ => []

/-- extractor.go:226-232 `Kind()`. -/
def kinds (e : Ext) : List Kind := if e.kind = .raw then [] else [e.kind]

end Ext

/-- extractor.go:86-93 `_commonDeeperExtract`, a Go map, as its entries. -/
def commonDeeperExtract : List (Bytes × Ext) :=
  [(b!"(", .paren), (b!"{", .curly), (b!"//", .comment), (b!"/*", .innerComment),
   (b!"\"", .string), (b!"`", .multiline)]

/-- extractor.go:81-85, 234-236 `_deeperExtractTable` / `DeeperExtract`: only these three
extractors have an entry; a missing entry is the nil map. -/
def Ext.hasDeeper : Ext → Bool
  | .common | .paren | .curly => true
  | _ => false

/-- extractor.go:98-109 `PrefixFit`: the first entry, in map iteration order, whose key is a prefix.
Go leaves the iteration order of a map open, so the order is the argument `entries`. -/
def prefixFit (entries : List (Bytes × Ext)) (s : Bytes) : Option Ext :=
  (entries.find? fun kv => hasPrefix s kv.1).map (·.2)

/-- Go `string(c)` for a byte `c`: the UTF-8 encoding of the code point `c`. -/
def byteToString (c : UInt8) : Bytes :=
  if c < 0x80 then [c] else [(0xC0 : UInt8) ||| (c >>> 6), (0x80 : UInt8) ||| (c &&& 0x3F)]

/-- What the nested `Run` calls share: the heap and the three pointers `buf`, `i`, `line`
(extractor.go:120). -/
structure Shared where
  heap : Heap
  buf : Bytes
  i : Nat
  line : Int
deriving DecidableEq, Repr, Inhabited

/-- The local variables of one `Run` call (extractor.go:125-130). -/
structure Local where
  head : Ptr
  cur : Ptr
  bufLine : Int
deriving DecidableEq, Repr, Inhabited

/-- extractor.go:132-150 `insertNode`. -/
def insertNode (s : Shared) (l : Local) (n : Ptr) : Option (Shared × Local) :=
  match n with
  | none => some (s, l)
  | some _ =>
    let head := if l.head = none then n else l.head
    let heap := if l.cur ≠ none then (s.heap.replaceNext l.cur n).1 else s.heap
    match heap.last n with
    | none => none
    | some cur => some ({ s with heap }, { l with head, cur })

/-- extractor.go:152-163 `pushNode`. -/
def pushNode (s : Shared) (l : Local) (useLine : Bool) (kinds : List Kind) :
    Option (Shared × Local) :=
  if s.buf.length = 0 then some (s, l)
  else
    let r := s.heap.newNode (if useLine then s.line else l.bufLine) s.buf kinds
    match insertNode { s with heap := r.1 } l (some r.2) with
    | none => none
    | some (s, l) => some ({ s with buf := [] }, { l with bufLine := s.line })

/-- extractor.go:165-169 `lineStep`, given the current byte `text[*i]`. -/
def lineStep (char : UInt8) (s : Shared) : Shared :=
  if char = 10 then { s with line := s.line + 1 } else s

/-- The loop of extractor.go:171-223 (with the return of line 209).  `ord i` is the order in which
the map of `PrefixFit` happens to be iterated at position `i` (every position is inspected at most
once).  One unit of fuel per iteration or nested call; `none` means out of fuel. -/
def runLoop (ord : Nat → List (Bytes × Ext)) (text : Bytes) :
    Nat → Ext → Shared → Local → Option (Shared × Ptr)
  | 0, _, _, _ => none
  | fuel + 1, e, s, l =>
    match text[s.i]? with
    | none =>
      -- the loop condition `*i < len(text)` fails: extractor.go:222-223
      match pushNode s l true [] with
      | none => none
      | some (s, l) => some (s, l.head)
    | some char =>
      match (if e.hasDeeper then prefixFit (ord s.i) (text.drop s.i) else none) with
      | some ee =>
        -- extractor.go:174-189
        match pushNode s l true [] with
        | none => none
        | some (s, l) =>
          match (if ee.includeOpen then some ({ s with buf := s.buf ++ [char] }, l)
                 else
                   let r := s.heap.newNode l.bufLine (byteToString char)
                   insertNode { s with heap := r.1 } l (some r.2)) with
          | none => none
          | some (s, l) =>
            let s := { s with i := s.i + 1 }
            match runLoop ord text fuel ee s { head := none, cur := none, bufLine := s.line } with
            | none => none
            | some (s, ns) =>
              match insertNode s l ns with
              | none => none
              | some (s, l) => runLoop ord text fuel e { s with i := s.i + 1 } l
      | none =>
        let trailing := text.take (s.i + 1)
        if e.skipReturnKeyword.length ≠ 0 && hasSuffix trailing e.skipReturnKeyword then
          -- extractor.go:192-197
          let s := lineStep char { s with buf := s.buf ++ [char] }
          runLoop ord text fuel e { s with i := s.i + 1 } l
        else if e.returnKeyword.length ≠ 0 && hasSuffix trailing e.returnKeyword then
          -- extractor.go:199-210
          match (if e.includeClose then
                   pushNode { s with buf := s.buf ++ [char] } l false e.kinds
                 else
                   match pushNode s l true e.kinds with
                   | none => none
                   | some (s, l) =>
                     let r := s.heap.newNode s.line (byteToString char)
                     insertNode { s with heap := r.1 } l (some r.2)) with
          | none => none
          | some (s, l) => some (lineStep char s, l.head)
        else
          -- extractor.go:212-220
          match (if e.separators.contain char then
                   match pushNode s l true [] with
                   | none => none
                   | some (s, l) =>
                     let r := s.heap.newNode s.line (byteToString char)
                     insertNode { s with heap := r.1 } l (some r.2)
                 else some ({ s with buf := s.buf ++ [char] }, l)) with
          | none => none
          | some (s, l) =>
            let s := lineStep char s
            runLoop ord text fuel e { s with i := s.i + 1 } l

/-- extractor.go:120-130, 171: `Run` with its local variables at their initial values. -/
def run (ord : Nat → List (Bytes × Ext)) (text : Bytes) (fuel : Nat) (e : Ext) (s : Shared) :
    Option (Shared × Ptr) :=
  runLoop ord text fuel e s { head := none, cur := none, bufLine := s.line }

/-- extractor.go:11-23 `extract`, in a heap `h` that may hold earlier nodes.  (The Go function also
returns an error, but no code path of `Run` makes one: it is always nil.) -/
def extractOrd (ord : Nat → List (Bytes × Ext)) (h : Heap) (text : Bytes) : Option (Heap × Ptr) :=
  (run ord text (text.length + 2) .common { heap := h, buf := [], i := 0, line := 0 }).map
    fun r => (r.1.heap, r.2)

/-- `extract` with the map iterated in the order it is written. -/
def extract (h : Heap) (text : Bytes) : Option (Heap × Ptr) :=
  extractOrd (fun _ => commonDeeperExtract) h text

end Goast
