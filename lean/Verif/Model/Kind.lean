import Verif.Model.Helper

/-!
# Model of `/repo/kind/kind.go` and `/repo/scope/scope_kind.go`
-/

namespace Goast

/-- kind/kind.go:8-60 `Kind`.  In Go a `Kind` is a pair of strings compared componentwise; the
code of /repo only compares kinds for equality and reads the two strings, so the model has one
constructor per declared constant (`Kind.lit`, `Kind.name` give the strings back, and
`Kind.pair_injective` in `Verif/Props/Kinds.lean` shows that no two constants collide) and
`other lit name` for the kinds a user may build whose strings are not those of a constant (`Kind.ofPair` makes the
right choice; an `other` with the strings of a constant stands for no Go value). -/
inductive Kind
  -- kind.go:11-18
  | none | raw | comment | number | symbol | basic | separator | keyword
  -- kind.go:21-32
  | tab | space | comma | colon | newLine | semicolon
  | parenL | parenR | curlyL | curlyR | squareL | squareR
  -- kind.go:35-36
  | pointer | address
  -- kind.go:39-48
  | import_ | var_ | const_ | map_ | channel | func_ | type_ | struct_ | interface_ | package_
  -- kind.go:51-59
  | funcName | typeName | typeAliasType | paramName | paramType
  | methodReceiverName | methodReceiverType | string | method
  | other (lit name : Bytes)
deriving DecidableEq, Repr, Inhabited

/-- First string of a kind constant, `k[0]` (kind/kind.go:11-59). -/
def Kind.lit : Kind → Bytes
  | .tab => b!"\t" | .space => b!" " | .comma => b!"," | .colon => b!":"
  | .newLine => b!"\n" | .semicolon => b!";" | .parenL => b!"(" | .parenR => b!")"
  | .curlyL => b!"{" | .curlyR => b!"}" | .squareL => b!"[" | .squareR => b!"]"
  | .pointer => b!"*" | .address => b!"&"
  | .import_ => b!"import" | .var_ => b!"var" | .const_ => b!"const" | .map_ => b!"map"
  | .channel => b!"chan" | .func_ => b!"func" | .type_ => b!"type" | .struct_ => b!"struct"
  | .interface_ => b!"interface" | .package_ => b!"package"
  | .other l _ => l
  | _ => []

/-- kind/kind.go:70-72 `Kind.String`: the second string, `k[1]` (kind/kind.go:11-59). -/
def Kind.name : Kind → Bytes
  | .none => []
  | .raw => b!"Raw" | .comment => b!"Comment" | .number => b!"Number" | .symbol => b!"Symbol"
  | .basic => b!"BasicType" | .separator => b!"Separator" | .keyword => b!"Keyword"
  | .tab => b!"Tab" | .space => b!"Space" | .comma => b!"Comma" | .colon => b!"Colon"
  | .newLine => b!"NewLine" | .semicolon => b!"Semicolon"
  | .parenL => b!"ParenthesisLeft" | .parenR => b!"ParenthesisRight"
  | .curlyL => b!"CurlyBracketLeft" | .curlyR => b!"CurlyBracketRight"
  | .squareL => b!"SquareBracketLeft" | .squareR => b!"SquareBracketRight"
  | .pointer => b!"Pointer" | .address => b!"Address"
  | .import_ => b!"Import" | .var_ => b!"Var" | .const_ => b!"Const" | .map_ => b!"Map"
  | .channel => b!"Channel" | .func_ => b!"Func" | .type_ => b!"Type" | .struct_ => b!"Struct"
  | .interface_ => b!"Interface" | .package_ => b!"Package"
  | .funcName => b!"FuncName" | .typeName => b!"TypeName" | .typeAliasType => b!"TypeAliasType"
  | .paramName => b!"ParamName" | .paramType => b!"ParamType"
  | .methodReceiverName => b!"MethodReceiverName"
  | .methodReceiverType => b!"MethodReceiverType"
  | .string => b!"String" | .method => b!"Method"
  | .other _ n => n

/-- kind/kind.go:62-68 `PointerString`: empty on a nil pointer. -/
def Kind.pointerString (k : Option Kind) : Bytes :=
  match k with
  | Option.none => []
  | Option.some k => k.name

/-- The constants declared in kind/kind.go:10-60, in order. -/
def Kind.declared : List Kind :=
  [.none, .raw, .comment, .number, .symbol, .basic, .separator, .keyword, .tab, .space, .comma, .colon, .newLine, .semicolon,
   .parenL, .parenR, .curlyL, .curlyR, .squareL, .squareR, .pointer, .address, .import_, .var_, .const_, .map_, .channel, .func_,
   .type_, .struct_, .interface_, .package_, .funcName, .typeName, .typeAliasType, .paramName, .paramType, .methodReceiverName,
   .methodReceiverType, .string, .method]

/-- The Go value `kind.Kind{lit, name}` (kind/kind.go:8: a pair of strings): the constant with these strings if there is one. -/
def Kind.ofPair (lit name : Bytes) : Kind :=
  match Kind.declared.find? (fun k => k.lit == lit && k.name == name) with
  | Option.some k => k
  | Option.none => .other lit name

/-- kind/kind.go:74-91 `GetClose`. -/
def Kind.getClose : Kind → Kind × Bool
  | .parenL => (.parenR, true)
  | .curlyL => (.curlyR, true)
  | .squareL => (.squareR, true)
  | .parenR => (.parenL, true)
  | .curlyR => (.curlyL, true)
  | .squareR => (.squareL, true)
  | _ => (.none, false)

/-- The `switch s` of kind/kind.go:98-143, in source order. -/
def kindSwitch : List Kind :=
  [.tab, .space, .comma, .colon, .newLine, .semicolon, .parenL, .parenR, .curlyL, .curlyR,
   .squareL, .squareR, .import_, .var_, .const_, .map_, .channel, .func_, .type_, .struct_,
   .interface_, .package_]

/-- kind/kind.go:93-188 `New`.  The loops of lines 147-152 and 176-181 run over
`for i := range s` of a string (`rangeBytes`). -/
def Kind.new (s : Bytes) : Kind :=
  if s.length = 0 then .none
  else match kindSwitch.find? (fun k => k.lit == s) with
  | Option.some k => k
  | Option.none =>
    if (rangeBytes s).all numberCharset.contain then .number
    else if s.length = 1 && (s.head?.any separatorCharset.contain) then .separator
    else if hasPrefix s b!"\"" || hasPrefix s b!"`" then .string
    else if golangKeywords.contain s then .keyword
    else if golangBasicType.contain s then .basic
    else if (rangeBytes s).all golangSymbol.contain then .symbol
    else .raw

/-- scope/scope_kind.go:6-18 `Kind` of a scope.  A Go `scope.Kind` is a string; the model has the
nine declared constants plus `other` for any other string a user may pass to `NewScope`. -/
inductive ScopeKind
  | unknown | package_ | comment | innerComment | import_ | variable | const_ | type_ | func_
  | other (s : Bytes)
deriving DecidableEq, Repr, Inhabited

/-- The string value of a scope kind (scope/scope_kind.go:9-17). -/
def ScopeKind.str : ScopeKind → Bytes
  | .unknown => b!"" | .package_ => b!"package" | .comment => b!"//" | .innerComment => b!"/*"
  | .import_ => b!"import" | .variable => b!"var" | .const_ => b!"const" | .type_ => b!"type"
  | .func_ => b!"func" | .other s => s

/-- The Go value `scope.Kind(s)` (scope/scope_kind.go:6: a string): the constant with this string if there is one. -/
def ScopeKind.ofStr (s : Bytes) : ScopeKind :=
  match ([.unknown, .package_, .comment, .innerComment, .import_, .variable, .const_, .type_, .func_] : List ScopeKind).find?
      (fun k => k.str == s) with
  | some k => k
  | none => .other s

/-- scope/scope_kind.go:20-43 `Kind.String`. -/
def ScopeKind.string : ScopeKind → Bytes
  | .unknown => b!"Unknown" | .package_ => b!"Package" | .comment => b!"Comment"
  | .innerComment => b!"InnerComment" | .import_ => b!"Import" | .variable => b!"Variable"
  | .const_ => b!"Const" | .type_ => b!"Type" | .func_ => b!"Func" | .other _ => b!""

/-- scope/scope_kind.go:45-68 `Kind.ToKind`. -/
def ScopeKind.toKind : ScopeKind → Kind
  | .unknown => .raw | .package_ => .package_ | .comment => .comment | .innerComment => .comment
  | .import_ => .import_ | .variable => .var_ | .const_ => .const_ | .type_ => .type_
  | .func_ => .func_ | .other _ => .none

end Goast
