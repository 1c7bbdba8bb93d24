import Verif.Model.Extract
import Verif.Model.Resetter

/-!
# Model of `/repo/scope.go`
-/

namespace Goast

/-- scope.go:118-122 `scopeStruct`.  A `Scope` value is a pointer to one of these; nothing in /repo
changes a `scopeStruct` after it was made, so the model passes it by value.  (A nil `*scopeStruct`
cannot be obtained through the API and is not modelled.) -/
structure ScopeRec where
  line : Int
  kind : ScopeKind
  node : Ptr
deriving DecidableEq, Repr, Inhabited

/-- scope.go:54-60 `NewScope`. -/
def newScope (line : Int) (kind : ScopeKind) (node : Ptr) : ScopeRec := { line, kind, node }

/-- scope.go:124-130 `Line`. -/
def ScopeRec.lineNo (d : ScopeRec) : Int := d.line + 1

/-- scope.go:177-184 `isScopeKind`. -/
def isScopeKind (s : Bytes) (k : ScopeKind) : Bool :=
  if s.length < k.str.length then false else s.take k.str.length == k.str

/-- scope.go:156-175 `newScopeKind`. -/
def newScopeKind (s : Bytes) : ScopeKind :=
  match ([.package_, .comment, .innerComment, .import_, .variable, .const_, .type_, .func_] :
      List ScopeKind).find? (isScopeKind s) with
  | some k => k
  | none => .unknown

/-- The variables of `ParseScope` captured by its closures (scope.go:69-74).  `nodesToResetKind`
always holds the nodes of `scs`, in order, and is not kept separately. -/
structure ParseSt where
  heap : Heap
  scs : List ScopeRec
  head : Ptr
  k : ScopeKind
  line : Int
deriving DecidableEq, Repr, Inhabited

/-- scope.go:76-89 `tryAppendScope`. -/
def tryAppendScope (s : ParseSt) : ParseSt :=
  let s := if s.k ≠ .unknown then
      { s with scs := s.scs ++ [newScope (s.heap.line s.head) s.k s.head] }
    else s
  if s.heap.prev s.head ≠ none then { s with heap := (s.heap.removePrev s.head).1 } else s

/-- The callback of scope.go:91-107. -/
def parseStep (s : ParseSt) (a : Addr) : Option (ParseSt × Bool) :=
  if s.heap.line (some a) = s.line then some (s, true)
  else
    let s := { s with line := s.heap.line (some a) }
    let nk := newScopeKind (s.heap.text (some a))
    if nk = .unknown then some (s, true)
    else
      let s := tryAppendScope s
      some ({ s with head := some a, k := nk }, true)

/-- scope.go:67-109: the split into scopes, before the kinds are reset. -/
def splitScopes (h : Heap) (startLine : Int) (node : Ptr) : Option ParseSt :=
  (loop (fun s a => s.heap.next (some a)) parseStep (h.size + 1)
      { heap := h, scs := [], head := node, k := .unknown, line := startLine - 1 } node).map
    fun r => tryAppendScope r.1

/-- scope.go:111-113: reset the kinds of every scope, in order. -/
def resetAll : Heap → List ScopeRec → Option Heap
  | h, [] => some h
  | h, sc :: scs =>
    match resetKind h sc.node with
    | none => none
    | some (h, _) => resetAll h scs

/-- scope.go:62-116 `ParseScope(startLine, text)`, in a heap that may hold earlier nodes. -/
def parseScopeOrd (ord : Nat → List (Bytes × Ext)) (h : Heap) (startLine : Int) (text : Bytes) :
    Option (Heap × List ScopeRec) :=
  match extractOrd ord h text with
  | none => none
  | some (h, node) =>
    match splitScopes h startLine node with
    | none => none
    | some s =>
      match resetAll s.heap s.scs with
      | none => none
      | some h => some (h, s.scs)

/-- `ParseScope` with the extractor's map iterated as written. -/
def parseScope (h : Heap) (startLine : Int) (text : Bytes) : Option (Heap × List ScopeRec) :=
  parseScopeOrd (fun _ => commonDeeperExtract) h startLine text

/-- The search shared by the getters of scope.go:209-302: the first node of kind `k`; otherwise the
text of the last node visited with `false`. -/
def findKindName (h : Heap) (n : Ptr) (k : Kind) : Option (Bytes × Bool) :=
  (h.iterNext (fun (_ : Bytes × Bool) a =>
      let found := decide (h.kind (some a) = k)
      ((h.text (some a), found), !found)) ([], false) n).map (·.1)

/-- scope.go:186-207 `GetFuncName`: the name stays empty when there is none. -/
def ScopeRec.getFuncName (h : Heap) (d : ScopeRec) : Option (Bytes × Bool) :=
  if d.kind ≠ .func_ then some ([], false)
  else (h.iterNext (fun (s : Bytes × Bool) a =>
      if h.kind (some a) = .funcName then ((h.text (some a), true), false) else (s, true))
    ([], false) d.node).map (·.1)

/-- scope.go:209-226 `GetTypeName`. -/
def ScopeRec.getTypeName (h : Heap) (d : ScopeRec) : Option (Bytes × Bool) :=
  if d.kind ≠ .type_ then some ([], false) else findKindName h d.node .typeName

/-- scope.go:228-243 `GetStructName`. -/
def ScopeRec.getStructName (h : Heap) (d : ScopeRec) : Option (Bytes × Bool) :=
  if d.kind ≠ .type_ then some ([], false)
  else match h.iterNext (fun (_ : Bool) a =>
      let b := decide (h.kind (some a) = .struct_); (b, !b)) false d.node with
    | none => none
    | some (isStruct, _) => (d.getTypeName h).map fun r => (r.1, isStruct)

/-- scope.go:245-260 `GetInterfaceName`. -/
def ScopeRec.getInterfaceName (h : Heap) (d : ScopeRec) : Option (Bytes × Bool) :=
  if d.kind ≠ .type_ then some ([], false)
  else match h.iterNext (fun (_ : Bool) a =>
      let b := decide (h.kind (some a) = .interface_); (b, !b)) false d.node with
    | none => none
    | some (isInterface, _) => (d.getTypeName h).map fun r => (r.1, isInterface)

/-- scope.go:285-302 `GetMethodReceiver`. -/
def ScopeRec.getMethodReceiver (h : Heap) (d : ScopeRec) : Option (Bytes × Bool) :=
  if d.kind ≠ .func_ then some ([], false) else findKindName h d.node .methodReceiverType

/-- scope.go:262-283 `GetMethodName`. -/
def ScopeRec.getMethodName (h : Heap) (d : ScopeRec) : Option (Bytes × Bool) :=
  if d.kind ≠ .func_ then some ([], false)
  else match d.getMethodReceiver h with
    | none => none
    | some (_, false) => some ([], false)
    | some (_, true) => findKindName h d.node .funcName

/-- scope.go:304-310 `Copy`. -/
def ScopeRec.copy (h : Heap) (d : ScopeRec) : Option (Heap × ScopeRec) :=
  (h.copy d.node true).map fun r => (r.1, { d with node := r.2 })

end Goast
