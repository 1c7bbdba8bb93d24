import Verif.Model.Describe

/-!
# Everything the API shows of the result of a parse

A view holds no addresses: it is what a program can print of the scopes it got.
-/

namespace Goast

/-- A node as its getters show it: `Line`, `Kind`, `Text`, `Description`. -/
structure NodeView where
  line : Int
  kind : Kind
  text : Bytes
  description : Bytes
deriving DecidableEq, Repr

/-- A node as its getters show it. -/
def Heap.nodeView (h : Heap) (n : Ptr) : NodeView := { line := h.line n, kind := h.kind n, text := h.text n, description := h.describe n }

/-- A scope as its methods show it: kind, `Line`, `Description`, the nodes reached by `Next`, each with the node
`Prev` returns there, and the six name getters.  (`none` stands for a call that does not return.) -/
structure ScopeView where
  kind : ScopeKind
  line : Int
  description : Bytes
  nodes : Option (List (NodeView × NodeView))
  funcName : Option (Bytes × Bool)
  typeName : Option (Bytes × Bool)
  structName : Option (Bytes × Bool)
  interfaceName : Option (Bytes × Bool)
  methodReceiver : Option (Bytes × Bool)
  methodName : Option (Bytes × Bool)
deriving DecidableEq, Repr

/-- A scope as its methods show it. -/
def ScopeRec.view (h : Heap) (sc : ScopeRec) : ScopeView :=
  { kind := sc.kind
    line := sc.lineNo
    description := sc.describe
    nodes := (h.iterNext (fun (l : List (NodeView × NodeView)) a =>
      (l ++ [(h.nodeView (some a), h.nodeView (h.prev (some a)))], true)) [] sc.node).map (·.1)
    funcName := sc.getFuncName h
    typeName := sc.getTypeName h
    structName := sc.getStructName h
    interfaceName := sc.getInterfaceName h
    methodReceiver := sc.getMethodReceiver h
    methodName := sc.getMethodName h }

/-- A list of scopes as the API shows it: each scope, and of all together the text `Save` writes, the `Description` and the
`Package` of an `Ast` made of them. -/
structure ParseView where
  scopes : List ScopeView
  text : Option Bytes
  description : Option Bytes
  package : Option (Except Err Bytes)

/-- A list of scopes as the API shows it. -/
def scopesView (h : Heap) (scs : List ScopeRec) : ParseView :=
  { scopes := scs.map (ScopeRec.view h)
    text := scopesText h scs
    description := astDescription h scs
    package := findPackageName h scs }

/-- Every call returned. -/
structure ScopeView.Answered (v : ScopeView) : Prop where
  nodes : v.nodes.isSome
  funcName : v.funcName.isSome
  typeName : v.typeName.isSome
  structName : v.structName.isSome
  interfaceName : v.interfaceName.isSome
  methodReceiver : v.methodReceiver.isSome
  methodName : v.methodName.isSome

/-- Every call returned. -/
structure ParseView.Answered (v : ParseView) : Prop where
  scopes : ∀ s ∈ v.scopes, s.Answered
  text : v.text.isSome
  description : v.description.isSome
  package : v.package.isSome

end Goast
