import Verif.Spec.Division
import Verif.Model.Scope

/-!
# Texts put together from declarations
-/

namespace Goast

/-- A scope as its methods show it: kind, `Line`, the nodes reached by `Next` with line, kind and text, and the six name
getters.  (`none` stands for a call that does not return.) -/
structure Look where
  kind : ScopeKind
  line : Int
  nodes : Option (List (Int × Kind × Bytes))
  funcName : Option (Bytes × Bool)
  typeName : Option (Bytes × Bool)
  structName : Option (Bytes × Bool)
  interfaceName : Option (Bytes × Bool)
  methodReceiver : Option (Bytes × Bool)
  methodName : Option (Bytes × Bool)
deriving DecidableEq, Repr

/-- A scope as its methods show it. -/
def ScopeRec.look (h : Heap) (sc : ScopeRec) : Look :=
  { kind := sc.kind
    line := sc.lineNo
    nodes := (h.iterNext (fun (l : List (Int × Kind × Bytes)) a =>
      (l ++ [(h.line (some a), h.kind (some a), h.text (some a))], true)) [] sc.node).map (·.1)
    funcName := sc.getFuncName h
    typeName := sc.getTypeName h
    structName := sc.getStructName h
    interfaceName := sc.getInterfaceName h
    methodReceiver := sc.getMethodReceiver h
    methodName := sc.getMethodName h }

/-- The same scope `n` lines further down. -/
def Look.below (n : Int) (v : Look) : Look :=
  { v with line := v.line + n, nodes := v.nodes.map (List.map fun x => (x.1 + n, x.2)) }

/-- The closing brackets that are still missing, innermost first, behind the pieces in the second argument, if those in the
first were missing before. -/
def missing : List Bytes → List Bytes → List Bytes
  | up, [] => up
  | up, t :: ts =>
    if t = b!"(" then missing (b!")" :: up) ts
    else if t = b!"{" then missing (b!"}" :: up) ts
    else if up.head? = some t then missing up.tail ts
    else missing up ts

/-- A text of whole lines: it ends with a newline that is not inside a comment or string, and all its `(` and `{` are closed. -/
def Whole (text : Bytes) : Prop :=
  (lexAll text).getLast? = some ⟨b!"\n", false⟩ ∧ missing [] ((lexAll text).map Lexeme.text) = []

instance (text : Bytes) : Decidable (Whole text) := by unfold Whole; infer_instance

/-- There is a word before the first `(` or `{`. -/
def wordFirst : List Bytes → Bool
  | [] => true
  | t :: ts => if t = b!"(" ∨ t = b!"{" then false else if IsWord t then true else wordFirst ts

/-- A text that begins with a scope: its first piece begins with the keyword of a scope or is a comment, and there is a word before
its first `(` or `{`. -/
def BeginsScope (text : Bytes) : Prop :=
  (∃ x, (lexAll text).head? = some x ∧ startsScope x.text = true) ∧ wordFirst ((lexAll text).map Lexeme.text) = true

end Goast
