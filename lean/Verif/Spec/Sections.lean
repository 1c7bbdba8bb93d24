import Verif.Spec.Survive

/-!
# What a parse makes of the sections of a text: labels and names

Tokens only, as in `Verif/Spec/Survive.lean`.
-/

namespace Goast

/-- The tokens of a section, and the tokens of its scope after the parse: same text, but the words of functions and types have
labels. -/
inductive Labelled : List Token → List Token → Prop
  /-- imports, variables, constants, comments and the package clause stay as they are -/
  | other {ts : List Token} (h : ∀ t, ts.head? = some t → t.1 ≠ .func_ ∧ t.1 ≠ .type_) : Labelled ts ts
  | func {name : Bytes} {fin : Bool} {R ts ts' : List Token} (S : Sig R fin false ts ts') (e : DeclEnd fin R) :
      Labelled ((.func_, b!"func") :: (.space, b!" ") :: (.raw, name) :: ts) ((.func_, b!"func") :: (.space, b!" ") :: (.funcName, name) :: (ts' ++ R))
  | method {name : Bytes} {fin : Bool} {ps ps' R ts ts' : List Token}
      (hc : ¬ CalledAtOnce (((.func_, b!"func") :: (.space, b!" ") :: (.parenL, b!"(") :: (ps ++ (.parenR, b!")") :: (.space, b!" ") ::
        (.raw, name) :: ts) : List Token).map Prod.fst))
      (P : Params .methodReceiverName .methodReceiverType ps ps') (S : Sig R fin true ts ts') (e : DeclEnd fin R) :
      Labelled ((.func_, b!"func") :: (.space, b!" ") :: (.parenL, b!"(") :: (ps ++ (.parenR, b!")") :: (.space, b!" ") :: (.raw, name) :: ts))
        ((.func_, b!"func") :: (.space, b!" ") :: (.parenL, b!"(") :: (ps' ++ (.parenR, b!")") :: (.space, b!" ") :: (.funcName, name) :: (ts' ++ R)))
  | type {name : Bytes} {tp ts ts' : List Token} (P : TypeParams tp) (D : Def [] ts ts') :
      Labelled ((.type_, b!"type") :: (.space, b!" ") :: (.raw, name) :: (tp ++ (.space, b!" ") :: ts))
        ((.type_, b!"type") :: (.space, b!" ") :: (.typeName, name) :: (tp ++ (.space, b!" ") :: ts'))

/-- Several sections, one by one. -/
inductive LabelledAll : List (List Token) → List (List Token) → Prop
  | nil : LabelledAll [] []
  | cons {g g' : List Token} {gs gs' : List (List Token)} (l : Labelled g g') (ls : LabelledAll gs gs') : LabelledAll (g :: gs) (g' :: gs')

/-- What a section declares. -/
inductive Entry
  | func (name : Bytes)
  | method (receiver name : Bytes)
  | type (name : Bytes)
  | other
deriving DecidableEq, Repr

/-- What the tokens of a section declare.  Nothing is required of what follows the name, except that the function is not called
at once. -/
inductive Declares : List Token → Entry → Prop
  | func {name : Bytes} {ts : List Token} : Declares ((.func_, b!"func") :: (.space, b!" ") :: (.raw, name) :: ts) (.func name)
  /-- The receiver's type is the first word of the receiver that is labelled as its type. -/
  | method {typ name : Bytes} {ps ps' ts : List Token}
      (hc : ¬ CalledAtOnce (((.func_, b!"func") :: (.space, b!" ") :: (.parenL, b!"(") :: (ps ++ (.parenR, b!")") :: (.space, b!" ") ::
        (.raw, name) :: ts) : List Token).map Prod.fst))
      (P : Params .methodReceiverName .methodReceiverType ps ps')
      (ht : ∃ pre post, ps' = pre ++ (.methodReceiverType, typ) :: post ∧ ∀ t ∈ pre, t.1 ≠ .methodReceiverType) :
      Declares ((.func_, b!"func") :: (.space, b!" ") :: (.parenL, b!"(") :: (ps ++ (.parenR, b!")") :: (.space, b!" ") :: (.raw, name) :: ts))
        (.method typ name)
  | type {name : Bytes} {ts : List Token} : Declares ((.type_, b!"type") :: (.space, b!" ") :: (.raw, name) :: ts) (.type name)
  | other {t : Token} {ts : List Token} (h1 : ¬ b!"func" <+: t.2) (h2 : ¬ b!"type" <+: t.2) : Declares (t :: ts) .other

/-- What several sections declare, one by one. -/
inductive DeclaresAll : List (List Token) → List Entry → Prop
  | nil : DeclaresAll [] []
  | cons {g : List Token} {gs : List (List Token)} {en : Entry} {ens : List Entry} (d : Declares g en) (ds : DeclaresAll gs ens) :
      DeclaresAll (g :: gs) (en :: ens)

/-- The answers of the getters: `GetFuncName`, `GetTypeName` and `GetMethodName` with their flags, and what `GetMethodReceiver` returns if
its flag is set. -/
structure Card where
  func : Bytes × Bool
  type : Bytes × Bool
  method : Bytes × Bool
  receiver : Option Bytes
deriving DecidableEq, Repr

/-- What a user expects to be told. -/
def Entry.card : Entry → Card
  | .func n => ⟨(n, true), ([], false), ([], false), none⟩
  | .method r n => ⟨(n, true), ([], false), (n, true), some r⟩
  | .type n => ⟨([], false), (n, true), ([], false), none⟩
  | .other => ⟨([], false), ([], false), ([], false), none⟩

end Goast
