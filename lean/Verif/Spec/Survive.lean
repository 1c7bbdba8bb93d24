import Verif.Spec.TypeLabels
import Verif.Spec.Division
import Verif.Spec.Alias
import Verif.Spec.Brackets

/-!
# Which declarations come out of a parse with the text they had

Tokens only; nothing of the model of the parser occurs here.
-/

namespace Goast

/-- Sections whose text is not changed by a parse. -/
inductive Survives : List Token → Prop
  /-- anything but functions and types: imports, variables, constants, comments, the package clause -/
  | other {ts : List Token} (h : ∀ t, ts.head? = some t → t.1 ≠ .func_ ∧ t.1 ≠ .type_) : Survives ts
  /-- anything without comments, except types that are read in a way that meets a `(` within an aliased type -/
  | bare {ts : List Token} (hc : ∀ t ∈ ts, t.1 ≠ .comment)
      (ht : ∀ t, ts.head? = some t → t.1 = .type_ → Ok .name (ts.map Prod.fst)) : Survives ts
  /-- functions with or without comments, if `Sig` can read their signature -/
  | func {name : Bytes} {fin : Bool} {R ts ts' : List Token} (S : Sig R fin false ts ts') (e : DeclEnd fin R) :
      Survives ((.func_, b!"func") :: (.space, b!" ") :: (.raw, name) :: ts)
  /-- methods with or without comments -/
  | method {name : Bytes} {fin : Bool} {ps ps' R ts ts' : List Token}
      (hc : ¬ CalledAtOnce (((.func_, b!"func") :: (.space, b!" ") :: (.parenL, b!"(") :: (ps ++ (.parenR, b!")") :: (.space, b!" ") ::
        (.raw, name) :: ts) : List Token).map Prod.fst))
      (P : Params .methodReceiverName .methodReceiverType ps ps') (S : Sig R fin true ts ts') (e : DeclEnd fin R) :
      Survives ((.func_, b!"func") :: (.space, b!" ") :: (.parenL, b!"(") :: (ps ++ (.parenR, b!")") :: (.space, b!" ") :: (.raw, name) :: ts))
  /-- types with or without comments, if `Def` can read their definition -/
  | type {name : Bytes} {tp ts ts' : List Token} (P : TypeParams tp) (D : Def [] ts ts') :
      Survives ((.type_, b!"type") :: (.space, b!" ") :: (.raw, name) :: (tp ++ (.space, b!" ") :: ts))

end Goast
