import Verif.Model.Kind

/-!
# Which labels the words of a declaration get

Token lists only; nothing of the model of the resetters occurs here.
-/

namespace Goast

/-- A token: kind and text. -/
abbrev Token := Kind × Bytes

/-- Blanks: spaces, tabs, line ends and comments. -/
def isBlank (t : Token) : Prop := t.1 = .space ∨ t.1 = .tab ∨ t.1 = .newLine ∨ t.1 = .comment

instance (t : Token) : Decidable (isBlank t) := by unfold isBlank; infer_instance

/-- The tokens that count, up to the first comma or `)`. -/
def relevant : List Token → Nat
  | [] => 0
  | t :: ts => if t.1 = .comma ∨ t.1 = .parenR then 0 else if isBlank t then relevant ts else relevant ts + 1

/-- Split behind the token that closes a bracket: `n` more `L … R` pairs are open before the tokens. -/
def closeAt {α : Type} (L R : Kind) (key : α → Kind) : Nat → List α → Option (List α × α × List α)
  | _, [] => none
  | n, x :: xs =>
    if key x = L then (closeAt L R key (n + 1) xs).map fun r => (x :: r.1, r.2)
    else if key x = R then
      if n = 0 then some ([], x, xs) else (closeAt L R key (n - 1) xs).map fun r => (x :: r.1, r.2)
    else (closeAt L R key n xs).map fun r => (x :: r.1, r.2)

/-- Tokens that are passed over inside a parameter: everything but words, `,`, `)`, `func`, `[`, and
tokens that have a label already.  (A parenthesis that opens inside a parameter is passed over, too: the list ends
at the first `)` that does not belong to a `func(…)`.) -/
def isPlain (t : Token) : Prop :=
  t.1 ≠ .raw ∧ t.1 ≠ .comma ∧ t.1 ≠ .parenR ∧ t.1 ≠ .func_ ∧ t.1 ≠ .squareL ∧ t.1 ≠ .paramName ∧ t.1 ≠ .paramType

instance (t : Token) : Decidable (isPlain t) := by unfold isPlain; infer_instance

mutual

/-- The contents of a pair of parentheses, with labels: parameters separated by commas, blanks before each.  A
parameter that consists of one relevant token is a type; in all others the first word is the name. -/
inductive Params (nk tk : Kind) : List Token → List Token → Prop
  | nil : Params nk tk [] []
  | sep {t : Token} {ts ts' : List Token} (h : isBlank t ∨ t.1 = .comma ∨ t.1 = .parenL) (p : Params nk tk ts ts') :
      Params nk tk (t :: ts) (t :: ts')
  | param {t : Token} {ty ty' rest rest' : List Token} (first : ¬ isBlank t ∧ t.1 ≠ .parenL)
      (q : Param nk tk (decide (relevant (t :: ty) ≠ 1)) (t :: ty) ty')
      (stop : ∀ x, rest.head? = some x → x.1 = .comma) (p : Params nk tk rest rest') :
      Params nk tk (t :: ty ++ rest) (ty' ++ rest')

/-- The tokens of one parameter, with labels: words outside brackets get the kind `tk`, except that the first one gets
`nk` if the flag is set. -/
inductive Param (nk tk : Kind) : Bool → List Token → List Token → Prop
  | nil {pending : Bool} : Param nk tk pending [] []
  | word {pending : Bool} {t : Token} {ts ts' : List Token} (h : t.1 = .raw) (q : Param nk tk false ts ts') :
      Param nk tk pending (t :: ts) ((if pending then nk else tk, t.2) :: ts')
  | plain {pending : Bool} {t : Token} {ts ts' : List Token} (h : isPlain t) (q : Param nk tk pending ts ts') :
      Param nk tk pending (t :: ts) (t :: ts')
  /-- what is between square brackets stays as it is -/
  | square {pending : Bool} {t u : Token} {ts inner rest rest' : List Token} (ht : t.1 = .squareL)
      (hc : closeAt .squareL .squareR Prod.fst 0 ts = some (inner, u, rest)) (q : Param nk tk pending rest rest') :
      Param nk tk pending (t :: ts) (t :: (inner ++ u :: rest'))
  /-- `func` and its parameters (not in receivers) -/
  | func {pending : Bool} {t l u : Token} {ps ps' ts ts' : List Token} (hk : nk = .paramName ∧ tk = .paramType)
      (ht : t.1 = .func_) (hl : l.1 = .parenL) (hu : u.1 = .parenR) (p : Params nk tk ps ps') (q : Param nk tk pending ts ts') :
      Param nk tk pending (t :: l :: (ps ++ u :: ts)) (t :: l :: (ps' ++ u :: ts'))

end

/-- What follows the name of a function, with labels, up to the rest `R`.  The flags say whether the parameters have
been seen: before, and at the rest. -/
inductive Sig (R : List Token) (fin : Bool) : Bool → List Token → List Token → Prop
  /-- the rest -/
  | stop : Sig R fin fin R []
  /-- tokens that stay as they are -/
  | pass {seen : Bool} {t : Token} {ts ts' : List Token} (hp : t.1 ≠ .parenL) (hc : t.1 ≠ .curlyL) (hs : t.1 ≠ .squareL)
      (hn : t.1 = .newLine → seen = false) (hb : t.1 = .space → seen = false) (r : Sig R fin seen ts ts') :
      Sig R fin seen (t :: ts) (t :: ts')
  /-- parameters or results in parentheses -/
  | parens {seen : Bool} {t u : Token} {ps ps' ts ts' : List Token} (ht : t.1 = .parenL) (hu : u.1 = .parenR)
      (p : Params .paramName .paramType ps ps') (r : Sig R fin true ts ts') :
      Sig R fin seen (t :: (ps ++ u :: ts)) (t :: (ps' ++ u :: ts'))
  /-- a body in curly brackets stays as it is -/
  | body {seen : Bool} {t u : Token} {ts inner rest rest' : List Token} (ht : t.1 = .curlyL)
      (hc : closeAt .curlyL .curlyR Prod.fst 0 ts = some (inner, u, rest)) (r : Sig R fin seen rest rest') :
      Sig R fin seen (t :: ts) (t :: (inner ++ u :: rest'))
  /-- type parameters in square brackets stay as they are -/
  | square {seen : Bool} {t u : Token} {ts inner rest rest' : List Token} (ht : t.1 = .squareL)
      (hc : closeAt .squareL .squareR Prod.fst 0 ts = some (inner, u, rest)) (r : Sig R fin true rest rest') :
      Sig R fin seen (t :: ts) (t :: (inner ++ u :: rest'))
  /-- a space behind the parameters, perhaps comments, and then a line end, a space or a body -/
  | space {t : Token} {cs ts ts' : List Token} (ht : t.1 = .space) (hc : ∀ c ∈ cs, c.1 = .comment)
      (hn : ∀ x, ts.head? = some x → x.1 = .newLine ∨ x.1 = .space ∨ x.1 = .curlyL) (r : Sig R fin true ts ts') :
      Sig R fin true (t :: (cs ++ ts)) (t :: (cs ++ ts'))
  /-- a space and results in parentheses -/
  | results {b t u : Token} {ps ps' ts ts' : List Token} (hb : b.1 = .space) (ht : t.1 = .parenL) (hu : u.1 = .parenR)
      (p : Params .paramName .paramType ps ps') (r : Sig R fin true ts ts') :
      Sig R fin true (b :: t :: (ps ++ u :: ts)) (b :: t :: (ps' ++ u :: ts'))
  /-- a space and a result type that begins with `func(…)` -/
  | func {b t l u : Token} {ps ps' ts ts' : List Token} (hb : b.1 = .space) (ht : t.1 = .func_) (hl : l.1 = .parenL) (hu : u.1 = .parenR)
      (p : Params .paramName .paramType ps ps') (r : Sig R fin true ts ts') :
      Sig R fin true (b :: t :: l :: (ps ++ u :: ts)) (b :: t :: l :: (ps' ++ u :: ts'))
  /-- a space and a result type up to the next space, line end or body: its tokens become one -/
  | result {b t : Token} {us ts ts' : List Token} (hb : b.1 = .space) (ht : t.1 ≠ .parenL ∧ t.1 ≠ .func_)
      (hu : ∀ u ∈ t :: us, u.1 ≠ .newLine ∧ u.1 ≠ .space ∧ u.1 ≠ .curlyL ∧ u.1 ≠ .comment)
      (hn : ∀ x, ts.head? = some x → x.1 = .newLine ∨ x.1 = .space ∨ x.1 = .curlyL) (r : Sig R fin true ts ts') :
      Sig R fin true (b :: (t :: us ++ ts)) (b :: (.paramType, t.2 ++ (us.map Prod.snd).flatten) :: ts')

/-- A declaration ends with the text, or at a line end behind the parameters. -/
def DeclEnd (fin : Bool) (R : List Token) : Prop := R = [] ∨ (fin = true ∧ ∃ t, R.head? = some t ∧ t.1 = .newLine)

end Goast
