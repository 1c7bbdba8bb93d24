import Verif.Spec.Labels

/-!
# Which labels the words of a type declaration get

Token lists only, as in `Verif/Spec/Labels.lean`.
-/

namespace Goast

/-- Blanks within a line. -/
def isGap (t : Token) : Prop := t.1 = .space ∨ t.1 = .tab ∨ t.1 = .comment

instance (t : Token) : Decidable (isGap t) := by unfold isGap; infer_instance

/-! ## Struct fields -/

/-- A word becomes a type. -/
def typeWord (t : Token) : Token := (if t.1 = .raw then .paramType else t.1, t.2)

/-- `n` names separated by commas, with blanks around the commas. -/
inductive Names : Nat → List Token → Prop
  | one {t : Token} (ht : t.1 = .raw) : Names 1 [t]
  | more {n : Nat} {t c : Token} {bs cs ts : List Token} (ht : t.1 = .raw) (hb : ∀ x ∈ bs, isGap x) (hc : c.1 = .comma)
      (hcs : ∀ x ∈ cs, isGap x) (r : Names n ts) : Names (n + 1) (t :: (bs ++ c :: (cs ++ ts)))

/-- No comma before the first token that is neither a word nor a blank. -/
def commaFree : List Token → Prop
  | [] => True
  | t :: ts => t.1 ≠ .comma ∧ (t.1 = .raw ∨ isGap t → commaFree ts)

/-- A line of a struct that declares `n` fields by name. -/
inductive Field : Nat → List Token → Prop
  /-- blanks only -/
  | blank {bs : List Token} (hb : ∀ x ∈ bs, isGap x) : Field 0 bs
  /-- names, a space and a type -/
  | named {n : Nat} {t : Token} {bs ns ty : List Token} (hb : ∀ x ∈ bs, isGap x) (hn : Names n ns) (ht : t.1 = .space) (hc : commaFree ty) :
      Field n (bs ++ (ns ++ t :: ty))
  /-- an embedded type: a word and no blank, comma or further word behind it -/
  | embedded {t : Token} {bs ty : List Token} (hb : ∀ x ∈ bs, isGap x) (ht : t.1 = .raw)
      (hty : ∀ x, ty.head? = some x → x.1 ≠ .raw ∧ x.1 ≠ .comma ∧ ¬ isGap x) : Field 0 (bs ++ t :: ty)
  /-- something that is neither a word nor a comma, for example the `}` of a nested struct -/
  | other {t : Token} {bs ty : List Token} (hb : ∀ x ∈ bs, isGap x) (ht : t.1 ≠ .raw ∧ t.1 ≠ .comma ∧ ¬ isGap t) : Field 0 (bs ++ t :: ty)

/-- The labels of a line of a struct: the first `n` words outside the parentheses of a function type are names, the
others are types. -/
inductive Row : Nat → List Token → List Token → Prop
  | nil {n : Nat} : Row n [] []
  | word {n : Nat} {t : Token} {ts ts' : List Token} (ht : t.1 = .raw) (r : Row (n - 1) ts ts') :
      Row n (t :: ts) ((if n ≠ 0 then .paramName else .paramType, t.2) :: ts')
  | keep {n : Nat} {t : Token} {ts ts' : List Token} (ht : t.1 ≠ .raw ∧ t.1 ≠ .newLine ∧ t.1 ≠ .func_) (r : Row n ts ts') :
      Row n (t :: ts) (t :: ts')
  /-- `func` and its parameters, which may be on several lines: they are labelled as those of a function, but words in
  square brackets are types, too -/
  | func {n : Nat} {t l u : Token} {ps ps' ts ts' : List Token} (ht : t.1 = .func_) (hl : l.1 = .parenL) (hu : u.1 = .parenR)
      (p : Params .paramName .paramType ps ps') (r : Row n ts ts') :
      Row n (t :: l :: (ps ++ u :: ts)) (t :: l :: (ps'.map typeWord ++ u :: ts'))

/-- What follows the `{` of a struct, with labels, up to the rest `R`. -/
inductive Fields (R : List Token) : List Token → List Token → Prop
  | stop : Fields R R []
  /-- between the lines -/
  | skip {t : Token} {ts ts' : List Token} (ht : t.1 = .newLine ∨ t.1 = .comment ∨ t.1 = .curlyL) (r : Fields R ts ts') : Fields R (t :: ts) (t :: ts')
  /-- a line -/
  | line {n : Nat} {t u : Token} {us us' ts ts' : List Token} (first : t.1 ≠ .comment ∧ t.1 ≠ .curlyL ∧ t.1 ≠ .curlyR) (f : Field n (t :: us))
      (l : Row n (t :: us) us') (hn : u.1 = .newLine) (r : Fields R ts ts') :
      Fields R (t :: us ++ u :: ts) (us' ++ u :: ts')

/-! ## Interfaces -/

/-- What follows the `{` of an interface, with labels, up to the rest `R`. -/
inductive Methods (R : List Token) : List Token → List Token → Prop
  | stop : Methods R R []
  /-- between the lines -/
  | skip {t : Token} {ts ts' : List Token} (ht : isBlank t ∨ t.1 = .curlyL) (r : Methods R ts ts') : Methods R (t :: ts) (t :: ts')
  /-- a method: its name, its signature and the end of the line -/
  | method {t u n : Token} {M M' ts ts' : List Token} (hn : n.1 = .raw) (ht : t.1 = .parenL) (hu : u.1 = .newLine)
      (sig : Sig (u :: M) true false (t :: ts) ts') (r : Methods R M M') :
      Methods R (n :: t :: ts) ((.funcName, n.2) :: (ts' ++ u :: M'))
  /-- an embedded type or a union: up to the end of the line there are no parentheses or curly brackets, and square brackets are balanced -/
  | embedded {t u : Token} {us ts ts' : List Token} (first : ¬ isBlank t)
      (hu : ∀ x ∈ t :: us, x.1 ≠ .newLine ∧ x.1 ≠ .curlyL ∧ x.1 ≠ .curlyR ∧ x.1 ≠ .parenL ∧ x.1 ≠ .parenR)
      (hs : (t :: us).countP (fun x => decide (x.1 = .squareL)) = (t :: us).countP (fun x => decide (x.1 = .squareR)))
      (hn : u.1 = .newLine) (r : Methods R ts ts') :
      Methods R (t :: us ++ u :: ts) ((if t.1 = .raw then .typeName else t.1, t.2) :: (us ++ u :: ts'))

/-! ## Type declarations -/

/-- Tokens of a type declaration that stay as they are. -/
def isPassive (t : Token) : Prop := t.1 ≠ .interface_ ∧ t.1 ≠ .struct_ ∧ t.1 ≠ .func_ ∧ t.1 ≠ .raw ∧ t.1 ≠ .squareL

instance (t : Token) : Decidable (isPassive t) := by unfold isPassive; infer_instance

/-- What follows `type NAME `, with labels, up to the rest `R`. -/
inductive Def (R : List Token) : List Token → List Token → Prop
  | stop : Def R R []
  | pass {t : Token} {ts ts' : List Token} (ht : isPassive t) (r : Def R ts ts') : Def R (t :: ts) (t :: ts')
  /-- square brackets stay as they are -/
  | square {t u : Token} {ts inner rest rest' : List Token} (ht : t.1 = .squareL)
      (hc : closeAt .squareL .squareR Prod.fst 0 ts = some (inner, u, rest)) (r : Def R rest rest') :
      Def R (t :: ts) (t :: (inner ++ u :: rest'))
  /-- a struct -/
  | struct {t o u : Token} {gap ts ts' M M' : List Token} (ht : t.1 = .struct_) (hg : ∀ x ∈ gap, x.1 ≠ .curlyL) (ho : o.1 = .curlyL)
      (hu : u.1 = .curlyR) (f : Fields (u :: M) ts ts') (r : Def R M M') :
      Def R (t :: (gap ++ o :: ts)) (t :: (gap ++ o :: (ts' ++ u :: M')))
  /-- an interface -/
  | interface {t o u : Token} {gap ts ts' M M' : List Token} (ht : t.1 = .interface_) (hg : ∀ x ∈ gap, x.1 ≠ .curlyL) (ho : o.1 = .curlyL)
      (hu : u.1 = .curlyR) (f : Methods (u :: M) ts ts') (r : Def R M M') :
      Def R (t :: (gap ++ o :: ts)) (t :: (gap ++ o :: (ts' ++ u :: M')))
  /-- a word, up to the end of the line: its tokens become one; comments may follow -/
  | word {t : Token} {us cs ts ts' : List Token} (ht : t.1 = .raw)
      (hu : ∀ x ∈ us, x.1 ≠ .newLine ∧ x.1 ≠ .parenL ∧ x.1 ≠ .curlyL ∧ x.1 ≠ .squareL ∧ x.1 ≠ .func_ ∧ x.1 ≠ .comment)
      (hc : ∀ x ∈ cs, x.1 = .comment) (hn : ∀ x, ts.head? = some x → x.1 = .newLine) (r : Def R ts ts') :
      Def R (t :: (us ++ (cs ++ ts))) ((.paramType, t.2 ++ (us.map Prod.snd).flatten) :: (cs ++ ts'))

/-- Type parameters in square brackets, or nothing. -/
inductive TypeParams : List Token → Prop
  | none : TypeParams []
  | some {t u : Token} {ts inner : List Token} (ht : t.1 = .squareL) (hc : closeAt .squareL .squareR Prod.fst 0 ts = some (inner, u, [])) :
      TypeParams (t :: ts)

end Goast
