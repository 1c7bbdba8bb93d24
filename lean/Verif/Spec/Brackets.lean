import Verif.Spec.Links

/-!
# Specification of matching brackets
-/

namespace Goast

/-- How many of the nodes have kind `k`. -/
def countKind (h : Heap) (k : Kind) (l : List Addr) : Nat := l.countP fun a => decide (h.kind (some a) = k)

/-- `b` closes the bracket opened just before the nodes `l`: up to and including `b` there is one `R`
more than there are `L`s, and this is so at no earlier node. -/
def Closes (h : Heap) (L R : Kind) (l : List Addr) (b : Addr) : Prop :=
  ∃ l₁ l₂, l = l₁ ++ b :: l₂ ∧
    countKind h R (l₁ ++ [b]) = countKind h L (l₁ ++ [b]) + 1 ∧
    ∀ p q, l₁ = p ++ q → countKind h R p < countKind h L p + 1

/-- The kinds of some nodes. -/
def kindsOf (h : Heap) (l : List Addr) : List Kind := l.map fun a => h.kind (some a)

/-- How a node of kind `k` changes the number of open `L … R` pairs. -/
def delta (L R k : Kind) : Int := if k = L then 1 else if k = R then -1 else 0

/-- From a sequence of kinds, with `p` open `(`, `c` open `{` and `s` open `[` before it: the part that begins
with the first line end or `}` at which no bracket is open (empty if there is none). -/
def stmtEnd (p c s : Int) : List Kind → List Kind
  | [] => []
  | k :: ks =>
    let p := p + delta .parenL .parenR k
    let c := c + delta .curlyL .curlyR k
    let s := s + delta .squareL .squareR k
    if p = 0 ∧ c = 0 ∧ s = 0 ∧ (k = .newLine ∨ k = .curlyR) then k :: ks else stmtEnd p c s ks

/-- The function is called on the spot: its first statement end outside all brackets is a `}` and directly
behind it comes a `(`. -/
def CalledAtOnce (ks : List Kind) : Prop := ∃ rest, stmtEnd 0 0 0 ks = .curlyR :: .parenL :: rest

instance (ks : List Kind) : Decidable (CalledAtOnce ks) :=
  match h : stmtEnd 0 0 0 ks with
  | .curlyR :: .parenL :: rest => .isTrue ⟨rest, h⟩
  | [] => .isFalse (by rintro ⟨r, e⟩; rw [h] at e; cases e)
  | [k] => .isFalse (by rintro ⟨r, e⟩; rw [h] at e; cases e)
  | k :: k' :: rest =>
    if hk : k = .curlyR ∧ k' = .parenL then .isTrue ⟨rest, by rw [h, hk.1, hk.2]⟩
    else .isFalse (by rintro ⟨r, e⟩; rw [h] at e; cases e; exact hk ⟨rfl, rfl⟩)

end Goast
