import Verif.Model.Ast

/-!
# `IterScope` with a callback that may do anything

`AstRec.iterScope` (Model/Ast.lean) is `IterScope` with a callback that does not touch the slice of scopes.  Here the callback may append
to the `Ast` itself or assign to elements of `ast.Scope()`.
-/

namespace Goast

/-- Go `s[i] = x` on a slice, e.g. `ast.Scope()[i] = x`; `none` is the panic of an index out of range. -/
def AState.assign (st : AState) (s : Slice) (i : Nat) (x : ScopeRec) : Option AState :=
  if i < s.len then some { st with arrs := st.arrs.modify s.arr fun l => AState.overwrite l (s.off + i) [x] } else none

/-- The loop of ast.go:190-194, `for _, sc := range f.scope`: the slice `sl` and its length are those at the start; each element is read from
the backing array when its turn comes.  `n` iterations are left and `i` is the index.  The callback changes the state and whatever it captures
(`σ`; the `Ast` itself, if it appends to it). -/
def iterSlice {σ : Type} (fn : AState × σ → ScopeRec → (AState × σ) × Bool) (sl : Slice) : Nat → Nat → AState × σ → AState × σ
  | 0, _, w => w
  | n + 1, i, w =>
    match (w.1.elems sl)[i]? with
    | none => w
    | some sc =>
      match fn w sc with
      | (w, true) => iterSlice fn sl n (i + 1) w
      | (w, false) => w

/-- ast.go:189-195 `IterScope`. -/
def AstRec.iterScopeW {σ : Type} (f : AstRec) (fn : AState × σ → ScopeRec → (AState × σ) × Bool) (w : AState × σ) : AState × σ :=
  iterSlice fn f.scope f.scope.len 0 w

end Goast
