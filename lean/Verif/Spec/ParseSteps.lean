import Verif.Model.Steps

/-!
# What one sees of scopes in a memory
-/

namespace Goast

/-- A list of nodes in memory `m`, beginning with `n`, whose `Prev` must be `p`: following `Next` one visits the addresses `as` and then the list ends;
the `Prev` of each node is the one visited before it; the nodes have these lines, kinds and texts. -/
inductive Listed (m : Mem) : Ptr → Ptr → List Nat → List (Int × Kind × Bytes) → Prop
  | nil {p : Ptr} : Listed m p none [] []
  | cons {p : Ptr} {a : Nat} {r : NodeRec} {as : List Nat} {l : List (Int × Kind × Bytes)} : m a = some r → r.prev = p →
      Listed m (some a) r.next as l → Listed m p (some a) (a :: as) ((r.line, r.kind, r.text) :: l)

/-- What one sees of a list of scopes in memory `m`: the kind and the line of each, and the lines, kinds and texts of its nodes; these are at
the addresses `ass`. -/
inductive Shown (m : Mem) : List ScopeRec → List (List Nat) → List (ScopeKind × Int × List (Int × Kind × Bytes)) → Prop
  | nil : Shown m [] [] []
  | cons {sc : ScopeRec} {scs : List ScopeRec} {as : List Nat} {ass : List (List Nat)} {l : List (Int × Kind × Bytes)}
      {out : List (ScopeKind × Int × List (Int × Kind × Bytes))} : Listed m none sc.node as l → Shown m scs ass out →
      Shown m (sc :: scs) (as :: ass) ((sc.kind, sc.line, l) :: out)

end Goast
