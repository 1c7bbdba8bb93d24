import Verif.Proofs.Frame

/-!
# A heap extended by one chain of consecutive nodes
-/

namespace Goast

/-- The data of a node. -/
structure Tok where
  line : Int
  kind : Kind
  text : Bytes
deriving DecidableEq, Repr

/-- The records of a chain of consecutive addresses from `b` on. -/
def recs (b : Nat) (ts : List Tok) : List NodeRec :=
  ts.mapIdx fun i t =>
    { line := t.line, kind := t.kind, text := t.text,
      prev := if i = 0 then none else some (b + i - 1),
      next := if i + 1 < ts.length then some (b + i + 1) else none }

@[simp] theorem length_recs (b : Nat) (ts : List Tok) : (recs b ts).length = ts.length := by simp [recs]

@[simp] theorem recs_nil (b : Nat) : recs b [] = [] := rfl

theorem getElem?_recs (b : Nat) (ts : List Tok) (i : Nat) :
    (recs b ts)[i]? = (ts[i]?).map fun t =>
      { line := t.line, kind := t.kind, text := t.text,
        prev := if i = 0 then none else some (b + i - 1),
        next := if i + 1 < ts.length then some (b + i + 1) else none } := by
  simp [recs]

namespace Heap

@[simp] theorem size_extend' (h : Heap) (rs : List NodeRec) : (h.extend rs).size = h.size + rs.length := by
  simp [extend, size]

theorem extend_nil' (h : Heap) : h.extend [] = h := by simp [extend]

theorem next_recs (h : Heap) (ts : List Tok) (i : Nat) :
    (h.extend (recs h.size ts)).next (some (h.size + i)) =
      if i + 1 < ts.length then some (h.size + i + 1) else none := by
  rw [next_extend_ge, getElem?_recs]
  rcases Nat.lt_or_ge i ts.length with hi | hi
  · simp [hi]
  · simp [hi]; omega

theorem prev_recs (h : Heap) (ts : List Tok) (i : Nat) (hi : i < ts.length) :
    (h.extend (recs h.size ts)).prev (some (h.size + i)) =
      if i = 0 then none else some (h.size + i - 1) := by
  rw [prev_extend_ge, getElem?_recs]
  simp [hi]

theorem fwd_recs (h : Heap) (ts : List Tok) : ∀ (n k : Nat), n + k = ts.length →
    Fwd (h.extend (recs h.size ts)) (if k < ts.length then some (h.size + k) else none)
      (List.range' (h.size + k) n) := by
  intro n
  induction n with
  | zero =>
    intro k hk
    have : ¬ k < ts.length := by omega
    simp only [this, if_false, List.range'_zero]
    exact .nil
  | succ n ih =>
    intro k hk
    have : k < ts.length := by omega
    simp only [this, if_true, List.range'_succ]
    refine .cons (by simp; omega) ?_
    rw [next_recs]
    have := ih (k + 1) (by omega)
    simpa [Nat.add_assoc] using this

theorem modify_extend_add (h : Heap) (rs : List NodeRec) (i : Nat) (f : NodeRec → NodeRec) :
    (h.extend rs).modify (h.size + i) f = h.extend (rs.modify i f) := by
  simp only [modify, extend, Heap.mk.injEq]
  have : h.cells.length = h.size := rfl
  apply List.ext_getElem?
  intro j
  rw [List.getElem?_modify, List.getElem?_append, List.getElem?_append, List.getElem?_modify]
  rw [this]
  rcases Nat.lt_or_ge j h.size with hj | hj
  · have : h.size + i ≠ j := by omega
    simp [this, hj]
  · have : ¬ j < h.size := by omega
    simp only [this, if_false]
    have : (h.size + i = j) ↔ (i = j - h.size) := by omega
    simp [this]

theorem recs_link (b : Nat) (ts us : List Tok) (ht : ts ≠ []) (hu : us ≠ []) :
    ((recs b ts ++ recs (b + ts.length) us).modify (ts.length - 1)
        (fun c => { c with next := some (b + ts.length) })).modify ts.length
        (fun c => { c with prev := some (b + (ts.length - 1)) }) = recs b (ts ++ us) := by
  have h1 : 0 < ts.length := List.length_pos_iff.2 ht
  have h2 : 0 < us.length := List.length_pos_iff.2 hu
  apply List.ext_getElem?
  intro j
  rw [List.getElem?_modify, List.getElem?_modify, List.getElem?_append, getElem?_recs, getElem?_recs,
    getElem?_recs, length_recs, List.getElem?_append]
  rcases Nat.lt_or_ge j ts.length with hj | hj
  · have e1 : ts.length ≠ j := by omega
    simp only [hj, if_true, e1, if_false, List.getElem?_eq_getElem, Option.map_some, List.length_append]
    by_cases e2 : ts.length - 1 = j
    · simp only [e2, if_true, Option.map_some, id]
      simp
      omega
    · have a1 : j + 1 < ts.length := by omega
      have a2 : j + 1 < ts.length + us.length := by omega
      simp [e2, a1, a2]
  · have e0 : ¬ j < ts.length := by omega
    have e2 : ts.length - 1 ≠ j := by omega
    simp only [e0, if_false, e2]
    rcases Nat.lt_or_ge (j - ts.length) us.length with hk | hk
    · simp only [hk, List.getElem?_eq_getElem, Option.map_some, List.length_append]
      by_cases e1 : ts.length = j
      · subst e1
        have : ts.length ≠ 0 := by omega
        simp [this]
        omega
      · simp [e1]
        have a1 : j - ts.length ≠ 0 := by omega
        have a2 : j ≠ 0 := by omega
        have a3 : (j - ts.length + 1 < us.length) ↔ (j + 1 < ts.length + us.length) := by omega
        simp [a1, a2, a3]
        constructor
        · omega
        · split <;> simp; omega
    · have : us[j - ts.length]? = none := by simp [hk]
      simp [this]

/-- `replaceNext` between two separate ends just sets the two links. -/
theorem replaceNext_ends {h : Heap} {a b : Addr} (hab : a ≠ b) (ha : h.next (some a) = none)
    (hb : h.prev (some b) = none) :
    (h.replaceNext (some a) (some b)).1 =
      (h.modify a (fun c => { c with next := some b })).modify b (fun c => { c with prev := some a }) := by
  unfold replaceNext
  rw [if_neg (by simp [ha, hab])]
  have e1 : h.setNext (some a) (some b) = h.modify a (fun c => { c with next := some b }) := by
    simp [setNext, hab, ha]
  have e2 : (h.modify a (fun c => { c with next := some b })).prev (some b) = none := by
    rw [← e1, prev_setNext_some]
    simp [ha, hb]
  have e3 : (h.modify a (fun c => { c with next := some b })).setPrev (some b) (some a) =
      (h.modify a (fun c => { c with next := some b })).modify b (fun c => { c with prev := some a }) := by
    have : some b ≠ some a := by simpa using Ne.symm hab
    simp [setPrev, this, e2]
  simp only [e1, ha, hb, e3]
  simp [setNext, setPrev]

end Heap
end Goast
