import Verif.Proofs.Recs
import Verif.Proofs.Text
import Verif.Model.Extract
import Verif.Spec.Lexer

/-!
# The pieces of the extractor loop, on chains of consecutive nodes
-/

namespace Goast
open Heap

/-- The first node of a chain of consecutive nodes. -/
def headPtr (b : Nat) (ts : List Tok) : Ptr := if ts = [] then none else some b

/-- The local variables of a `Run` call that has made the nodes `ts`, the first at address `b`. -/
def loc (b : Nat) (ts : List Tok) (bl : Int) : Local :=
  { head := headPtr b ts, cur := if ts = [] then none else some (b + (ts.length - 1)), bufLine := bl }

theorem headPtr_append {b : Nat} {ts us : List Tok} (hu : us ≠ []) : headPtr b (ts ++ us) = some b := by
  simp [headPtr, hu]

theorem last_recs (h : Heap) (ts : List Tok) (k : Nat) (hk : k < ts.length) :
    (h.extend (recs h.size ts)).last (some (h.size + k)) = some (some (h.size + (ts.length - 1))) := by
  have f := fwd_recs h ts (ts.length - k) k (by omega)
  rw [if_pos hk] at f
  rw [last_eq _ f, List.getLast?_range']
  have : ts.length - k ≠ 0 := by omega
  simp [this]
  omega

theorem insertNode_spec (h : Heap) (s : Shared) (ts us : List Tok) (bl : Int) (hu : us ≠ [])
    (hs : s.heap = (h.extend (recs h.size ts)).extend (recs (h.size + ts.length) us)) :
    insertNode s (loc h.size ts bl) (some (h.size + ts.length)) =
      some ({ s with heap := h.extend (recs h.size (ts ++ us)) }, loc h.size (ts ++ us) bl) := by
  have hul : 0 < us.length := List.length_pos_iff.2 hu
  by_cases ht : ts = []
  · subst ht
    simp only [recs_nil, extend_nil', List.length_nil, Nat.add_zero] at hs
    have := last_recs h us 0 hul
    simp only [Nat.add_zero] at this
    simp [insertNode, loc, headPtr, hs, this, hu]
  · have htl : 0 < ts.length := List.length_pos_iff.2 ht
    have e0 : s.heap = h.extend (recs h.size ts ++ recs (h.size + ts.length) us) := by
      rw [hs, extend_extend]
    have e1 : s.heap.next (some (h.size + (ts.length - 1))) = none := by
      rw [e0, next_extend_ge, List.getElem?_append, length_recs]
      have a1 : ts.length - 1 < ts.length := by omega
      have a2 : ¬ ts.length - 1 + 1 < ts.length := by omega
      rw [if_pos a1, getElem?_recs]
      simp [a1, a2]
    have e2 : s.heap.prev (some (h.size + ts.length)) = none := by
      rw [e0, prev_extend_ge, List.getElem?_append, length_recs]
      simp [getElem?_recs]
    have e3 := replaceNext_ends (h := s.heap) (a := h.size + (ts.length - 1)) (b := h.size + ts.length)
      (by omega) e1 e2
    have e4 : (s.heap.replaceNext (some (h.size + (ts.length - 1))) (some (h.size + ts.length))).1 =
        h.extend (recs h.size (ts ++ us)) := by
      rw [e3, e0, modify_extend_add, modify_extend_add]
      congr 1
      exact recs_link h.size ts us ht hu
    have e5 := last_recs h (ts ++ us) ts.length (by simp; omega)
    simp only [insertNode, loc, headPtr, ht, if_false, reduceCtorEq, ne_eq, not_false_eq_true, if_true]
    rw [e4, e5]
    simp [ht]

/-- The node made by `newNode`. -/
def mkTok (line : Int) (kinds : List Kind) (text : Bytes) : Tok :=
  { line, kind := kinds.head?.getD (Kind.new text), text }

theorem newNode_recs (h : Heap) (line : Int) (text : Bytes) (kinds : List Kind) :
    h.newNode line text kinds = (h.extend (recs h.size [mkTok line kinds text]), h.size) := by
  rw [newNode_eq]
  rcases kinds with _ | ⟨k, ks⟩ <;> simp [recs, mkTok]

/-- Making one node and appending it. -/
theorem insertNew (h : Heap) (s : Shared) (ts : List Tok) (bl line : Int) (text : Bytes) (kinds : List Kind)
    (hs : s.heap = h.extend (recs h.size ts)) :
    insertNode { s with heap := (s.heap.newNode line text kinds).1 } (loc h.size ts bl)
        (some (s.heap.newNode line text kinds).2) =
      some ({ s with heap := h.extend (recs h.size (ts ++ [mkTok line kinds text])) },
        loc h.size (ts ++ [mkTok line kinds text]) bl) := by
  rw [newNode_recs]
  have : s.heap.size = h.size + ts.length := by simp [hs]
  rw [this]
  have := insertNode_spec h { s with heap := s.heap.extend (recs (h.size + ts.length) [mkTok line kinds text]) }
    ts [mkTok line kinds text] bl (by simp) (by rw [hs])
  exact this

/-- The pending buffer as a list of at most one node. -/
def pend (line : Int) (kinds : List Kind) (buf : Bytes) : List Tok :=
  if buf = [] then [] else [mkTok line kinds buf]

theorem pushNode_spec (h : Heap) (s : Shared) (ts : List Tok) (bl : Int) (useLine : Bool) (kinds : List Kind)
    (hs : s.heap = h.extend (recs h.size ts)) :
    pushNode s (loc h.size ts bl) useLine kinds =
      some ({ s with heap := h.extend (recs h.size (ts ++ pend (if useLine then s.line else bl) kinds s.buf)), buf := [] },
        loc h.size (ts ++ pend (if useLine then s.line else bl) kinds s.buf) (if s.buf = [] then bl else s.line)) := by
  unfold pushNode pend
  by_cases hb : s.buf = []
  · simp [hb, ← hs]
    cases s; simp_all
  · have : s.buf.length ≠ 0 := by simpa using hb
    have e := insertNew h s ts bl (if useLine then s.line else bl) s.buf kinds hs
    have e' : (loc h.size ts bl).bufLine = bl := rfl
    simp only [this, if_false, hb]
    rw [e', e]
    simp [loc]

end Goast
