import Verif.Spec.Relocate

/-!
# Everything a parse does is independent of the addresses and of other nodes
-/

set_option linter.unusedSimpArgs false
set_option linter.unusedVariables false

namespace Goast
open Heap

namespace Reloc

variable {o : Heap}

/-- Abbreviation. -/
abbrev mv (o : Heap) (p : Ptr) : Ptr := moved o.size p

@[simp] theorem mv_none : moved n none = none := rfl
@[simp] theorem mv_some : moved n (some a) = some (a + n) := rfl
@[simp] theorem mv_inj {n : Nat} {p q : Ptr} : moved n p = moved n q ↔ p = q := by
  cases p <;> cases q <;> simp
@[simp] theorem mv_eq_none {n : Nat} {p : Ptr} : moved n p = none ↔ p = none := by cases p <;> simp
@[simp] theorem none_eq_mv {n : Nat} {p : Ptr} : none = moved n p ↔ p = none := by cases p <;> simp
@[simp] theorem mv_eq_some {n : Nat} {p : Ptr} {a : Addr} : moved n p = some (a + n) ↔ p = some a := by cases p <;> simp
@[simp] theorem some_eq_mv {n : Nat} {p : Ptr} {a : Addr} : some (a + n) = moved n p ↔ some a = p := by cases p <;> simp

theorem cell (h : Heap) (a : Addr) : (o.beside h).cells[a + o.size]? = (h.cells[a]?).map (NodeRec.moved o.size) := by
  simp [Heap.beside, Heap.size, List.getElem?_append_right]

@[simp] theorem size (h : Heap) : (o.beside h).size = o.size + h.size := by simp [Heap.beside, Heap.size]

@[simp] theorem next (h : Heap) (p : Ptr) : (o.beside h).next (moved o.size p) = moved o.size (h.next p) := by
  cases p with
  | none => rfl
  | some a => simp only [mv_some, Heap.next, cell]; cases h.cells[a]? <;> simp [NodeRec.moved]

@[simp] theorem prev (h : Heap) (p : Ptr) : (o.beside h).prev (moved o.size p) = moved o.size (h.prev p) := by
  cases p with
  | none => rfl
  | some a => simp only [mv_some, Heap.prev, cell]; cases h.cells[a]? <;> simp [NodeRec.moved]

@[simp] theorem kind (h : Heap) (p : Ptr) : (o.beside h).kind (moved o.size p) = h.kind p := by
  cases p with
  | none => rfl
  | some a => simp only [mv_some, Heap.kind, cell]; cases h.cells[a]? <;> simp [NodeRec.moved]

@[simp] theorem text (h : Heap) (p : Ptr) : (o.beside h).text (moved o.size p) = h.text p := by
  cases p with
  | none => rfl
  | some a => simp only [mv_some, Heap.text, cell]; cases h.cells[a]? <;> simp [NodeRec.moved]

@[simp] theorem line (h : Heap) (p : Ptr) : (o.beside h).line (moved o.size p) = h.line p := by
  cases p with
  | none => rfl
  | some a => simp only [mv_some, Heap.line, cell]; cases h.cells[a]? <;> simp [NodeRec.moved]

theorem modify (h : Heap) (a : Addr) (f g : NodeRec → NodeRec) (hg : ∀ r, g (r.moved o.size) = (f r).moved o.size) :
    (o.beside h).modify (a + o.size) g = o.beside (h.modify a f) := by
  simp only [Heap.beside, Heap.modify, Heap.size, Heap.mk.injEq]
  apply List.ext_getElem?
  intro i
  simp only [List.getElem?_modify, List.getElem?_append, List.getElem?_map, List.length_modify]
  by_cases hi : i < o.cells.length
  · simp [hi, show ¬ a + o.cells.length = i by omega]
  · simp only [hi, if_false]
    by_cases hj : a = i - o.cells.length
    · simp only [show a + o.cells.length = i by omega, hj, if_true]
      have hi' : i - o.cells.length + o.cells.length = i := by omega
      cases h.cells[i - o.cells.length]? with
      | none => simp
      | some r => simp [hi', show g (r.moved o.cells.length) = _ from hg r]; rfl
    · simp [show ¬ a + o.cells.length = i by omega, hj]

@[simp] theorem setKind (h : Heap) (p : Ptr) (k : Kind) : (o.beside h).setKind (moved o.size p) k = o.beside (h.setKind p k) := by
  cases p with
  | none => rfl
  | some a => exact modify h a _ _ (fun r => rfl)

@[simp] theorem setText (h : Heap) (p : Ptr) (t : Bytes) : (o.beside h).setText (moved o.size p) t = o.beside (h.setText p t) := by
  cases p with
  | none => rfl
  | some a => exact modify h a _ _ (fun r => rfl)

@[simp] theorem setPrev (h : Heap) (p q : Ptr) : (o.beside h).setPrev (moved o.size p) (moved o.size q) = o.beside (h.setPrev p q) := by
  cases p with
  | none => rfl
  | some a =>
    simp only [mv_some, Heap.setPrev, some_eq_mv]
    split
    · rfl
    · rw [show some (a + o.size) = moved o.size (some a) from rfl, prev]
      cases h.prev (some a) with
      | none => exact modify h a _ _ (fun r => rfl)
      | some b =>
        simp only [mv_some]
        rw [modify h b (fun r => { r with next := none }) _ (fun r => rfl)]
        exact modify _ a _ _ (fun r => rfl)

@[simp] theorem setNext (h : Heap) (p q : Ptr) : (o.beside h).setNext (moved o.size p) (moved o.size q) = o.beside (h.setNext p q) := by
  cases p with
  | none => rfl
  | some a =>
    simp only [mv_some, Heap.setNext, some_eq_mv]
    split
    · rfl
    · rw [show some (a + o.size) = moved o.size (some a) from rfl, next]
      cases h.next (some a) with
      | none => exact modify h a _ _ (fun r => rfl)
      | some b =>
        simp only [mv_some]
        rw [modify h b (fun r => { r with prev := none }) _ (fun r => rfl)]
        exact modify _ a _ _ (fun r => rfl)

@[simp] theorem setPrev_none (h : Heap) (p : Ptr) : (o.beside h).setPrev (moved o.size p) none = o.beside (h.setPrev p none) := setPrev h p none

@[simp] theorem setNext_none (h : Heap) (p : Ptr) : (o.beside h).setNext (moved o.size p) none = o.beside (h.setNext p none) := setNext h p none

theorem alloc (h : Heap) (r : NodeRec) (hp : r.prev = none) (hn : r.next = none) :
    (o.beside h).alloc r = (o.beside (h.alloc r).1, (h.alloc r).2 + o.size) := by
  simp only [Heap.alloc, Heap.beside, Heap.size, List.length_append, List.length_map, List.append_assoc, Prod.mk.injEq, Heap.mk.injEq,
    List.map_append, List.map_cons, List.map_nil]
  refine ⟨?_, Nat.add_comm _ _⟩
  rw [show r.moved o.cells.length = r by cases r; simp only at hp hn; subst hp; subst hn; rfl]

@[simp] theorem newNode (h : Heap) (l : Int) (t : Bytes) (ks : List Kind) :
    (o.beside h).newNode l t ks = (o.beside (h.newNode l t ks).1, (h.newNode l t ks).2 + o.size) := by
  cases ks <;> exact alloc h _ rfl rfl

@[simp] theorem replaceNext (h : Heap) (p q : Ptr) :
    (o.beside h).replaceNext (moved o.size p) (moved o.size q) =
      (o.beside (h.replaceNext p q).1, moved o.size (h.replaceNext p q).2.1, moved o.size (h.replaceNext p q).2.2) := by
  simp only [Heap.replaceNext, next, mv_inj]
  split <;> simp

@[simp] theorem removePrev (h : Heap) (p : Ptr) :
    (o.beside h).removePrev (moved o.size p) = (o.beside (h.removePrev p).1, moved o.size (h.removePrev p).2) := by
  simp [Heap.removePrev]

@[simp] theorem isolate (h : Heap) (p : Ptr) : (o.beside h).isolate (moved o.size p) = o.beside (h.isolate p) := by
  simp [Heap.isolate]

theorem combineLoop (p : Ptr) : ∀ (h : Heap) (ps : List Ptr) (buf : List Bytes),
    Heap.combineLoop (moved o.size p) (o.beside h) (ps.map (moved o.size)) buf = (o.beside (Heap.combineLoop p h ps buf).1, (Heap.combineLoop p h ps buf).2)
  | h, [], buf => rfl
  | h, q :: ps, buf => by
    simp only [List.map_cons, Heap.combineLoop, mv_inj, mv_eq_none, text, isolate]
    split
    · exact combineLoop p h ps buf
    · exact combineLoop p _ ps _

theorem combineNext (h : Heap) (p : Ptr) (k : Kind) (ps : List Ptr) :
    (o.beside h).combineNext (moved o.size p) k (ps.map (moved o.size)) = (h.combineNext p k ps).map fun r => (o.beside r.1, moved o.size r.2) := by
  cases ps with
  | nil => simp [Heap.combineNext]
  | cons q ps =>
    cases p with
    | none =>
      cases q with
      | none => simp [Heap.combineNext, Heap.setKind]
      | some b =>
        have e := combineLoop (o := o) (some b) h ps [h.text (some b)]
        have t := text (o := o) h (some b)
        simp only [mv_some] at e t
        simp only [Heap.combineNext, Heap.setKind, List.map_cons, mv_none, mv_some, t, e, Option.map_some]
        rw [show some (b + o.size) = moved o.size (some b) from rfl, setText]
    | some a =>
      have s := setKind (o := o) h (some a) k
      have e := combineLoop (o := o) (some a) (h.setKind (some a) k) (q :: ps) [(h.setKind (some a) k).text (some a)]
      have t := text (o := o) (h.setKind (some a) k) (some a)
      simp only [mv_some, List.map_cons] at e t s
      simp only [Heap.combineNext, List.map_cons, mv_some, s, t, e, Option.map_some]
      rw [show some (a + o.size) = moved o.size (some a) from rfl, setText]

/-! ## Loops -/

theorem loop_sim {ω ω' : Type} (f : ω → ω') (n : Nat) {iter : ω → Addr → Ptr} {iter' : ω' → Addr → Ptr}
    {fn : ω → Addr → Option (ω × Bool)} {fn' : ω' → Addr → Option (ω' × Bool)}
    (hi : ∀ w a, iter' (f w) (a + n) = moved n (iter w a))
    (hf : ∀ w a w' b, fn w a = some (w', b) → fn' (f w) (a + n) = some (f w', b)) :
    ∀ (fuel fuel' : Nat) (w : ω) (p : Ptr) (w' : ω) (q : Ptr), fuel ≤ fuel' → loop iter fn fuel w p = some (w', q) →
      loop iter' fn' fuel' (f w) (moved n p) = some (f w', moved n q) := by
  intro fuel
  induction fuel with
  | zero =>
    intro fuel' w p w' q _ e
    cases p with
    | none =>
      simp only [loop, Option.some.injEq, Prod.mk.injEq] at e
      obtain ⟨rfl, rfl⟩ := e
      cases fuel' <;> rfl
    | some a => simp [loop] at e
  | succ fuel ih =>
    intro fuel' w p w' q hle e
    cases p with
    | none =>
      simp only [loop, Option.some.injEq, Prod.mk.injEq] at e
      obtain ⟨rfl, rfl⟩ := e
      cases fuel' <;> rfl
    | some a =>
      obtain ⟨fuel', rfl⟩ : ∃ k, fuel' = k + 1 := ⟨fuel' - 1, by omega⟩
      rw [loop] at e
      rw [mv_some, loop]
      cases hx : fn w a with
      | none => rw [hx] at e; cases e
      | some x =>
        obtain ⟨w1, b⟩ := x
        rw [hf w a w1 b hx]
        rw [hx] at e
        cases b with
        | true =>
          simp only at e ⊢
          rw [hi]
          exact ih fuel' w1 _ w' q (by omega) e
        | false =>
          simp only [Option.some.injEq, Prod.mk.injEq] at e ⊢
          obtain ⟨rfl, rfl⟩ := e
          exact ⟨rfl, rfl⟩

theorem iterNext {σ : Type} {h : Heap} {fn fn' : σ → Addr → σ × Bool} (hf : ∀ s a, fn' s (a + o.size) = fn s a) {s s' : σ} {p q : Ptr}
    (e : h.iterNext fn s p = some (s', q)) : (o.beside h).iterNext fn' s (moved o.size p) = some (s', moved o.size q) := by
  refine loop_sim id o.size (fun _ a => ?_) (fun s a s' b e => ?_) _ _ s p s' q (by simp) e
  · exact next h (some a)
  · simpa [hf] using e

theorem last {h : Heap} {p q : Ptr} (e : h.last p = some q) : (o.beside h).last (moved o.size p) = some (moved o.size q) := by
  obtain ⟨⟨s, q'⟩, e1, rfl⟩ := Option.map_eq_some_iff.1 e
  rw [Heap.last, iterNext (fn' := fun () a => ((), decide ((o.beside h).next (some a) ≠ none))) (fun s a => ?_) e1]
  · rfl
  · rw [show some (a + o.size) = moved o.size (some a) from rfl, next]; simp

/-! ## The scanner -/

/-- The state of the scanner, moved. -/
def sh (o : Heap) (s : Shared) : Shared := { s with heap := o.beside s.heap }
/-- Its local variables, moved. -/
def loc (o : Heap) (l : Local) : Local := { l with head := moved o.size l.head, cur := moved o.size l.cur }

theorem insertNode {s s' : Shared} {l l' : Local} {p : Ptr} (e : Goast.insertNode s l p = some (s', l')) :
    Goast.insertNode (sh o s) (loc o l) (moved o.size p) = some (sh o s', loc o l') := by
  cases p with
  | none =>
    simp only [Goast.insertNode, Option.some.injEq, Prod.mk.injEq] at e
    obtain ⟨rfl, rfl⟩ := e
    rfl
  | some a =>
    simp only [Goast.insertNode, mv_some] at e ⊢
    have hh : (if (loc o l).cur ≠ none then ((sh o s).heap.replaceNext (loc o l).cur (some (a + o.size))).1 else (sh o s).heap) =
        o.beside (if l.cur ≠ none then (s.heap.replaceNext l.cur (some a)).1 else s.heap) := by
      by_cases hc : l.cur = none
      · simp [loc, sh, hc]
      · simp only [loc, sh, ne_eq, mv_eq_none, hc, not_false_eq_true, if_true]
        rw [show some (a + o.size) = moved o.size (some a) from rfl, replaceNext]
    rw [hh]
    split at e
    · cases e
    · rename_i cur hl
      simp only [Option.some.injEq, Prod.mk.injEq] at e
      obtain ⟨rfl, rfl⟩ := e
      have := last (o := o) hl
      simp only [mv_some] at this
      rw [this]
      simp only [Option.some.injEq, Prod.mk.injEq]
      refine ⟨by simp [sh], ?_⟩
      simp only [loc, mv_eq_none, Local.mk.injEq, and_true]
      split <;> rfl

theorem insertNode_new {s s' : Shared} {l l' : Local} {a : Addr} (e : Goast.insertNode s l (some a) = some (s', l')) :
    Goast.insertNode (sh o s) (loc o l) (some (a + o.size)) = some (sh o s', loc o l') := insertNode e

theorem pushNode {s s' : Shared} {l l' : Local} {u : Bool} {ks : List Kind} (e : Goast.pushNode s l u ks = some (s', l')) :
    Goast.pushNode (sh o s) (loc o l) u ks = some (sh o s', loc o l') := by
  unfold Goast.pushNode at e ⊢
  by_cases hb : s.buf.length = 0
  · rw [if_pos hb] at e
    rw [if_pos (show (sh o s).buf.length = 0 from hb)]
    simp only [Option.some.injEq, Prod.mk.injEq] at e
    obtain ⟨rfl, rfl⟩ := e
    rfl
  · rw [if_neg hb] at e
    rw [if_neg (show ¬ (sh o s).buf.length = 0 from hb)]
    simp only at e ⊢
    split at e
    · cases e
    · rename_i s1 l1 hi
      simp only [Option.some.injEq, Prod.mk.injEq] at e
      obtain ⟨rfl, rfl⟩ := e
      have := insertNode_new (o := o) hi
      have e2 : (sh o s).heap.newNode (if u then (sh o s).line else (loc o l).bufLine) (sh o s).buf ks =
          (o.beside (s.heap.newNode (if u then s.line else l.bufLine) s.buf ks).1, (s.heap.newNode (if u then s.line else l.bufLine) s.buf ks).2 + o.size) :=
        newNode _ _ _ _
      rw [e2]
      have e3 : ({ sh o s with heap := o.beside (s.heap.newNode (if u then s.line else l.bufLine) s.buf ks).1 } : Shared) =
        sh o { s with heap := (s.heap.newNode (if u then s.line else l.bufLine) s.buf ks).1 } := rfl
      simp only [e3, this]
      rfl

theorem newInsert {s s' : Shared} {l l' : Local} {n : Int} {t : Bytes}
    (e : Goast.insertNode { s with heap := (s.heap.newNode n t).1 } l (some (s.heap.newNode n t).2) = some (s', l')) :
    Goast.insertNode { sh o s with heap := ((sh o s).heap.newNode n t).1 } (loc o l) (some ((sh o s).heap.newNode n t).2) = some (sh o s', loc o l') := by
  have e2 : (sh o s).heap.newNode n t = (o.beside (s.heap.newNode n t).1, (s.heap.newNode n t).2 + o.size) := newNode _ _ _ _
  rw [e2]
  generalize s.heap.newNode n t = x at e ⊢
  exact insertNode_new (o := o) (s := { s with heap := x.1 }) e

theorem newInsertLine {s s' : Shared} {l l' : Local} {t : Bytes}
    (e : Goast.insertNode { s with heap := (s.heap.newNode s.line t).1 } l (some (s.heap.newNode s.line t).2) = some (s', l')) :
    Goast.insertNode { heap := ((sh o s).heap.newNode (sh o s).line t).1, buf := (sh o s).buf, i := (sh o s).i, line := (sh o s).line } (loc o l)
      (some ((sh o s).heap.newNode (sh o s).line t).2) = some (sh o s', loc o l') := newInsert e

theorem lineStep (c : UInt8) (s : Shared) : Goast.lineStep c (sh o s) = sh o (Goast.lineStep c s) := by
  unfold Goast.lineStep
  split <;> rfl

theorem runLoop {ord : Nat → List (Bytes × Ext)} {txt : Bytes} : ∀ (fuel : Nat) (e : Ext) (s s' : Shared) (l : Local) (p : Ptr),
    Goast.runLoop ord txt fuel e s l = some (s', p) → Goast.runLoop ord txt fuel e (sh o s) (loc o l) = some (sh o s', moved o.size p)
  | 0, _, _, _, _, _, r => by cases r
  | fuel + 1, e, s, s', l, p, r => by
    rw [Goast.runLoop] at r ⊢
    have hi : (sh o s).i = s.i := rfl
    rw [hi]
    split at r
    · rename_i hx
      split at r
      · cases r
      · rename_i s1 l1 hp
        rw [pushNode (o := o) hp]
        simp only [Option.some.injEq, Prod.mk.injEq] at r
        obtain ⟨rfl, rfl⟩ := r
        rfl
    · rename_i char hx
      simp only [hx]
      split at r
      · rename_i ee hee
        split at r
        · cases r
        · rename_i s1 l1 hp
          rw [pushNode (o := o) hp]
          simp only
          split at r
          · cases r
          · rename_i s2 l2 h2
            have h2' : (if ee.includeOpen then some ({ sh o s1 with buf := (sh o s1).buf ++ [char] }, loc o l1)
                 else Goast.insertNode { sh o s1 with heap := ((sh o s1).heap.newNode (loc o l1).bufLine (byteToString char)).1 } (loc o l1)
                    (some ((sh o s1).heap.newNode (loc o l1).bufLine (byteToString char)).2)) = some (sh o s2, loc o l2) := by
              split at h2
              · rename_i hio
                simp only [Option.some.injEq, Prod.mk.injEq] at h2
                obtain ⟨rfl, rfl⟩ := h2
                rw [if_pos hio]; rfl
              · rename_i hio
                rw [if_neg hio]
                exact newInsert h2
            simp only [h2']
            dsimp only at r
            split at r
            · cases r
            · rename_i s3 ns h3
              have h3' := runLoop fuel ee _ _ _ _ h3
              have : Goast.runLoop ord txt fuel ee { sh o s2 with i := (sh o s2).i + 1 } { head := none, cur := none, bufLine := (sh o s2).line } = some (sh o s3, moved o.size ns) := h3'
              simp only [this]
              split at r
              · cases r
              · rename_i s4 l4 h4
                rw [insertNode (o := o) h4]
                exact runLoop fuel e _ _ _ _ r
      · rename_i hee
        dsimp only at r ⊢
        by_cases hs : (decide (e.skipReturnKeyword.length ≠ 0) && hasSuffix (txt.take (s.i + 1)) e.skipReturnKeyword) = true
        · rw [if_pos hs] at r ⊢
          have := runLoop fuel e _ _ _ _ r
          have e2 : Goast.lineStep char { heap := (sh o s).heap, buf := (sh o s).buf ++ [char], i := s.i, line := (sh o s).line } =
              sh o (Goast.lineStep char { s with buf := s.buf ++ [char] }) := lineStep (o := o) char { s with buf := s.buf ++ [char] }
          rw [e2]
          exact this
        · rw [if_neg hs] at r ⊢
          by_cases hr : (decide (e.returnKeyword.length ≠ 0) && hasSuffix (txt.take (s.i + 1)) e.returnKeyword) = true
          · rw [if_pos hr] at r ⊢
            split at r
            · cases r
            · rename_i s1 l1 h1
              simp only [Option.some.injEq, Prod.mk.injEq] at r
              obtain ⟨rfl, rfl⟩ := r
              by_cases hc : e.includeClose = true
              · rw [if_pos hc] at h1 ⊢
                have := pushNode (o := o) h1
                rw [show ({ heap := (sh o s).heap, buf := (sh o s).buf ++ [char], i := s.i, line := (sh o s).line } : Shared) = sh o { s with buf := s.buf ++ [char] } from rfl, this]
                simp only
                rw [lineStep]
                rfl
              · rw [if_neg hc] at h1 ⊢
                split at h1
                · cases h1
                · rename_i s2 l2 h2
                  rw [pushNode (o := o) h2]
                  simp only
                  rw [newInsertLine (o := o) h1]
                  simp only
                  rw [lineStep]
                  rfl
          · rw [if_neg hr] at r ⊢
            split at r
            · cases r
            · rename_i s1 l1 h1
              by_cases hc : e.separators.contain char = true
              · rw [if_pos hc] at h1 ⊢
                split at h1
                · cases h1
                · rename_i s2 l2 h2
                  rw [pushNode (o := o) h2]
                  simp only
                  rw [newInsertLine (o := o) h1]
                  simp only
                  rw [lineStep]
                  exact runLoop fuel e _ _ _ _ r
              · rw [if_neg hc] at h1 ⊢
                simp only [Option.some.injEq, Prod.mk.injEq] at h1
                obtain ⟨rfl, rfl⟩ := h1
                simp only
                rw [show ({ heap := (sh o s).heap, buf := (sh o s).buf ++ [char], i := s.i, line := (sh o s).line } : Shared) = sh o { s with buf := s.buf ++ [char] } from rfl, lineStep]
                exact runLoop fuel e _ _ _ _ r

theorem extract {ord : Nat → List (Bytes × Ext)} {h h' : Heap} {txt : Bytes} {p : Ptr} (e : extractOrd ord h txt = some (h', p)) :
    extractOrd ord (o.beside h) txt = some (o.beside h', moved o.size p) := by
  obtain ⟨⟨s, q⟩, e1, e2⟩ := Option.map_eq_some_iff.1 e
  simp only [Prod.mk.injEq] at e2
  obtain ⟨rfl, rfl⟩ := e2
  have := runLoop (o := o) _ _ _ _ _ _ e1
  unfold extractOrd run
  have e3 : Goast.runLoop ord txt (txt.length + 2) .common { heap := o.beside h, buf := [], i := 0, line := 0 } { head := none, cur := none, bufLine := 0 } = some (sh o s, moved o.size q) := this
  simp only [e3]
  rfl

end Reloc

end Goast
