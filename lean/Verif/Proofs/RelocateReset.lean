import Verif.Proofs.Relocate

/-!
# The resetters are independent of the addresses and of other nodes
-/

set_option linter.unusedSimpArgs false
set_option linter.unusedVariables false

namespace Goast
open Heap

namespace Reloc

variable {o : Heap}

/-- The world of the resetters, moved. -/
def wd (o : Heap) (w : World) : World := { heap := o.beside w.heap, buf := w.buf.map (moved o.size) }

@[simp] theorem wd_heap (w : World) : (wd o w).heap = o.beside w.heap := rfl

@[simp] theorem kindA (h : Heap) (a : Addr) : (o.beside h).kind (some (a + o.size)) = h.kind (some a) := kind h (some a)
@[simp] theorem textA (h : Heap) (a : Addr) : (o.beside h).text (some (a + o.size)) = h.text (some a) := text h (some a)
@[simp] theorem lineA (h : Heap) (a : Addr) : (o.beside h).line (some (a + o.size)) = h.line (some a) := line h (some a)
@[simp] theorem nextA (h : Heap) (a : Addr) : (o.beside h).next (some (a + o.size)) = moved o.size (h.next (some a)) := next h (some a)
@[simp] theorem prevA (h : Heap) (a : Addr) : (o.beside h).prev (some (a + o.size)) = moved o.size (h.prev (some a)) := prev h (some a)
@[simp] theorem setKindA (h : Heap) (a : Addr) (k : Kind) : (o.beside h).setKind (some (a + o.size)) k = o.beside (h.setKind (some a) k) := setKind h (some a) k

theorem appendUnrep (buf : List Ptr) (p : Ptr) :
    appendUnrepeatable (buf.map (moved o.size)) [moved o.size p] = (appendUnrepeatable buf [p]).map (moved o.size) := by
  simp only [appendUnrepeatable]
  cases h : buf.getLast? with
  | none =>
    simp only [List.getLast?_eq_none_iff] at h
    subst h
    simp
  | some x =>
    simp only [List.getLast?_map, h, Option.map_some, mv_inj]
    split <;> simp

theorem hook (w : World) (p : Ptr) (k : Hook) : runHook (wd o w) (moved o.size p) k = wd o (runHook w p k) := by
  cases k with
  | appendBuf => simp [runHook, wd, appendUnrep]
  | rawToParamType =>
    simp only [runHook, wd_heap, kind, setKind]
    split <;> rfl

@[simp] theorem hooks (p : Ptr) : ∀ (ks : List Hook) (w : World), handleHook (wd o w) (moved o.size p) ks = wd o (handleHook w p ks)
  | [], w => rfl
  | k :: ks, w => by
    have := hooks p ks (runHook w p k)
    simp only [handleHook, List.foldl_cons, hook] at this ⊢
    exact this

@[simp] theorem hooksA (a : Addr) (ks : List Hook) (w : World) : handleHook (wd o w) (some (a + o.size)) ks = wd o (handleHook w (some a) ks) := hooks (some a) ks w

/-- Loops over nodes whose state holds no pointers. -/
theorem iterW {σ : Type} {fn fn' : World × σ → Addr → Option ((World × σ) × Bool)}
    (hf : ∀ w s a w' s' b, fn (w, s) a = some ((w', s'), b) → fn' (wd o w, s) (a + o.size) = some ((wd o w', s'), b))
    {w w' : World} {s s' : σ} {p q : Ptr} (e : Goast.iterW fn w s p = some ((w', s'), q)) :
    Goast.iterW fn' (wd o w) s (moved o.size p) = some ((wd o w', s'), moved o.size q) := by
  refine loop_sim (fun x => (wd o x.1, x.2)) o.size (fun x a => ?_) (fun x a y b e => ?_) _ ((wd o w).heap.size + 1) (w, s) p (w', s') q (by rw [wd_heap, size]; omega) e
  · exact nextA _ _
  · exact hf _ _ _ _ _ _ e

/-- Loops over nodes whose state is a list of nodes, from the empty list. -/
theorem iterWL {fn fn' : World × List Ptr → Addr → Option ((World × List Ptr) × Bool)}
    (hf : ∀ w s a w' s' b, fn (w, s) a = some ((w', s'), b) →
      fn' (wd o w, s.map (moved o.size)) (a + o.size) = some ((wd o w', s'.map (moved o.size)), b))
    {w w' : World} {s' : List Ptr} {p q : Ptr} (e : Goast.iterW fn w [] p = some ((w', s'), q)) :
    Goast.iterW fn' (wd o w) [] (moved o.size p) = some ((wd o w', s'.map (moved o.size)), moved o.size q) := by
  refine loop_sim (fun x => (wd o x.1, x.2.map (moved o.size))) o.size (fun x a => ?_) (fun x a y b e => ?_) _ ((wd o w).heap.size + 1) (w, []) p (w', s') q (by rw [wd_heap, size]; omega) e
  · exact nextA _ _
  · exact hf _ _ _ _ _ _ e

theorem findNext {w w' : World} {p q : Ptr} {target : List Kind} {opt : FindOpt} {ks : List Hook} (e : Goast.findNext w p target opt ks = some (w', q)) :
    Goast.findNext (wd o w) (moved o.size p) target opt ks = some (wd o w', moved o.size q) := by
  obtain ⟨⟨⟨w1, c⟩, q1⟩, e1, e2⟩ := Option.map_eq_some_iff.1 e
  simp only [Prod.mk.injEq] at e2
  obtain ⟨rfl, rfl⟩ := e2
  unfold Goast.findNext
  rw [iterW (o := o) (fun w s a w' s' b e => ?_) e1]
  · rfl
  · simp only [Option.some.injEq, Prod.mk.injEq, hooksA, wd_heap, kindA] at e ⊢
    obtain ⟨⟨rfl, rfl⟩, rfl⟩ := e
    exact ⟨⟨rfl, rfl⟩, rfl⟩

theorem skipNestNext {w w' : World} {p q : Ptr} {L R : Kind} {ks : List Hook} (e : Goast.skipNestNext w p L R ks = some (w', q)) :
    Goast.skipNestNext (wd o w) (moved o.size p) L R ks = some (wd o w', moved o.size q) := by
  unfold Goast.skipNestNext at e ⊢
  have key : ∀ {w1 : World} {p1 : Ptr}, (Goast.iterW (fun (ws : World × Int) a =>
        let w := handleHook ws.1 (some a) ks
        let k := w.heap.kind (some a)
        if k = L then some ((w, ws.2 + 1), true)
        else if k = R then some ((w, ws.2 - 1), decide (ws.2 - 1 ≠ 0))
        else some ((w, ws.2), true)) w1 (1 : Int) p1).map (fun r => (r.1.1, r.2)) = some (w', q) →
      (Goast.iterW (fun (ws : World × Int) a =>
        let w := handleHook ws.1 (some a) ks
        let k := w.heap.kind (some a)
        if k = L then some ((w, ws.2 + 1), true)
        else if k = R then some ((w, ws.2 - 1), decide (ws.2 - 1 ≠ 0))
        else some ((w, ws.2), true)) (wd o w1) (1 : Int) (moved o.size p1)).map (fun r => (r.1.1, r.2)) = some (wd o w', moved o.size q) := by
    intro w1 p1 e
    obtain ⟨⟨⟨w2, c⟩, q1⟩, e1, e2⟩ := Option.map_eq_some_iff.1 e
    simp only [Prod.mk.injEq] at e2
    obtain ⟨rfl, rfl⟩ := e2
    rw [iterW (o := o) (fun w s a w' s' b e => ?_) e1]
    · rfl
    · simp only [hooksA, wd_heap, kindA] at e ⊢
      split at e
      · rename_i hk
        rw [if_pos hk]
        simp only [Option.some.injEq, Prod.mk.injEq] at e ⊢
        obtain ⟨⟨rfl, rfl⟩, rfl⟩ := e
        exact ⟨⟨rfl, rfl⟩, rfl⟩
      · rename_i hk
        rw [if_neg hk]
        split at e
        · rename_i hk
          rw [if_pos hk]
          simp only [Option.some.injEq, Prod.mk.injEq] at e ⊢
          obtain ⟨⟨rfl, rfl⟩, rfl⟩ := e
          exact ⟨⟨rfl, rfl⟩, rfl⟩
        · rename_i hk
          rw [if_neg hk]
          simp only [Option.some.injEq, Prod.mk.injEq] at e ⊢
          obtain ⟨⟨rfl, rfl⟩, rfl⟩ := e
          exact ⟨⟨rfl, rfl⟩, rfl⟩
  simp only [wd_heap, kind]
  by_cases hk : w.heap.kind p = L
  · simp only [hk, if_true] at e ⊢
    rw [hooks]
    split at e
    · cases e
    · rename_i w1 p1 he
      split at he
      · cases he
      · rename_i w2 f2 hf
        simp only [Option.some.injEq, Prod.mk.injEq] at he
        obtain ⟨rfl, rfl⟩ := he
        rw [findNext (o := o) hf]
        simp only [wd_heap, next]
        exact key e
  · simp only [hk, if_false] at e ⊢
    exact key e

/-! ## The common shape of the callbacks -/

/-- A decision, moved. -/
def ctl (o : Heap) : Ctl → Ctl
  | .stop => .stop
  | .cont => .cont
  | .jump p => .jump (moved o.size p)

theorem jumpLoop {σ : Type} {consume : Bool} {ks : List Hook} {body body' : World → σ → Addr → Option (World × σ × Ctl)}
    (hb : ∀ w s a w' s' c, body w s a = some (w', s', c) → body' (wd o w) s (a + o.size) = some (wd o w', s', ctl o c))
    {w w' : World} {s : σ} {p q : Ptr} (e : Goast.jumpLoop consume ks body w s p = some (w', q)) :
    Goast.jumpLoop consume ks body' (wd o w) s (moved o.size p) = some (wd o w', moved o.size q) := by
  obtain ⟨⟨⟨w1, j⟩, q1⟩, e1, e2⟩ := Option.map_eq_some_iff.1 e
  simp only [Prod.mk.injEq] at e2
  obtain ⟨rfl, rfl⟩ := e2
  unfold Goast.jumpLoop
  have := loop_sim (fun (x : World × JState σ) => (wd o x.1, (⟨x.2.skipAll, moved o.size x.2.jumpTo, x.2.s⟩ : JState σ))) o.size
    (iter := fun ws a => ws.1.heap.next (some a)) (iter' := fun ws a => ws.1.heap.next (some a))
    (fn := jumpStep consume ks body) (fn' := jumpStep consume ks body') (fun x a => by simp) (fun x a y b e => by
      unfold jumpStep at e ⊢
      simp only [hooksA, ne_eq, mv_eq_none, mv_eq_some] at e ⊢
      split at e
      · rename_i h1
        rw [if_pos h1]
        simp only [Option.some.injEq, Prod.mk.injEq] at e ⊢
        obtain ⟨rfl, rfl⟩ := e
        exact ⟨⟨rfl, rfl⟩, rfl⟩
      · rename_i h1
        rw [if_neg h1]
        split at e
        · rename_i h2
          rw [if_pos h2]
          simp only [Option.some.injEq, Prod.mk.injEq] at e ⊢
          obtain ⟨rfl, rfl⟩ := e
          exact ⟨⟨rfl, rfl⟩, rfl⟩
        · rename_i h2
          rw [if_neg h2]
          split at e
          · rename_i h3
            rw [if_pos h3]
            simp only [Option.some.injEq, Prod.mk.injEq] at e ⊢
            obtain ⟨rfl, rfl⟩ := e
            exact ⟨⟨rfl, rfl⟩, rfl⟩
          · rename_i h3
            rw [if_neg h3]
            split at e
            · cases e
            · rename_i w2 s2 c2 hc
              rw [hb _ _ _ _ _ _ hc]
              simp only [Option.some.injEq, Prod.mk.injEq] at e ⊢
              cases c2 with
              | stop =>
                simp only [applyCtl, Prod.mk.injEq] at e
                obtain ⟨rfl, rfl⟩ := e
                rfl
              | cont =>
                simp only [applyCtl, Prod.mk.injEq] at e
                obtain ⟨rfl, rfl⟩ := e
                rfl
              | jump r =>
                simp only [applyCtl, Prod.mk.injEq] at e
                obtain ⟨rfl, rfl⟩ := e
                simp [applyCtl, ctl])
    _ ((wd o w).heap.size + 1) (w, ⟨false, none, s⟩) p _ _ (by rw [wd_heap, size]; omega) e1
  simp only [mv_none] at this
  unfold Goast.iterW
  simp only [this]
  rfl

theorem toJump {σ : Type} {r r' : Option (World × Ptr)} {s s' : σ} {w' : World} {c : Ctl}
    (h : ∀ w q, r = some (w, q) → r' = some (wd o w, moved o.size q)) (e : Goast.toJump r s = some (w', s', c)) :
    Goast.toJump r' s = some (wd o w', s', ctl o c) := by
  unfold Goast.toJump at e
  split at e
  · cases e
  · rename_i w1 q1
    simp only [Option.some.injEq, Prod.mk.injEq] at e
    obtain ⟨rfl, rfl, rfl⟩ := e
    rw [h w1 q1 rfl]
    rfl

theorem deferCombine {h h' : Heap} {buf : List Ptr} {k : Kind} (e : Goast.deferCombine h buf k = some h') :
    Goast.deferCombine (o.beside h) (buf.map (moved o.size)) k = some (o.beside h') := by
  cases buf with
  | nil =>
    simp only [Goast.deferCombine, Option.some.injEq] at e
    subst e; rfl
  | cons n rest =>
    simp only [Goast.deferCombine, List.map_cons] at e ⊢
    rw [combineNext]
    split at e
    · cases e
    · rename_i h1 n1 hc
      simp only [Option.some.injEq] at e
      subst e
      rw [hc]
      simp only [Option.map_some]
      have hl : (moved o.size n :: rest.map (moved o.size)).getLast (by simp) = moved o.size ((n :: rest).getLast (by simp)) := by
        exact List.getLast_map (f := moved o.size) (l := n :: rest) (by simp)
      rw [hl, next, replaceNext]

theorem validParamCount {w : World} {p : Ptr} {n : Nat} (e : Goast.validParamCount w p = some n) : Goast.validParamCount (wd o w) (moved o.size p) = some n := by
  obtain ⟨⟨⟨w1, c⟩, q1⟩, e1, rfl⟩ := Option.map_eq_some_iff.1 e
  unfold Goast.validParamCount
  rw [iterW (o := o) (fun w s a w' s' b e => ?_) e1]
  · rfl
  · simp only [wd_heap, kindA] at e ⊢
    split at e <;>
      (simp only [Option.some.injEq, Prod.mk.injEq] at e ⊢
       obtain ⟨⟨rfl, rfl⟩, rfl⟩ := e
       exact ⟨⟨rfl, rfl⟩, rfl⟩)

theorem isTemporaryFunc {w : World} {p : Ptr} {b : Bool} (e : Goast.isTemporaryFunc w p = some b) : Goast.isTemporaryFunc (wd o w) (moved o.size p) = some b := by
  unfold Goast.isTemporaryFunc at e ⊢
  split at e
  · cases e
  · rename_i w1 f hf
    rw [findNext (o := o) hf]
    simp only [wd_heap, kind, next]
    exact e

/-! ## The resetters -/

/-- What is shown for all of them, by induction on the depth. -/
structure Sim (o : Heap) (d d' : Nat) : Prop where
  paren : ∀ {skip rc : Bool} {w w' : World} {p q : Ptr} {ks : List Hook}, Goast.parenRun d skip rc w p ks = some (w', q) →
    Goast.parenRun d' skip rc (wd o w) (moved o.size p) ks = some (wd o w', moved o.size q)
  param : ∀ {rc : Bool} {w w' : World} {p q : Ptr} {ks : List Hook}, Goast.parenParam d rc w p ks = some (w', q) →
    Goast.parenParam d' rc (wd o w) (moved o.size p) ks = some (wd o w', moved o.size q)
  func : ∀ {r : FuncCfg} {w w' : World} {p q : Ptr} {ks : List Hook}, Goast.funcRun d r w p ks = some (w', q) →
    Goast.funcRun d' r (wd o w) (moved o.size p) ks = some (wd o w', moved o.size q)
  general : ∀ {rk : List Kind} {w w' : World} {p q : Ptr} {ks : List Hook}, Goast.generalFunc d w p rk ks = some (w', q) →
    Goast.generalFunc d' (wd o w) (moved o.size p) rk ks = some (wd o w', moved o.size q)
  parameter : ∀ {w w' : World} {p q : Ptr} {ks : List Hook}, Goast.parameterFunc d w p ks = some (w', q) →
    Goast.parameterFunc d' (wd o w) (moved o.size p) ks = some (wd o w', moved o.size q)
  single : ∀ {w w' : World} {p q : Ptr} {ks : List Hook}, Goast.singleReturn d w p ks = some (w', q) →
    Goast.singleReturn d' (wd o w) (moved o.size p) ks = some (wd o w', moved o.size q)

theorem wd_setKind (w : World) (a : Addr) (k : Kind) :
    ({ heap := (o.beside w.heap).setKind (some (a + o.size)) k, buf := (wd o w).buf } : World) = wd o { w with heap := w.heap.setKind (some a) k } := by
  simp [wd]

theorem fin_eq {σ : Type} {w w' : World} {s s' : σ} {c c' : Ctl} (e : some (w, s, c) = some (w', s', c')) :
    some (wd o w, s, ctl o c) = some (wd o w', s', ctl o c') := by
  simp only [Option.some.injEq, Prod.mk.injEq] at e
  obtain ⟨rfl, rfl, rfl⟩ := e
  rfl

/-- A step that ends the body of a callback. -/
macro "fin" e:ident : tactic => `(tactic|
  ((try simp only [wd_setKind])
   refine Eq.trans ?_ (fin_eq $e)
   rfl))

theorem paren_sim {d d' : Nat} (S : Sim o d d') {skip rc : Bool} {w w' : World} {p q : Ptr} {ks : List Hook}
    (e : Goast.parenRun (d + 1) skip rc w p ks = some (w', q)) :
    Goast.parenRun (d' + 1) skip rc (wd o w) (moved o.size p) ks = some (wd o w', moved o.size q) := by
  rw [Goast.parenRun] at e ⊢
  split at e
  · rename_i hs
    rw [if_pos hs]
    exact skipNestNext e
  · rename_i hs
    rw [if_neg hs]
    simp only [wd_heap, kind] at e ⊢
    split at e
    · rename_i hk
      rw [if_pos hk]
      simp only [Option.some.injEq, Prod.mk.injEq] at e ⊢
      obtain ⟨rfl, rfl⟩ := e
      simp
    · rename_i hk
      rw [if_neg hk]
      refine jumpLoop (fun w s a w' s' c e => ?_) e
      simp only [wd_heap, kindA] at e ⊢
      split at e
      · fin e
      · fin e
      · fin e
      · fin e
      · fin e
      · fin e
      · fin e
      · exact toJump (fun w q e => S.param e) e

theorem param_sim {d d' : Nat} (S : Sim o d d') {rc : Bool} {w w' : World} {p q : Ptr} {ks : List Hook}
    (e : Goast.parenParam (d + 1) rc w p ks = some (w', q)) :
    Goast.parenParam (d' + 1) rc (wd o w) (moved o.size p) ks = some (wd o w', moved o.size q) := by
  rw [Goast.parenParam] at e ⊢
  split at e
  · cases e
  · rename_i count hc
    rw [validParamCount (o := o) hc]
    refine jumpLoop (fun w s a w' s' c e => ?_) e
    simp only [wd_heap, kindA] at e ⊢
    split at e <;> first
      | fin e
      | exact toJump (fun w q e => skipNestNext (p := some a) e) e
      | exact toJump (fun w q e => S.func (p := some a) e) e
      | (split at e
         · rename_i h1; rw [if_pos h1]; fin e
         · rename_i h1
           rw [if_neg h1]
           split at e
           · rename_i h2; rw [if_pos h2]; fin e
           · rename_i h2; rw [if_neg h2]; fin e)

theorem func_sim {d d' : Nat} (S : Sim o d d') {r : FuncCfg} {w w' : World} {p q : Ptr} {ks : List Hook}
    (e : Goast.funcRun (d + 1) r w p ks = some (w', q)) :
    Goast.funcRun (d' + 1) r (wd o w) (moved o.size p) ks = some (wd o w', moved o.size q) := by
  rw [Goast.funcRun] at e ⊢
  split at e
  · rename_i h1; rw [if_pos h1]; exact S.parameter e
  · rename_i h1
    rw [if_neg h1]
    split at e
    · rename_i h2; rw [if_pos h2]; exact S.general e
    · rename_i h2
      rw [if_neg h2]
      split at e
      · cases e
      · rename_i ht
        rw [isTemporaryFunc (o := o) ht]
        exact S.general e
      · rename_i ht
        rw [isTemporaryFunc (o := o) ht]
        simp only [wd_heap, kind, hooks, next] at e ⊢
        split at e
        · rename_i h3
          rw [if_pos h3]
          simp only [Option.some.injEq, Prod.mk.injEq] at e ⊢
          obtain ⟨rfl, rfl⟩ := e
          exact ⟨rfl, rfl⟩
        · rename_i h3
          rw [if_neg h3]
          have e1 : (if r.isFuncKeywordLeading = true then wd o (handleHook w p ks) else wd o w) =
              wd o (if r.isFuncKeywordLeading = true then handleHook w p ks else w) := by split <;> rfl
          rw [e1]
          have e2 : (if r.isFuncKeywordLeading = true then (wd o (if r.isFuncKeywordLeading = true then handleHook w p ks else w)).heap.next (moved o.size p) else moved o.size p) =
              moved o.size (if r.isFuncKeywordLeading = true then (if r.isFuncKeywordLeading = true then handleHook w p ks else w).heap.next p else p) := by
            split <;> simp
          rw [e2]
          generalize (if r.isFuncKeywordLeading = true then (if r.isFuncKeywordLeading = true then handleHook w p ks else w).heap.next p else p) = hd at e ⊢
          generalize (if r.isFuncKeywordLeading = true then handleHook w p ks else w) = wx at e ⊢
          refine jumpLoop (fun w s a w' s' c e => ?_) e
          simp only [wd_heap, kindA] at e ⊢
          split at e
          · rename_i h4; rw [if_pos h4]; fin e
          · rename_i h4
            rw [if_neg h4]
            generalize (if s.1 = false then decide (w.heap.kind (some a) = .parenL) else s.2) = m at e ⊢
            split at e
            · rename_i h5; rw [if_pos h5]; exact toJump (fun w q e => S.paren (p := some a) e) e
            · rename_i h5
              rw [if_neg h5]
              split at e
              · rename_i h6; rw [if_pos h6]; fin e
              · rename_i h6; rw [if_neg h6]; exact toJump (fun w q e => S.general e) e

theorem general_sim {d d' : Nat} (S : Sim o d d') {rk : List Kind} {w w' : World} {p q : Ptr} {ks : List Hook}
    (e : Goast.generalFunc (d + 1) w p rk ks = some (w', q)) :
    Goast.generalFunc (d' + 1) (wd o w) (moved o.size p) rk ks = some (wd o w', moved o.size q) := by
  rw [Goast.generalFunc] at e ⊢
  simp only [wd_heap, kind, hooks, decide_eq_true_eq] at e ⊢
  have e1 : (if w.heap.kind p = .func_ then wd o (handleHook w p ks) else wd o w) = wd o (if w.heap.kind p = .func_ then handleHook w p ks else w) := by split <;> rfl
  rw [e1]
  have e2 : (if w.heap.kind p = .func_ then (wd o (if w.heap.kind p = .func_ then handleHook w p ks else w)).heap.next (moved o.size p) else moved o.size p) =
      moved o.size (if w.heap.kind p = .func_ then (if w.heap.kind p = .func_ then handleHook w p ks else w).heap.next p else p) := by
    split <;> simp
  rw [e2]
  generalize (if w.heap.kind p = .func_ then (if w.heap.kind p = .func_ then handleHook w p ks else w).heap.next p else p) = hd at e ⊢
  generalize (if w.heap.kind p = .func_ then handleHook w p ks else w) = wx at e ⊢
  generalize (if rk.length ≠ 0 then CharSet.new rk else CharSet.new [.newLine]) = cs at e ⊢
  refine jumpLoop (fun w s a w' s' c e => ?_) e
  simp only [wd_heap, kindA] at e ⊢
  split at e
  · rename_i h1
    rw [if_pos h1]
    simp only [Option.some.injEq, Prod.mk.injEq] at e
    obtain ⟨rfl, rfl, rfl⟩ := e
    split <;> rfl
  · rename_i h1
    rw [if_neg h1]
    split at e <;> first
      | fin e
      | exact toJump (fun w q e => skipNestNext (p := some a) e) e
      | exact toJump (fun w q e => S.paren (p := some a) e) e
      | (split at e
         · rename_i h2; rw [if_pos h2]; first | fin e | exact toJump (fun w q e => S.single (p := some a) e) e
         · rename_i h2; rw [if_neg h2]; fin e)

theorem parameter_sim {d d' : Nat} (S : Sim o d d') {w w' : World} {p q : Ptr} {ks : List Hook}
    (e : Goast.parameterFunc (d + 1) w p ks = some (w', q)) :
    Goast.parameterFunc (d' + 1) (wd o w) (moved o.size p) ks = some (wd o w', moved o.size q) := by
  rw [Goast.parameterFunc] at e ⊢
  split at e
  · cases e
  · rename_i w1 n1 h1
    rw [S.general h1]
    simp only [wd_heap, kind, hooks, next] at e ⊢
    split at e
    · rename_i h2
      rw [if_pos h2]
      simp only [Option.some.injEq, Prod.mk.injEq] at e ⊢
      obtain ⟨rfl, rfl⟩ := e
      exact ⟨rfl, rfl⟩
    · rename_i h2
      rw [if_neg h2]
      simp only [Option.some.injEq, Prod.mk.injEq] at e ⊢
      obtain ⟨rfl, rfl⟩ := e
      exact ⟨rfl, rfl⟩

theorem single_sim {d d' : Nat} (S : Sim o d d') {w w' : World} {p q : Ptr} {ks : List Hook}
    (e : Goast.singleReturn (d + 1) w p ks = some (w', q)) :
    Goast.singleReturn (d' + 1) (wd o w) (moved o.size p) ks = some (wd o w', moved o.size q) := by
  rw [Goast.singleReturn] at e ⊢
  simp only [wd_heap, kind, hooks, next] at e ⊢
  split at e
  · rename_i h1
    rw [if_pos h1]
    simp only [Option.some.injEq, Prod.mk.injEq] at e ⊢
    obtain ⟨rfl, rfl⟩ := e
    exact ⟨rfl, rfl⟩
  · rename_i h1
    rw [if_neg h1]
    split at e
    · cases e
    · rename_i w1 f hf
      rw [findNext (o := o) hf]
      simp only [wd_heap, kind] at e ⊢
      split at e
      · exact S.paren e
      · exact S.parameter e
      · split at e
        · cases e
        · rename_i w2 buf ret hi
          rw [iterWL (o := o) (fun w s a w' s' b e => ?_) hi]
          · split at e
            · cases e
            · rename_i h3 hd
              simp only [Option.some.injEq, Prod.mk.injEq] at e
              obtain ⟨rfl, rfl⟩ := e
              simp only [wd_heap]
              rw [deferCombine (o := o) hd]
              rfl
          · simp only [hooksA, wd_heap, kindA] at e ⊢
            split at e <;>
              (simp only [Option.some.injEq, Prod.mk.injEq] at e ⊢
               obtain ⟨⟨rfl, rfl⟩, rfl⟩ := e
               first | exact ⟨⟨rfl, rfl⟩, rfl⟩ | exact ⟨⟨rfl, appendUnrep _ (some a)⟩, rfl⟩)

theorem sim (o : Heap) : ∀ (d d' : Nat), d ≤ d' → Sim o d d'
  | 0, d', _ => by
    refine ⟨?_, ?_, ?_, ?_, ?_, ?_⟩
    · intro _ _ _ _ _ _ _ e; rw [Goast.parenRun] at e; cases e
    · intro _ _ _ _ _ _ e; rw [Goast.parenParam] at e; cases e
    · intro _ _ _ _ _ _ e; rw [Goast.funcRun] at e; cases e
    · intro _ _ _ _ _ _ e; rw [Goast.generalFunc] at e; cases e
    · intro _ _ _ _ _ e; rw [Goast.parameterFunc] at e; cases e
    · intro _ _ _ _ _ e; rw [Goast.singleReturn] at e; cases e
  | d + 1, 0, h => absurd h (by omega)
  | d + 1, d' + 1, h =>
    have S := sim o d d' (by omega)
    ⟨paren_sim S, param_sim S, func_sim S, general_sim S, parameter_sim S, single_sim S⟩

end Reloc
end Goast
