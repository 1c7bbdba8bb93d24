import Verif.Proofs.AlikeSim
import Verif.Proofs.ResetRun

/-! # Proofs: how many steps code takes -/

set_option linter.unusedSimpArgs false
set_option linter.unusedVariables false

namespace Goast

variable {α β : Type}

/-! ## `Code` -/

theorem count_bind (p : Code α) (g : α → Code β) (h : Heap) :
    (p >>= g).count h = p.count h + match p.execT h with | none => 0 | some r => (g r.2).count r.1 := by
  show (p.bind g).count h = _
  induction p generalizing h with
  | ret x => simp [Code.bind, Code.count, Code.execT]
  | panic => rfl
  | read a f k ih => simp only [Code.bind, Code.count, Code.execT, ih]; omega
  | write a f v k ih => simp only [Code.bind, Code.count, Code.execT, ih]; omega
  | alloc r k ih => simp only [Code.bind, Code.count, Code.execT, ih]; omega

theorem count_pure (h : Heap) (x : α) : (pure x : Code α).count h = 0 := rfl

theorem count_bind_le {p : Code α} {g : α → Code β} {h : Heap} {a b : Nat} (hp : p.count h ≤ a) (hg : ∀ h' x, (g x).count h' ≤ b) :
    (p >>= g).count h ≤ a + b := by
  rw [count_bind]
  split
  · omega
  · rename_i r _; have := hg r.1 r.2; omega

theorem count_kind (h : Heap) (n : Ptr) : (Code.kind n).count h ≤ 1 := by cases n <;> simp [Code.kind, Code.load, Code.count, count_pure]
theorem count_next (h : Heap) (n : Ptr) : (Code.next n).count h ≤ 1 := by cases n <;> simp [Code.next, Code.load, Code.count, count_pure]
theorem count_prev (h : Heap) (n : Ptr) : (Code.prev n).count h ≤ 1 := by cases n <;> simp [Code.prev, Code.load, Code.count, count_pure]
theorem count_line (h : Heap) (n : Ptr) : (Code.line n).count h ≤ 1 := by cases n <;> simp [Code.line, Code.load, Code.count, count_pure]
theorem count_text (h : Heap) (n : Ptr) : (Code.text n).count h ≤ 1 := by cases n <;> simp [Code.text, Code.load, Code.count, count_pure]
theorem count_setKind (h : Heap) (n : Ptr) (k : Kind) : (Code.setKind n k).count h ≤ 1 := by
  cases n <;> simp [Code.setKind, Code.store, Code.count, count_pure]
theorem count_load (h : Heap) (n : Ptr) (f : NodeField) : (Code.load n f).count h ≤ 1 := by cases n <;> simp [Code.load, Code.count]
theorem count_store (h : Heap) (n : Ptr) (f : NodeField) (v : f.Val) : (Code.store n f v).count h ≤ 1 := by cases n <;> simp [Code.store, Code.count]

theorem count_setPrev (h : Heap) (n nn : Ptr) : (Code.setPrev n nn).count h ≤ 4 := by
  unfold Code.setPrev
  split
  · simp [count_pure]
  · refine count_bind_le (a := 1) (b := 3) (count_load ..) fun h p => ?_
    dsimp only
    split
    · exact count_bind_le (a := 1) (b := 2) (count_load ..) fun h p => count_bind_le (a := 1) (b := 1) (count_store ..) fun h p => count_store ..
    · exact Nat.le_trans (count_store ..) (by omega)

theorem count_setNext (h : Heap) (n nn : Ptr) : (Code.setNext n nn).count h ≤ 4 := by
  unfold Code.setNext
  split
  · simp [count_pure]
  · refine count_bind_le (a := 1) (b := 3) (count_load ..) fun h p => ?_
    dsimp only
    split
    · exact count_bind_le (a := 1) (b := 2) (count_load ..) fun h p => count_bind_le (a := 1) (b := 1) (count_store ..) fun h p => count_store ..
    · exact Nat.le_trans (count_store ..) (by omega)

theorem count_replaceNext (h : Heap) (n nn : Ptr) : (Code.replaceNext n nn).count h ≤ 19 := by
  unfold Code.replaceNext
  split
  · simp [count_pure]
  · refine count_bind_le (a := 1) (b := 18) (count_next ..) fun h p => ?_
    split
    · simp [count_pure]
    · exact count_bind_le (a := 1) (b := 17) (count_prev ..) fun h _ => count_bind_le (a := 1) (b := 16) (count_next ..) fun h _ =>
        count_bind_le (a := 4) (b := 12) (count_setNext ..) fun h _ => count_bind_le (a := 4) (b := 8) (count_setPrev ..) fun h _ =>
        count_bind_le (a := 4) (b := 4) (count_setNext ..) fun h _ => count_bind_le (a := 4) (b := 0) (count_setPrev ..) fun h _ => Nat.le_refl 0

theorem count_removePrev (h : Heap) (n : Ptr) : (Code.removePrev n).count h ≤ 9 :=
  count_bind_le (a := 1) (b := 8) (count_prev ..) fun h _ => count_bind_le (a := 4) (b := 4) (count_setPrev ..) fun h _ =>
    count_bind_le (a := 4) (b := 0) (count_setNext ..) fun h _ => Nat.le_refl 0

theorem count_isolate (h : Heap) (n : Ptr) : (Code.isolate n).count h ≤ 18 :=
  count_bind_le (a := 1) (b := 17) (count_prev ..) fun h _ => count_bind_le (a := 4) (b := 13) (count_setNext ..) fun h _ =>
    count_bind_le (a := 1) (b := 12) (count_next ..) fun h _ => count_bind_le (a := 4) (b := 8) (count_setPrev ..) fun h _ =>
    count_bind_le (a := 4) (b := 4) (count_setPrev ..) fun h _ => count_setNext ..

theorem count_combineLoop (n : Ptr) : ∀ (nns : List Ptr) (buf : List Bytes) (h : Heap), (Code.combineLoop n nns buf).count h ≤ 19 * nns.length
  | [], buf, h => by simp [Code.combineLoop, count_pure]
  | nn :: nns, buf, h => by
    unfold Code.combineLoop
    split
    · have := count_combineLoop n nns buf h
      simp only [List.length_cons]; omega
    · refine Nat.le_trans (count_bind_le (a := 1) (b := 18 + 19 * nns.length) (count_text ..) fun h t =>
        count_bind_le (a := 18) (b := 19 * nns.length) (count_isolate ..) fun h _ => count_combineLoop n nns _ h) ?_
      simp only [List.length_cons]; omega

theorem count_combineNext (h : Heap) (n : Ptr) (k : Kind) (nns : List Ptr) : (Code.combineNext n k nns).count h ≤ 19 * nns.length + 3 := by
  unfold Code.combineNext
  refine Nat.le_trans (count_bind_le (a := 1) (b := 19 * nns.length + 2) (count_setKind ..) fun h _ => ?_) (by omega)
  cases nns with
  | nil => simp [count_pure]
  | cons nn0 rest =>
    refine Nat.le_trans (count_bind_le (a := 1) (b := 19 * (rest.length + 1) + 1) (count_text ..) fun h t => ?_) (by simp only [List.length_cons]; omega)
    refine count_bind_le (a := 19 * (rest.length + 1)) (b := 1) ?_ fun h _ => count_bind_le (a := 1) (b := 0) (count_store ..) fun h _ => Nat.le_refl 0
    refine Nat.le_trans (count_combineLoop ..) (Nat.mul_le_mul_left 19 ?_)
    split <;> simp

theorem count_deferCombine (h : Heap) (buf : List Ptr) (k : Kind) : (RCode.deferCombine buf k).count h ≤ 23 * buf.length := by
  unfold RCode.deferCombine
  cases buf with
  | nil => simp [count_pure]
  | cons n rest =>
    refine Nat.le_trans (count_bind_le (a := 1) (b := 19 * rest.length + 22) (count_next ..) fun h nx =>
      Nat.le_trans (count_bind_le (a := 19 * rest.length + 3) (b := 19) (count_combineNext ..) fun h n =>
        count_bind_le (a := 19) (b := 0) (count_replaceNext ..) fun h _ => Nat.le_refl 0) (by omega)) ?_
    simp only [List.length_cons]; omega

theorem count_debugTextLoop : ∀ (c : Nat) (n : Ptr) (buf : Bytes) (h : Heap), (RCode.debugTextLoop c n buf).count h ≤ 2 * c
  | c, none, buf, h => by cases c <;> simp [RCode.debugTextLoop, count_pure]
  | 0, some _, buf, h => Nat.le_refl 0
  | c + 1, some a, buf, h => by
    unfold RCode.debugTextLoop
    refine Nat.le_trans (count_bind_le (a := 1) (b := 1 + 2 * c) (count_text ..) fun h t => ?_) (by omega)
    dsimp only
    split
    · simp [count_pure]
    · exact count_bind_le (a := 1) (b := 2 * c) (count_next ..) fun h n => count_debugTextLoop c n _ h

/-! ## `RCode` -/

/-- The code returns, and in at most `k` steps more than `buf` has grown. -/
def Takes (p : RCode α) (w : World) (Q : World → α → Nat → Prop) : Prop :=
  ∃ w' x k, (p w.buf).execT w.heap = some (w'.heap, (x, w'.buf)) ∧ (p w.buf).count w.heap + w'.buf.length ≤ k + w.buf.length ∧ Q w' x k

variable {w : World}

theorem Takes.mono {p : RCode α} {Q Q' : World → α → Nat → Prop} (t : Takes p w Q) (h : ∀ w' x k, Q w' x k → Q' w' x k) : Takes p w Q' := by
  obtain ⟨w', x, k, h1, h2, h3⟩ := t
  exact ⟨w', x, k, h1, h2, h _ _ _ h3⟩

theorem Takes.bind {p : RCode α} {g : α → RCode β} {Q : World → β → Nat → Prop}
    (t : Takes p w fun w1 x k1 => Takes (g x) w1 fun w2 y k2 => Q w2 y (k1 + k2)) : Takes (p >>= g) w Q := by
  obtain ⟨w1, x, k1, h1, h2, w2, y, k2, h3, h4, h5⟩ := t
  refine ⟨w2, y, k1 + k2, ?_, ?_, h5⟩
  · show (p w.buf >>= fun r => g r.1 r.2).execT w.heap = _
    rw [execT_bind, h1]
    exact h3
  · show (p w.buf >>= fun r => g r.1 r.2).count w.heap + _ ≤ _
    rw [count_bind, h1]
    dsimp only
    omega

theorem Takes.pure {Q : World → α → Nat → Prop} {x : α} (h : Q w x 0) : Takes (Pure.pure x : RCode α) w Q :=
  ⟨w, x, 0, rfl, Nat.le_refl _, h⟩

theorem takes_run {p : Code α} {Q : World → α → Nat → Prop} {h' : Heap} {x : α} {k : Nat} (e : p.execT w.heap = some (h', x)) (hk : p.count w.heap ≤ k)
    (h : Q { w with heap := h' } x k) : Takes (RCode.run p) w Q := by
  refine ⟨_, x, k, ?_, ?_, h⟩
  · simp [RCode.run, execT_bind, e, execT_pure]
  · simp [RCode.run, count_bind, e, count_pure]; omega

theorem takes_kind {Q : World → Kind → Nat → Prop} {n : Ptr} (h : Q w (w.heap.kind n) 1) : Takes (RCode.kind n) w Q :=
  takes_run (execT_kind ..) (count_kind ..) h

theorem takes_next {Q : World → Ptr → Nat → Prop} {n : Ptr} (h : Q w (w.heap.next n) 1) : Takes (RCode.next n) w Q :=
  takes_run (execT_next ..) (count_next ..) h

theorem takes_setKind {Q : World → Unit → Nat → Prop} {n : Ptr} {k : Kind} (h : Q { w with heap := w.heap.setKind n k } () 1) : Takes (RCode.setKind n k) w Q :=
  takes_run (execT_setKind ..) (count_setKind ..) h

theorem takes_debugText {Q : World → Unit → Nat → Prop} {n : Ptr} (h : Q w () 12) : Takes (RCode.debugText n) w Q := by
  obtain ⟨b, hb⟩ := execT_debugTextLoop 6 n [] w.heap
  refine takes_run (h' := w.heap) (x := ()) (k := 12) (by simp [execT_bind, hb, execT_pure]) ?_ h
  exact count_bind_le (a := 12) (b := 0) (count_debugTextLoop 6 n [] w.heap) fun _ _ => Nat.le_refl 0

theorem takes_runHook {Q : World → Unit → Nat → Prop} {n : Ptr} {k : Hook} (h : ∀ c, c ≤ 2 → Q (runHook w n k) () c) : Takes (RCode.runHook n k) w Q := by
  cases k with
  | appendBuf =>
    refine ⟨runHook w n .appendBuf, (), 1, rfl, ?_, h 1 (by omega)⟩
    show 0 + (appendUnrepeatable w.buf [n]).length ≤ _
    rcases appendUnrepeatable_one w.buf n with e | e <;> rw [e]
    · omega
    · simp; omega
  | rawToParamType =>
    refine Takes.bind (takes_kind ?_)
    unfold runHook at h
    split
    · rename_i hk
      simp only [hk, if_true] at h
      exact takes_setKind (h _ (by omega))
    · rename_i hk
      simp only [hk, if_false] at h
      exact Takes.pure (h _ (by omega))

/-- There is at most one hook. -/
theorem takes_hook {Q : World → Unit → Nat → Prop} {n : Ptr} : ∀ {hooks : List Hook}, hooks.length ≤ 1 → (∀ c, c ≤ 2 → Q (handleHook w n hooks) () c) →
    Takes (RCode.handleHook n hooks) w Q
  | [], _, h => Takes.pure (h 0 (by omega))
  | [k], _, h => Takes.bind (takes_runHook fun c hc => Takes.pure (h _ (by omega)))
  | _ :: _ :: _, hl, _ => by simp at hl

/-- `IterNext` with an invariant and a rank. -/
theorem takes_iter {σ : Type} {F : Nat} {fn : σ → Ptr → RCode (σ × Bool)} (rank : Addr → Nat) (I : World → σ → Ptr → Nat → Prop)
    {Q : World → σ × Ptr → Nat → Prop} (hnone : ∀ w s k, I w s none k → Q w (s, none) k)
    (hstep : ∀ w s a k, I w s (some a) k → Takes (fn s (some a)) w fun w' r k' => (r.2 = false → Q w' (r.1, some a) (k + k')) ∧
      (r.2 = true → I w' r.1 (w'.heap.next (some a)) (k + k' + 1) ∧ ∀ a', w'.heap.next (some a) = some a' → rank a' < rank a))
    {s : σ} {p : Ptr} (hi : I w s p 0) (hF : ∀ a, p = some a → rank a < F) : Takes (RCode.iter F fn s p) w Q := by
  have main : ∀ (fuel : Nat) (w : World) (s : σ) (p : Ptr) (k : Nat), I w s p k → (∀ a, p = some a → rank a < fuel) →
      ∃ w' s' r k', (Code.iterNext fuel (fun (b : σ × List Ptr) a => do
        let r ← fn b.1 a b.2
        pure ((r.1.1, r.2), r.1.2)) (s, w.buf) p).execT w.heap = some (w'.heap, ((s', w'.buf), r)) ∧
      (Code.iterNext fuel (fun (b : σ × List Ptr) a => do
        let r ← fn b.1 a b.2
        pure ((r.1.1, r.2), r.1.2)) (s, w.buf) p).count w.heap + w'.buf.length ≤ k' + w.buf.length ∧ Q w' (s', r) (k + k') := by
    intro fuel
    induction fuel with
    | zero =>
      intro w s p k hi hr
      cases p with
      | none => exact ⟨w, s, none, 0, rfl, Nat.le_refl _, hnone _ _ _ hi⟩
      | some a => have := hr a rfl; omega
    | succ fuel ih =>
      intro w s p k hi hr
      cases p with
      | none => exact ⟨w, s, none, 0, rfl, Nat.le_refl _, hnone _ _ _ hi⟩
      | some a =>
        obtain ⟨w1, ⟨s1, b⟩, k1, e1, c1, q1, q2⟩ := hstep w s a k hi
        cases b with
        | false =>
          refine ⟨w1, s1, some a, k1, ?_, ?_, q1 rfl⟩
          · simp only [Code.iterNext, Code.loop, execT_bind, e1, Option.bind_some, execT_pure]; rfl
          · simp only [Code.iterNext, Code.loop, count_bind, execT_bind, e1, Option.bind_some, execT_pure, count_pure]
            simp [count_pure]; omega
        | true =>
          obtain ⟨h3, h4⟩ := q2 rfl
          obtain ⟨w2, s2, r, k2, e2, c2, q⟩ := ih w1 s1 _ _ h3 (fun a' ha' => by have := h4 a' ha'; have := hr a rfl; omega)
          refine ⟨w2, s2, r, k1 + 1 + k2, ?_, ?_, by rw [← Nat.add_assoc, ← Nat.add_assoc]; exact q⟩
          · simp only [Code.iterNext, Code.loop, execT_bind, e1, Option.bind_some, execT_pure, if_true, execT_next]; exact e2
          · simp only [Code.iterNext, Code.loop, count_bind, execT_bind, e1, Option.bind_some, execT_pure, count_pure, if_true, execT_next]
            have := count_next w1.heap (some a)
            simp only [Code.iterNext] at c2
            show _ + 0 + (_ + Code.count w1.heap (Code.loop Code.next _ fuel (s1, w1.buf) (w1.heap.next (some a)))) + _ ≤ _
            omega
  obtain ⟨w', s', r, k', e, c, q⟩ := main F w s p 0 hi hF
  rw [Nat.zero_add] at q
  refine ⟨w', (s', r), k', ?_, ?_, q⟩
  · simp only [RCode.iter, execT_bind, e, Option.bind_some, execT_pure]
  · simp only [RCode.iter, count_bind, e, count_pure]; omega

end Goast
