import Verif.Model.ParseSteps
import Verif.Proofs.Links
import Verif.Proofs.Loop

/-! # Proofs: the single steps of `ParseScope`, one after the other, are the `ParseScope` of `Verif/Model/Scope.lean` -/

set_option linter.unusedSimpArgs false
set_option linter.unusedVariables false

namespace Goast

variable {α β : Type}

/-- A field of a node, the value for nil if there is no such node. -/
def Heap.fieldD (h : Heap) (a : Nat) : (f : NodeField) → f.Val
  | .line => h.line (some a)
  | .kind => h.kind (some a)
  | .text => h.text (some a)
  | .prev => h.prev (some a)
  | .next => h.next (some a)

/-- `Code.exec` that does not stop at an address outside the heap. -/
def Code.execT {α : Type} (h : Heap) : Code α → Option (Heap × α)
  | .ret x => some (h, x)
  | .panic => none
  | .read a f k => (k (h.fieldD a f)).execT h
  | .write a f v k => k.execT (h.modify a (·.put f v))
  | .alloc r k => (k (h.alloc r).2).execT (h.alloc r).1

theorem execT_bind (p : Code α) (g : α → Code β) (h : Heap) : (p >>= g).execT h = (p.execT h).bind fun r => (g r.2).execT r.1 := by
  show (p.bind g).execT h = _
  induction p generalizing h with
  | ret x => rfl
  | panic => rfl
  | read a f k ih => exact ih _ h
  | write a f v k ih => exact ih _
  | alloc r k ih => exact ih _ _

theorem execT_pure (h : Heap) (x : α) : (pure x : Code α).execT h = some (h, x) := rfl

theorem execT_prev (h : Heap) (n : Ptr) : (Code.prev n).execT h = some (h, h.prev n) := by
  cases n <;> rfl

theorem execT_next (h : Heap) (n : Ptr) : (Code.next n).execT h = some (h, h.next n) := by
  cases n <;> rfl

theorem execT_line (h : Heap) (n : Ptr) : (Code.line n).execT h = some (h, h.line n) := by
  cases n <;> rfl

theorem execT_kind (h : Heap) (n : Ptr) : (Code.kind n).execT h = some (h, h.kind n) := by
  cases n <;> rfl

theorem execT_text (h : Heap) (n : Ptr) : (Code.text n).execT h = some (h, h.text n) := by
  cases n <;> rfl

theorem execT_setKind (h : Heap) (n : Ptr) (k : Kind) : (Code.setKind n k).execT h = some (h.setKind n k, ()) := by
  cases n <;> rfl

theorem execT_setPrev (h : Heap) (n nn : Ptr) : (Code.setPrev n nn).execT h = some (h.setPrev n nn, ()) := by
  unfold Code.setPrev Heap.setPrev
  cases n with
  | none => simp [execT_pure]
  | some a =>
    by_cases e : some a = nn
    · simp [e, execT_pure]
    · simp only [e, false_or, if_false, reduceCtorEq]
      show Code.execT h (ite (h.prev (some a) ≠ none) _ _) = _
      cases hp : h.prev (some a) with
      | none => rfl
      | some q =>
        simp only [ne_eq, reduceCtorEq, not_false_eq_true, if_true]
        show Code.execT h (Code.bind (Code.store (h.prev (some a)) _ _) _) = _
        rw [hp]
        rfl

theorem execT_setNext (h : Heap) (n nn : Ptr) : (Code.setNext n nn).execT h = some (h.setNext n nn, ()) := by
  unfold Code.setNext Heap.setNext
  cases n with
  | none => simp [execT_pure]
  | some a =>
    by_cases e : some a = nn
    · simp [e, execT_pure]
    · simp only [e, false_or, if_false, reduceCtorEq]
      show Code.execT h (ite (h.next (some a) ≠ none) _ _) = _
      cases hp : h.next (some a) with
      | none => rfl
      | some q =>
        simp only [ne_eq, reduceCtorEq, not_false_eq_true, if_true]
        show Code.execT h (Code.bind (Code.store (h.next (some a)) _ _) _) = _
        rw [hp]
        rfl

theorem execT_newNode (h : Heap) (l : Int) (t : Bytes) (ks : List Kind) :
    (Code.newNode l t ks).execT h = some ((h.newNode l t ks).1, some (h.newNode l t ks).2) := by
  cases ks <;> rfl

theorem execT_replaceNext (h : Heap) (n nn : Ptr) : (Code.replaceNext n nn).execT h = some (h.replaceNext n nn) := by
  unfold Code.replaceNext Heap.replaceNext
  by_cases e : n = nn
  · simp [e, execT_pure]
  · by_cases e' : h.next n = nn
    · simp [e, e', execT_pure, execT_bind, execT_next]
    · simp [e, e', execT_pure, execT_bind, execT_next, execT_prev, execT_setPrev, execT_setNext]

theorem execT_removePrev (h : Heap) (n : Ptr) : (Code.removePrev n).execT h = some (h.removePrev n) := by
  simp [Code.removePrev, Heap.removePrev, execT_pure, execT_bind, execT_prev, execT_setPrev, execT_setNext]

theorem execT_isolate (h : Heap) (n : Ptr) : (Code.isolate n).execT h = some (h.isolate n, ()) := by
  simp [Code.isolate, Heap.isolate, execT_pure, execT_bind, execT_prev, execT_next, execT_setPrev, execT_setNext]

theorem execT_combineLoop (n : Ptr) : ∀ (nns : List Ptr) (buf : List Bytes) (h : Heap),
    (Code.combineLoop n nns buf).execT h = some (Heap.combineLoop n h nns buf)
  | [], buf, h => rfl
  | nn :: nns, buf, h => by
    unfold Code.combineLoop Heap.combineLoop
    split
    · exact execT_combineLoop n nns buf h
    · simp only [execT_bind, execT_text, execT_isolate, Option.bind_some]
      exact execT_combineLoop n nns _ _

theorem execT_combineNext (h : Heap) (n : Ptr) (k : Kind) (nns : List Ptr) : (Code.combineNext n k nns).execT h = h.combineNext n k nns := by
  unfold Code.combineNext Heap.combineNext
  cases nns with
  | nil => simp [execT_bind, execT_setKind, execT_pure]
  | cons nn0 rest =>
    cases n with
    | none =>
      cases nn0 with
      | none => simp [execT_bind, execT_setKind, execT_pure, execT_text, execT_combineLoop, Code.store, Code.execT]
      | some b => simp [execT_bind, execT_setKind, execT_pure, execT_text, execT_combineLoop, Code.store, Code.execT]; rfl
    | some a => simp [execT_bind, execT_setKind, execT_pure, execT_text, execT_combineLoop, Code.store, Code.execT]; rfl

theorem Heap.size_isolate' (h : Heap) (n : Ptr) : (h.isolate n).size = h.size := by simp [Heap.isolate]

theorem Heap.size_combineLoop' (n : Ptr) : ∀ (nns : List Ptr) (buf : List Bytes) (h : Heap), (Heap.combineLoop n h nns buf).1.size = h.size
  | [], buf, h => rfl
  | nn :: nns, buf, h => by
    unfold Heap.combineLoop
    split
    · exact Heap.size_combineLoop' n nns buf h
    · rw [Heap.size_combineLoop' n nns _ _, Heap.size_isolate']

theorem Heap.size_combineNext' {h h' : Heap} {n n' : Ptr} {k : Kind} {nns : List Ptr} (e : h.combineNext n k nns = some (h', n')) :
    h'.size = h.size := by
  unfold Heap.combineNext at e
  cases nns with
  | nil =>
    simp only [Option.some.injEq, Prod.mk.injEq] at e
    rw [← e.1]; simp
  | cons nn0 rest =>
    dsimp only at e
    split at e
    · simp at e
    · simp only [Option.some.injEq, Prod.mk.injEq] at e
      rw [← e.1]
      simp [Heap.size_combineLoop']

theorem Heap.size_replaceNext' (h : Heap) (n nn : Ptr) : (h.replaceNext n nn).1.size = h.size := by
  unfold Heap.replaceNext
  split <;> simp

/-! ## Resetters -/

/-- Where the function on the heap has a result, the code has the same, and the number of nodes has not changed. -/
def Ref (F : Nat) (w : World) (p : RCode α) (o : Option (World × α)) : Prop :=
  w.heap.size + 1 = F → ∀ w' x, o = some (w', x) → (p w.buf).execT w.heap = some (w'.heap, (x, w'.buf)) ∧ w'.heap.size + 1 = F

theorem Ref.bind {F : Nat} {w : World} {p : RCode α} {k : α → RCode β} {o : Option (World × α)} {o' : Option (World × β)} (hp : Ref F w p o)
    (hn : o = none → o' = none) (hk : ∀ w' x, o = some (w', x) → Ref F w' (k x) o') : Ref F w (p >>= k) o' := by
  intro hF w'' y e
  cases ho : o with
  | none => rw [hn ho] at e; simp at e
  | some r =>
    obtain ⟨w', x⟩ := r
    obtain ⟨h1, h2⟩ := hp hF w' x ho
    obtain ⟨h3, h4⟩ := hk w' x ho h2 w'' y e
    refine ⟨?_, h4⟩
    show (p w.buf >>= fun r => k r.1 r.2).execT w.heap = _
    rw [execT_bind, h1]
    exact h3

theorem Ref.failed {F : Nat} {w : World} {p : RCode α} : Ref F w p (none : Option (World × α)) := by
  intro _ _ _ e; simp at e

theorem Ref.pure {F : Nat} {w : World} (x : α) : Ref F w (pure x : RCode α) (some (w, x)) := by
  intro hF w' y e
  simp only [Option.some.injEq, Prod.mk.injEq] at e
  obtain ⟨rfl, rfl⟩ := e
  exact ⟨rfl, hF⟩

/-- Code that always has a result, which is known. -/
theorem Ref.det {F : Nat} {w w' : World} {p : RCode α} {x : α} {k : α → RCode β} {o : Option (World × β)} (hp : Ref F w p (some (w', x)))
    (hk : Ref F w' (k x) o) : Ref F w (p >>= k) o :=
  Ref.bind hp (by simp) (by intro w'' y e; simp only [Option.some.injEq, Prod.mk.injEq] at e; obtain ⟨rfl, rfl⟩ := e; exact hk)

variable {F : Nat} {w : World}

theorem ref_kind (n : Ptr) : Ref F w (RCode.kind n) (some (w, w.heap.kind n)) := by
  intro hF w' y e
  simp only [Option.some.injEq, Prod.mk.injEq] at e
  obtain ⟨rfl, rfl⟩ := e
  exact ⟨by simp [RCode.kind, RCode.run, execT_bind, execT_kind, execT_pure], hF⟩

theorem ref_next (n : Ptr) : Ref F w (RCode.next n) (some (w, w.heap.next n)) := by
  intro hF w' y e
  simp only [Option.some.injEq, Prod.mk.injEq] at e
  obtain ⟨rfl, rfl⟩ := e
  exact ⟨by simp [RCode.next, RCode.run, execT_bind, execT_next, execT_pure], hF⟩

theorem ref_setKind (n : Ptr) (k : Kind) : Ref F w (RCode.setKind n k) (some ({ w with heap := w.heap.setKind n k }, ())) := by
  intro hF w' y e
  simp only [Option.some.injEq, Prod.mk.injEq] at e
  obtain ⟨rfl, -⟩ := e
  exact ⟨by simp [RCode.setKind, RCode.run, execT_bind, execT_setKind, execT_pure], by simpa [Heap.size_setKind] using hF⟩

theorem execT_debugTextLoop : ∀ (c : Nat) (n : Ptr) (buf : Bytes) (h : Heap), ∃ b, (RCode.debugTextLoop c n buf).execT h = some (h, b)
  | c, none, buf, h => by cases c <;> exact ⟨buf, rfl⟩
  | 0, some _, buf, h => ⟨buf, rfl⟩
  | c + 1, some a, buf, h => by
    unfold RCode.debugTextLoop
    simp only [execT_bind, execT_text, Option.bind_some]
    split
    · exact ⟨_, rfl⟩
    · simp only [execT_bind, execT_next, Option.bind_some]
      exact execT_debugTextLoop c _ _ h

theorem ref_debugText (n : Ptr) : Ref F w (RCode.debugText n) (some (w, ())) := by
  intro hF w' y e
  simp only [Option.some.injEq, Prod.mk.injEq] at e
  obtain ⟨rfl, -⟩ := e
  obtain ⟨b, hb⟩ := execT_debugTextLoop 6 n [] w.heap
  exact ⟨by simp [RCode.debugText, RCode.run, execT_bind, hb, execT_pure], hF⟩

theorem ref_runHook (n : Ptr) (k : Hook) : Ref F w (RCode.runHook n k) (some (runHook w n k, ())) := by
  cases k with
  | appendBuf =>
    intro hF w' y e
    simp only [Option.some.injEq, Prod.mk.injEq, runHook] at e
    obtain ⟨rfl, -⟩ := e
    exact ⟨rfl, hF⟩
  | rawToParamType =>
    refine Ref.det (ref_kind n) ?_
    unfold runHook
    split
    · exact ref_setKind n _
    · exact Ref.pure ()

theorem ref_handleHook (n : Ptr) : ∀ (ks : List Hook) (w : World), Ref F w (RCode.handleHook n ks) (some (handleHook w n ks, ()))
  | [], w => Ref.pure ()
  | k :: ks, w => Ref.det (ref_runHook n k) (ref_handleHook n ks (runHook w n k))

theorem ref_iter {σ : Type} {fn : σ → Ptr → RCode (σ × Bool)} {g : World × σ → Addr → Option ((World × σ) × Bool)}
    (hfn : ∀ w s a, Ref F w (fn s (some a)) ((g (w, s) a).map fun r => (r.1.1, (r.1.2, r.2)))) (s : σ) (n : Ptr) :
    Ref F w (RCode.iter F fn s n) ((iterW g w s n).map fun r => (r.1.1, (r.1.2, r.2))) := by
  have main : ∀ (fuel : Nat) (w : World) (s : σ) (n : Ptr) (w' : World) (s' : σ) (p : Ptr), w.heap.size + 1 = F →
      loop (fun ws a => ws.1.heap.next (some a)) g fuel (w, s) n = some ((w', s'), p) →
      (Code.iterNext fuel (fun (b : σ × List Ptr) a => do
        let r ← fn b.1 a b.2
        pure ((r.1.1, r.2), r.1.2)) (s, w.buf) n).execT w.heap = some (w'.heap, ((s', w'.buf), p)) ∧ w'.heap.size + 1 = F := by
    intro fuel
    induction fuel with
    | zero =>
      intro w s n w' s' p hF e
      cases n with
      | none =>
        simp only [loop, Option.some.injEq, Prod.mk.injEq] at e
        obtain ⟨⟨rfl, rfl⟩, rfl⟩ := e
        exact ⟨rfl, hF⟩
      | some a => simp [loop] at e
    | succ fuel ih =>
      intro w s n w' s' p hF e
      cases n with
      | none =>
        simp only [loop, Option.some.injEq, Prod.mk.injEq] at e
        obtain ⟨⟨rfl, rfl⟩, rfl⟩ := e
        exact ⟨rfl, hF⟩
      | some a =>
        simp only [loop] at e
        cases hg : g (w, s) a with
        | none => rw [hg] at e; simp at e
        | some r =>
          obtain ⟨⟨w₁, s₁⟩, go⟩ := r
          obtain ⟨h1, h2⟩ := hfn w s a hF w₁ (s₁, go) (by rw [hg]; rfl)
          rw [hg] at e
          cases go with
          | false =>
            simp only [Option.some.injEq, Prod.mk.injEq] at e
            obtain ⟨⟨rfl, rfl⟩, rfl⟩ := e
            refine ⟨?_, h2⟩
            simp only [Code.iterNext, Code.loop, execT_bind, h1, Option.bind_some, execT_pure]
            rfl
          | true =>
            obtain ⟨h3, h4⟩ := ih w₁ s₁ _ w' s' p h2 e
            refine ⟨?_, h4⟩
            simp only [Code.iterNext, Code.loop, execT_bind, h1, Option.bind_some, execT_pure, if_true, execT_next]
            exact h3
  intro hF w' x e
  cases hi : iterW g w s n with
  | none => rw [hi] at e; simp at e
  | some r =>
    obtain ⟨⟨w₁, s₁⟩, p⟩ := r
    rw [hi] at e
    simp only [Option.map_some, Option.some.injEq, Prod.mk.injEq] at e
    obtain ⟨rfl, rfl⟩ := e
    obtain ⟨h1, h2⟩ := main (w.heap.size + 1) w s n w₁ s₁ p hF hi
    refine ⟨?_, h2⟩
    rw [hF] at h1
    simp only [RCode.iter, execT_bind, h1, Option.bind_some, execT_pure]

/-- `iter` followed by a function of its result. -/
theorem ref_iter_map {σ γ : Type} {fn : σ → Ptr → RCode (σ × Bool)} {g : World × σ → Addr → Option ((World × σ) × Bool)}
    (hfn : ∀ w s a, Ref F w (fn s (some a)) ((g (w, s) a).map fun r => (r.1.1, (r.1.2, r.2)))) (s : σ) (n : Ptr) (f : σ × Ptr → γ)
    {o : Option (World × γ)} (ho : o = (iterW g w s n).map fun r => (r.1.1, f (r.1.2, r.2))) :
    Ref F w (do let r ← RCode.iter F fn s n; Pure.pure (f r)) o := by
  subst ho
  refine Ref.bind (ref_iter hfn s n) (by intro e; simpa using e) ?_
  intro w' x e
  cases hi : iterW g w s n with
  | none => rw [hi] at e; simp at e
  | some r =>
    rw [hi] at e
    simp only [Option.map_some, Option.some.injEq, Prod.mk.injEq] at e
    obtain ⟨rfl, rfl⟩ := e
    exact Ref.pure _

theorem ref_findNext (n : Ptr) (target : List Kind) (opt : FindOpt) (hooks : List Hook) :
    Ref F w (RCode.findNext F n target opt hooks) (findNext w n target opt hooks) := by
  unfold RCode.findNext findNext
  refine ref_iter_map (fun w s a => ?_) _ _ (fun r => r.2) rfl
  exact Ref.det (ref_handleHook _ hooks w) (Ref.det (ref_kind _) (Ref.det (ref_kind _) (Ref.pure _)))

theorem ref_skipNestNext (n : Ptr) (l r : Kind) (hooks : List Hook) :
    Ref F w (RCode.skipNestNext F n l r hooks) (skipNestNext w n l r hooks) := by
  unfold RCode.skipNestNext skipNestNext
  refine Ref.det (ref_kind n) ?_
  have second : ∀ (w : World) (n : Ptr), Ref F w (do
      let r ← RCode.iter F (fun (count : Int) a => do
        RCode.handleHook a hooks
        let k ← RCode.kind a
        if k = l then pure (count + 1, true)
        else if k = r then pure (count - 1, decide (count - 1 ≠ 0))
        else pure (count, true)) 1 n
      pure r.2) ((iterW (fun ws a =>
        let w := handleHook ws.1 (some a) hooks
        let k := w.heap.kind (some a)
        if k = l then some ((w, ws.2 + 1), true)
        else if k = r then some ((w, ws.2 - 1), decide (ws.2 - 1 ≠ 0))
        else some ((w, ws.2), true)) w (1 : Int) n).map
      fun r => (r.1.1, r.2)) := by
    intro w n
    refine ref_iter_map (fun w s a => ?_) _ _ (fun r => r.2) rfl
    refine Ref.det (ref_handleHook _ hooks w) (Ref.det (ref_kind _) ?_)
    dsimp only
    split
    · exact Ref.pure _
    · split
      · exact Ref.pure _
      · exact Ref.pure _
  have fin : ∀ {p : RCode Ptr} {o : Option (World × Ptr)}, Ref F w p o → Ref F w (do
      let n ← p
      let r ← RCode.iter F (fun (count : Int) a => do
        RCode.handleHook a hooks
        let k ← RCode.kind a
        if k = l then pure (count + 1, true)
        else if k = r then pure (count - 1, decide (count - 1 ≠ 0))
        else pure (count, true)) 1 n
      pure r.2) (match o with
        | none => none
        | some (w, n) => (iterW (fun ws a =>
          let w := handleHook ws.1 (some a) hooks
          let k := w.heap.kind (some a)
          if k = l then some ((w, ws.2 + 1), true)
          else if k = r then some ((w, ws.2 - 1), decide (ws.2 - 1 ≠ 0))
          else some ((w, ws.2), true)) w (1 : Int) n).map fun r => (r.1.1, r.2)) := by
    intro p o hp
    cases o with
    | none => exact Ref.failed
    | some x => exact Ref.det hp (second _ _)
  by_cases hk : w.heap.kind n = l
  · simp only [hk, if_true]
    have first : Ref F w (do
        RCode.handleHook n hooks
        let f ← RCode.findNext F n [l] {} hooks
        RCode.next f) (match findNext (handleHook w n hooks) n [l] {} hooks with
          | none => none
          | some (w, f) => some (w, w.heap.next f)) := by
      refine Ref.det (ref_handleHook _ hooks w) ?_
      refine Ref.bind (ref_findNext n [l] {} hooks) ?_ ?_
      · intro e; simp [e]
      · intro w' x e; simp only [e]; exact ref_next x
    exact fin first
  · simp only [hk, if_false]
    exact Ref.det (Ref.pure n) (second w n)

theorem ref_jumpLoop {σ : Type} {consume : Bool} {hooks : List Hook} {body : σ → Ptr → RCode (σ × Ctl)}
    {g : World → σ → Addr → Option (World × σ × Ctl)} (hb : ∀ w s a, Ref F w (body s (some a)) (g w s a)) (s : σ) (n : Ptr) :
    Ref F w (RCode.jumpLoop F consume hooks body s n) (jumpLoop consume hooks g w s n) := by
  unfold RCode.jumpLoop jumpLoop
  refine ref_iter_map (fun w j a => ?_) _ _ (fun r => r.2) rfl
  unfold RCode.jumpStep jumpStep
  refine Ref.det (ref_handleHook _ hooks w) ?_
  dsimp only
  split
  · exact Ref.pure _
  · split
    · exact Ref.pure _
    · split
      · exact Ref.pure _
      · refine Ref.bind (hb _ _ _) ?_ ?_
        · intro e; simp [e]
        · intro w' x e
          obtain ⟨s', c⟩ := x
          simp only [e]
          cases c <;> exact Ref.pure _

theorem ref_toJump {σ : Type} {p : RCode Ptr} {o : Option (World × Ptr)} (hp : Ref F w p o) (s : σ) :
    Ref F w (RCode.toJump p s) (toJump o s) := by
  refine Ref.bind hp ?_ ?_
  · intro e; simp [toJump, e]
  · intro w' x e; simp only [toJump, e]; exact Ref.pure _

theorem ref_deferCombine (buf : List Ptr) (k : Kind) :
    Ref F w (RCode.run (RCode.deferCombine buf k)) ((deferCombine w.heap buf k).map fun h => ({ w with heap := h }, ())) := by
  intro hF w' x e
  cases buf with
  | nil =>
    simp only [deferCombine, Option.map_some, Option.some.injEq, Prod.mk.injEq] at e
    obtain ⟨rfl, -⟩ := e
    exact ⟨rfl, hF⟩
  | cons n rest =>
    simp only [deferCombine] at e
    cases hc : w.heap.combineNext n k rest with
    | none => rw [hc] at e; simp at e
    | some r =>
      obtain ⟨h₁, n₁⟩ := r
      rw [hc] at e
      simp only [Option.map_some, Option.some.injEq, Prod.mk.injEq] at e
      obtain ⟨rfl, -⟩ := e
      have hs : h₁.size = w.heap.size := Heap.size_combineNext' hc
      refine ⟨?_, ?_⟩
      · simp [RCode.run, RCode.deferCombine, execT_bind, execT_next, execT_combineNext, hc, execT_replaceNext, execT_pure]
      · simp [Heap.size_replaceNext', hs, hF]

theorem ref_curlyRun (n : Ptr) (hooks : List Hook) : Ref F w (RCode.curlyRun F n hooks) (curlyRun w n hooks) :=
  Ref.det (ref_debugText n) (ref_skipNestNext n _ _ hooks)

theorem ref_squareRun (n : Ptr) (hooks : List Hook) : Ref F w (RCode.squareRun F n hooks) (squareRun w n hooks) :=
  Ref.det (ref_debugText n) (ref_skipNestNext n _ _ hooks)

/-- A loop whose callback leaves the world alone leaves the world alone. -/
theorem iterW_same {σ : Type} {g : World × σ → Addr → Option ((World × σ) × Bool)} (hg : ∀ ws a r, g ws a = some r → r.1.1 = ws.1) {w : World} {s : σ}
    {n : Ptr} {r : (World × σ) × Ptr} (e : iterW g w s n = some r) : r.1.1 = w := by
  have main : ∀ (fuel : Nat) (ws : World × σ) (n : Ptr) (r : (World × σ) × Ptr),
      loop (fun ws a => ws.1.heap.next (some a)) g fuel ws n = some r → r.1.1 = ws.1 := by
    intro fuel
    induction fuel with
    | zero =>
      intro ws n r e
      cases n with
      | none => simp only [loop, Option.some.injEq] at e; rw [← e]
      | some a => simp [loop] at e
    | succ fuel ih =>
      intro ws n r e
      cases n with
      | none => simp only [loop, Option.some.injEq] at e; rw [← e]
      | some a =>
        simp only [loop] at e
        cases hr : g ws a with
        | none => rw [hr] at e; simp at e
        | some q =>
          obtain ⟨ws', go⟩ := q
          have := hg ws a _ hr
          rw [hr] at e
          cases go with
          | false => simp only [Option.some.injEq] at e; rw [← e]; exact this
          | true => rw [ih _ _ _ e]; exact this
  exact main _ _ _ _ e

theorem ref_iter_same {σ γ : Type} {fn : σ → Ptr → RCode (σ × Bool)} {g : World × σ → Addr → Option ((World × σ) × Bool)}
    (hfn : ∀ w s a, Ref F w (fn s (some a)) ((g (w, s) a).map fun r => (r.1.1, (r.1.2, r.2)))) (hg : ∀ ws a r, g ws a = some r → r.1.1 = ws.1)
    (s : σ) (n : Ptr) (f : σ × Ptr → γ) {o : Option γ} (ho : o = (iterW g w s n).map fun r => f (r.1.2, r.2)) :
    Ref F w (do let r ← RCode.iter F fn s n; Pure.pure (f r)) (o.map fun x => (w, x)) := by
  refine ref_iter_map hfn s n f ?_
  subst ho
  cases hi : iterW g w s n with
  | none => rfl
  | some r => simp [iterW_same hg hi]

theorem ref_validParamCount (n : Ptr) : Ref F w (RCode.validParamCount F n) ((validParamCount w n).map fun x => (w, x)) := by
  unfold RCode.validParamCount
  refine ref_iter_same (fun w s a => ?_) ?_ _ _ (fun r => r.1) rfl
  · refine Ref.det (ref_kind _) ?_
    dsimp only
    generalize w.heap.kind (some a) = k
    cases k <;> exact Ref.pure _
  · intro ws a r
    generalize ws.1.heap.kind (some a) = k
    cases k <;> simp only [Option.some.injEq] <;> rintro rfl <;> rfl

theorem findNext_same {w w' : World} {n f : Ptr} {target : List Kind} {opt : FindOpt} (e : findNext w n target opt [] = some (w', f)) : w' = w := by
  unfold findNext at e
  simp only [Option.map_eq_some_iff] at e
  obtain ⟨r, hr, hr'⟩ := e
  have := iterW_same (by
    intro ws a r e
    simp only [Option.some.injEq] at e
    rw [← e]
    rfl) hr
  simp only [Prod.mk.injEq] at hr'
  rw [← hr'.1]
  exact this

theorem ref_isTemporaryFunc (n : Ptr) : Ref F w (RCode.isTemporaryFunc F n) ((isTemporaryFunc w n).map fun x => (w, x)) := by
  unfold RCode.isTemporaryFunc isTemporaryFunc
  refine Ref.bind (ref_findNext n _ _ []) ?_ ?_
  · intro e; simp [e]
  · intro w' f e
    have := findNext_same e
    subst this
    simp only [e]
    refine Ref.det (ref_kind _) ?_
    split
    · exact Ref.pure _
    · exact Ref.det (ref_next _) (Ref.det (ref_kind _) (Ref.pure _))

theorem ref_isThisLineFunction (n : Ptr) : Ref F w (RCode.isThisLineFunction F n) ((isThisLineFunction w n).map fun x => (w, x)) := by
  unfold RCode.isThisLineFunction
  refine ref_iter_same (fun w s a => ?_) ?_ _ _ (fun r => r.1) rfl
  · refine Ref.det (ref_kind _) ?_
    dsimp only
    generalize w.heap.kind (some a) = k
    cases k <;> exact Ref.pure _
  · intro ws a r
    generalize ws.1.heap.kind (some a) = k
    cases k <;> simp only [Option.some.injEq] <;> rintro rfl <;> rfl

theorem ref_getRowNameCount (n : Ptr) : Ref F w (RCode.getRowNameCount F n) ((getRowNameCount w n).map fun x => (w, x)) := by
  unfold RCode.getRowNameCount
  refine ref_iter_same (fun w s a => ?_) ?_ _ _ (fun (r : RowSt × Ptr) => r.1.nameCount) rfl
  · exact Ref.det (ref_kind _) (Ref.pure _)
  · intro ws a r e
    simp only [Option.some.injEq] at e
    rw [← e]

/-- `Ref.bind` for code that only looks. -/
theorem Ref.after {p : RCode α} {k : α → RCode β} {o : Option α} {o' : Option (World × β)} (hp : Ref F w p (o.map fun x => (w, x)))
    (hn : o = none → o' = none) (hk : ∀ x, o = some x → Ref F w (k x) o') : Ref F w (p >>= k) o' := by
  refine Ref.bind hp (by intro e; exact hn (by simpa using e)) ?_
  intro w' x e
  cases o with
  | none => simp at e
  | some y =>
    simp only [Option.map_some, Option.some.injEq, Prod.mk.injEq] at e
    obtain ⟨rfl, rfl⟩ := e
    exact hk y rfl

/-- The resetters that call each other. -/
structure RefAll (F d : Nat) : Prop where
  paren : ∀ w skip rcv n hooks, Ref F w (RCode.parenRun F d skip rcv n hooks) (parenRun d skip rcv w n hooks)
  param : ∀ w rcv n hooks, Ref F w (RCode.parenParam F d rcv n hooks) (parenParam d rcv w n hooks)
  func : ∀ w cfg n hooks, Ref F w (RCode.funcRun F d cfg n hooks) (funcRun d cfg w n hooks)
  general : ∀ w n ks hooks, Ref F w (RCode.generalFunc F d n ks hooks) (generalFunc d w n ks hooks)
  parameter : ∀ w n hooks, Ref F w (RCode.parameterFunc F d n hooks) (parameterFunc d w n hooks)
  single : ∀ w n hooks, Ref F w (RCode.singleReturn F d n hooks) (singleReturn d w n hooks)

theorem ref_funcBody {d : Nat} (A : RefAll F d) (nm : Bool) (head : Ptr) (hooks : List Hook) :
    Ref F w (RCode.funcBody F (fun a => RCode.parenRun F d false true a hooks) (RCode.generalFunc F d head [.newLine] hooks) nm head hooks)
      (jumpLoop false hooks (fun w (s : Bool × Bool) a =>
          let k := w.heap.kind (some a)
          if s.1 = false ∧ k ≠ .raw ∧ k ≠ .parenL then some (w, s, .cont)
          else
            let isMethod := if s.1 = false then decide (k = .parenL) else s.2
            if isMethod then toJump (parenRun d false true w (some a) hooks) (true, false)
            else if k = .newLine then some (w, (true, false), .stop)
            else toJump (generalFunc d w head [.newLine] hooks) (true, false))
          w (nm, false) head) := by
  unfold RCode.funcBody
  refine ref_jumpLoop (fun w s a => ?_) _ _
  obtain ⟨s1, s2⟩ := s
  cases s1 with
  | false =>
    simp only [if_true]
    refine Ref.det (Ref.det (ref_kind _) (Ref.pure _)) ?_
    by_cases hr : w.heap.kind (some a) = .raw
    · simp [hr]
      refine Ref.det (ref_kind _) ?_
      simp only [hr, reduceCtorEq, if_false]
      exact ref_toJump (A.general _ _ _ _) _
    · by_cases hp : w.heap.kind (some a) = .parenL
      · simp [hp]
        exact ref_toJump (A.paren _ _ _ _ _) _
      · simp [hr, hp]
        exact Ref.pure _
  | true =>
    cases s2 with
    | true =>
      simp
      exact Ref.det (Ref.pure _) (ref_toJump (A.paren _ _ _ _ _) _)
    | false =>
      simp
      refine Ref.det (Ref.pure _) (Ref.det (ref_kind _) ?_)
      split
      · exact Ref.pure _
      · exact ref_toJump (A.general _ _ _ _) _

theorem refAll_succ {d : Nat} (A : RefAll F d) : RefAll F (d + 1) where
  paren := by
    intro w skip rcv n hooks
    unfold RCode.parenRun parenRun
    refine Ref.det (ref_debugText n) ?_
    split
    · exact ref_skipNestNext _ _ _ _
    · refine Ref.det (ref_kind _) ?_
      split
      · exact Ref.det (ref_handleHook _ _ _) (ref_next _)
      · refine ref_jumpLoop (fun w s a => ?_) _ _
        refine Ref.det (ref_kind _) ?_
        generalize w.heap.kind (some a) = k
        cases k
        case parenR | comment | comma | parenL | tab | newLine | space => exact Ref.pure _
        all_goals exact ref_toJump (A.param _ _ _ _) _
  param := by
    intro w rcv n hooks
    unfold RCode.parenParam parenParam
    refine Ref.det (ref_debugText n) ?_
    refine Ref.after (ref_validParamCount n) ?_ ?_
    · intro e; simp [e]
    · intro count e
      simp only [e]
      refine ref_jumpLoop (fun w named a => ?_) _ _
      refine Ref.det (ref_kind _) ?_
      generalize w.heap.kind (some a) = k
      cases k
      case squareL => exact ref_toJump (ref_squareRun _ _) _
      case func_ => exact ref_toJump (A.func _ _ _ _) _
      case raw | paramType | paramName =>
        dsimp only
        split
        · exact Ref.det (ref_setKind _ _) (Ref.pure _)
        · split
          · exact Ref.det (ref_setKind _ _) (Ref.pure _)
          · exact Ref.det (ref_setKind _ _) (Ref.pure _)
      all_goals exact Ref.pure _
  func := by
    intro w cfg n hooks
    unfold RCode.funcRun funcRun
    refine Ref.det (ref_debugText n) ?_
    split
    · exact A.parameter _ _ _
    · split
      · exact A.general _ _ _ _
      · refine Ref.after (ref_isTemporaryFunc n) ?_ ?_
        · intro e; simp [e]
        · intro b e
          simp only [e]
          cases b with
          | true => exact A.general _ _ _ _
          | false =>
            simp only [Bool.false_eq_true, if_false]
            by_cases hl : cfg.isFuncKeywordLeading = true
            · simp only [hl, if_true, true_and]
              refine Ref.det (ref_kind _) (Ref.det (ref_handleHook _ _ _) (Ref.det (ref_next _) ?_))
              split
              · exact Ref.pure _
              · exact ref_funcBody A _ _ _
            · simp only [hl, if_false, false_and]
              exact ref_funcBody A _ _ _
  general := by
    intro w n ks hooks
    unfold RCode.generalFunc generalFunc
    refine Ref.det (ref_debugText n) (Ref.det (ref_kind _) ?_)
    have body : ∀ (cs : CharSet Kind) w head, Ref F w _ _ := fun cs w head => ref_jumpLoop (F := F) (consume := false) (hooks := hooks)
      (body := fun (s : Bool × Bool) a => do
        let k ← RCode.kind a
        if cs.contain k then pure (s, if s.2 then .stop else .cont)
        else
          let k ← RCode.kind a
          match k with
          | .comment => pure (s, .cont)
          | .raw =>
            if s.1 = false then do
              RCode.setKind a .funcName
              pure ((true, s.2), .cont)
            else pure (s, .cont)
          | .space =>
            if s.1 = true ∧ s.2 = true then RCode.toJump (RCode.singleReturn F d a hooks) s
            else pure (s, .cont)
          | .parenL => RCode.toJump (RCode.parenRun F d false false a hooks) (s.1, true)
          | .curlyL => RCode.toJump (RCode.curlyRun F a hooks) s
          | .squareL => RCode.toJump (RCode.squareRun F a hooks) (s.1, true)
          | _ => pure (s, .cont))
      (g := fun w (s : Bool × Bool) a =>
        let k := w.heap.kind (some a)
        if cs.contain k then some (w, s, if s.2 then .stop else .cont)
        else match k with
        | .comment => some (w, s, .cont)
        | .raw =>
          if s.1 = false then
            some ({ w with heap := w.heap.setKind (some a) .funcName }, (true, s.2), .cont)
          else some (w, s, .cont)
        | .space =>
          if s.1 = true ∧ s.2 = true then toJump (singleReturn d w (some a) hooks) s
          else some (w, s, .cont)
        | .parenL => toJump (parenRun d false false w (some a) hooks) (s.1, true)
        | .curlyL => toJump (curlyRun w (some a) hooks) s
        | .squareL => toJump (squareRun w (some a) hooks) (s.1, true)
        | _ => some (w, s, .cont)) (w := w) (by
          intro w s a
          refine Ref.det (ref_kind _) ?_
          dsimp only
          split
          · exact Ref.pure _
          · refine Ref.det (ref_kind _) ?_
            generalize w.heap.kind (some a) = k
            cases k
            case raw =>
              dsimp only
              split
              · exact Ref.det (ref_setKind _ _) (Ref.pure _)
              · exact Ref.pure _
            case space =>
              dsimp only
              split
              · exact ref_toJump (A.single _ _ _) _
              · exact Ref.pure _
            case parenL => exact ref_toJump (A.paren _ _ _ _ _) _
            case curlyL => exact ref_toJump (ref_curlyRun _ _) _
            case squareL => exact ref_toJump (ref_squareRun _ _) _
            all_goals exact Ref.pure _) (false, false) head
    by_cases hf : w.heap.kind n = .func_
    · simp only [hf, if_true, decide_true]
      exact Ref.det (Ref.det (ref_handleHook _ _ _) (ref_next _)) (body _ _ _)
    · simp only [hf, if_false, decide_false, Bool.false_eq_true]
      exact Ref.det (Ref.pure _) (body _ _ _)
  parameter := by
    intro w n hooks
    unfold RCode.parameterFunc parameterFunc
    refine Ref.det (ref_debugText n) (Ref.bind (A.general _ _ _ _) ?_ ?_)
    · intro e; simp [e]
    · intro w' x e
      simp only [e]
      refine Ref.det (ref_kind _) ?_
      split
      · exact Ref.det (ref_handleHook _ _ _) (ref_next _)
      · exact Ref.pure _
  single := by
    intro w n hooks
    unfold RCode.singleReturn singleReturn
    refine Ref.det (ref_debugText n) (Ref.det (ref_kind _) ?_)
    split
    · exact Ref.det (ref_handleHook _ _ _) (ref_next _)
    · refine Ref.det (ref_next _) ?_
      refine Ref.bind (ref_findNext _ _ _ _) ?_ ?_
      · intro e; simp [e]
      · intro w' f e
        simp only [e]
        refine Ref.det (ref_kind _) ?_
        have body : ∀ head, Ref F w' (do
            let r ← RCode.iter F (fun (buf : List Ptr) a => do
              RCode.handleHook a hooks
              let k ← RCode.kind a
              match k with
              | .newLine | .space | .curlyL => pure (buf, false)
              | .comment => pure (buf, true)
              | _ => pure (appendUnrepeatable buf [a], true)) [] head
            RCode.run (RCode.deferCombine r.1 .paramType)
            pure r.2) (match iterW (fun ws a =>
              let w := handleHook ws.1 (some a) hooks
              match w.heap.kind (some a) with
              | .newLine | .space | .curlyL => some ((w, ws.2), false)
              | .comment => some ((w, ws.2), true)
              | _ => some ((w, appendUnrepeatable ws.2 [some a]), true)) w' ([] : List Ptr) head with
          | none => none
          | some ((w, buf), ret) =>
            match deferCombine w.heap buf .paramType with
            | none => none
            | some h => some ({ w with heap := h }, ret)) := by
          intro head
          refine Ref.bind (ref_iter (g := fun ws a =>
              let w := handleHook ws.1 (some a) hooks
              match w.heap.kind (some a) with
              | .newLine | .space | .curlyL => some ((w, ws.2), false)
              | .comment => some ((w, ws.2), true)
              | _ => some ((w, appendUnrepeatable ws.2 [some a]), true)) (fun w s a => ?_) _ _) ?_ ?_
          · refine Ref.det (ref_handleHook _ _ _) (Ref.det (ref_kind _) ?_)
            dsimp only
            generalize (handleHook w (some a) hooks).heap.kind (some a) = k
            cases k <;> exact Ref.pure _
          · intro e
            simp only [Option.map_eq_none_iff] at e
            simp only [e]
          · intro w₁ x e
            simp only [Option.map_eq_some_iff, Prod.mk.injEq] at e
            obtain ⟨⟨⟨w₂, buf⟩, ret⟩, hr, rfl, rfl⟩ := e
            simp only [hr]
            refine Ref.bind (ref_deferCombine _ _) ?_ ?_
            · intro e
              simp only [Option.map_eq_none_iff] at e
              simp only [e]
            · intro w₃ y e
              simp only [Option.map_eq_some_iff, Prod.mk.injEq] at e
              obtain ⟨h, hh, rfl, -⟩ := e
              simp only [hh]
              exact Ref.pure _
        generalize w'.heap.kind f = k
        cases k
        case parenL => exact A.paren _ _ _ _ _
        case func_ => exact A.parameter _ _ _
        all_goals exact body _

theorem refAll : ∀ (d : Nat), RefAll F d
  | 0 => by
    constructor <;> intros <;>
      simp only [parenRun, parenParam, funcRun, generalFunc, parameterFunc, singleReturn] <;> exact Ref.failed
  | d + 1 => refAll_succ (refAll d)

theorem ref_get : Ref F w (get : RCode (List Ptr)) (some (w, w.buf)) := by
  intro hF w' x e
  simp only [Option.some.injEq, Prod.mk.injEq] at e
  obtain ⟨rfl, rfl⟩ := e
  exact ⟨rfl, hF⟩

theorem ref_set (b : List Ptr) : Ref F w (set b : RCode PUnit) (some ({ w with buf := b }, ⟨⟩)) := by
  intro hF w' x e
  simp only [Option.some.injEq, Prod.mk.injEq] at e
  obtain ⟨rfl, -⟩ := e
  exact ⟨rfl, hF⟩

theorem ref_paramRun (d : Nat) (n : Ptr) : Ref F w (RCode.paramRun F d n) (paramRun d w n) := by
  unfold RCode.paramRun paramRun
  refine Ref.det (ref_debugText n) (Ref.det ref_get (Ref.det (ref_set _) ?_))
  generalize hj : jumpLoop false [] _ _ _ _ = o
  refine Ref.bind (o := o) ?_ ?_ ?_
  · rw [← hj]
    refine ref_jumpLoop (fun w s a => ?_) _ _
    refine Ref.det (ref_kind _) ?_
    by_cases hk : w.heap.kind (some a) = .newLine
    · simp only [hk, if_true]
      exact Ref.pure _
    · simp only [hk, if_false]
      refine Ref.det (ref_kind _) ?_
      generalize w.heap.kind (some a) = k at hk
      cases k
      case newLine => exact absurd rfl hk
      case parenL => exact ref_toJump ((refAll d).paren _ _ _ _ _) _
      case curlyL => exact ref_toJump (ref_curlyRun _ _) _
      case squareL => exact ref_toJump (ref_squareRun _ _) _
      case func_ => exact ref_toJump ((refAll d).func _ _ _ _) _
      case comment => exact Ref.pure _
      all_goals exact Ref.det (ref_runHook _ _) (Ref.pure _)
  · intro e; simp only [e]
  · intro w' x e
    simp only [e]
    refine Ref.det ref_get (Ref.bind (ref_deferCombine _ _) ?_ ?_)
    · intro e
      simp only [Option.map_eq_none_iff] at e
      simp only [e]
    · intro w₃ y e
      simp only [Option.map_eq_some_iff, Prod.mk.injEq] at e
      obtain ⟨h, hh, rfl, -⟩ := e
      simp only [hh]
      exact Ref.det (ref_set _) (Ref.pure _)

theorem ref_interfaceRun (d : Nat) (n : Ptr) : Ref F w (RCode.interfaceRun F d n) (interfaceRun d w n) := by
  unfold RCode.interfaceRun interfaceRun
  refine Ref.det (ref_debugText n) (Ref.bind (ref_findNext _ _ _ _) ?_ ?_)
  · intro e; simp only [e]
  · intro w' head e
    simp only [e]
    refine ref_jumpLoop (fun w s a => ?_) _ _
    refine Ref.det (ref_kind _) ?_
    have rest : ∀ k, w.heap.kind (some a) = k → Ref F w (do
        let b ← RCode.isThisLineFunction F (some a)
        if b then RCode.toJump (RCode.funcRun F d { isInterfaceDefinition := true } (some a) []) ()
        else
          let k ← RCode.kind (some a)
          if k = .raw then RCode.setKind (some a) .typeName
          RCode.toJump (RCode.findNext F (some a) [.newLine, .curlyR]
            { isOutsideParenthesis := true, isOutsideCurlyBracket := true, isOutsideSquareBracket := true } []) ())
        (match isThisLineFunction w (some a) with
        | none => none
        | some true => toJump (funcRun d { isInterfaceDefinition := true } w (some a) []) ()
        | some false =>
          let w := if k = .raw then { w with heap := w.heap.setKind (some a) .typeName } else w
          toJump (findNext w (some a) [.newLine, .curlyR]
            { isOutsideParenthesis := true, isOutsideCurlyBracket := true, isOutsideSquareBracket := true } []) ()) := by
      intro k hk
      refine Ref.after (ref_isThisLineFunction _) ?_ ?_
      · intro e; simp only [e]
      · intro b e
        simp only [e]
        cases b with
        | true => exact ref_toJump ((refAll d).func _ _ _ _) _
        | false =>
          simp only [Bool.false_eq_true, if_false]
          refine Ref.det (ref_kind _) ?_
          rw [hk]
          by_cases hr : k = .raw
          · simp only [hr, if_true]
            exact Ref.det (ref_setKind _ _) (ref_toJump (ref_findNext _ _ _ _) _)
          · simp only [hr, if_false]
            exact ref_toJump (ref_findNext _ _ _ _) _
    generalize hk : w.heap.kind (some a) = k
    have := rest k hk
    cases k
    case curlyR | tab | comment | newLine | space | curlyL => exact Ref.pure _
    all_goals exact this

theorem ref_structRow (d : Nat) (n : Ptr) : Ref F w (RCode.structRow F d n) (structRow d w n) := by
  unfold RCode.structRow structRow
  refine Ref.det (ref_debugText n) (Ref.after (ref_getRowNameCount _) ?_ ?_)
  · intro e; simp only [e]
  · intro count e
    simp only [e]
    refine ref_jumpLoop (fun w s a => ?_) _ _
    refine Ref.det (ref_kind _) ?_
    generalize w.heap.kind (some a) = k
    cases k
    case raw =>
      dsimp only
      split <;> exact Ref.det (ref_setKind _ _) (Ref.pure _)
    case func_ => exact ref_toJump ((refAll d).func _ _ _ _) _
    all_goals exact Ref.pure _

theorem ref_structRun (d : Nat) (n : Ptr) : Ref F w (RCode.structRun F d n) (structRun d w n) := by
  unfold RCode.structRun structRun
  refine Ref.det (ref_debugText n) (Ref.bind (ref_findNext _ _ _ _) ?_ ?_)
  · intro e; simp only [e]
  · intro w' f e
    simp only [e]
    refine Ref.det (ref_next _) (ref_jumpLoop (fun w s a => ?_) _ _)
    refine Ref.det (ref_kind _) ?_
    generalize w.heap.kind (some a) = k
    cases k
    case curlyR | comment | curlyL | newLine => exact Ref.pure _
    all_goals exact ref_toJump (ref_structRow _ _) _

theorem ref_typeRun (d : Nat) (n : Ptr) : Ref F w (RCode.typeRun F d n) (typeRun d w n) := by
  unfold RCode.typeRun typeRun
  refine Ref.det (ref_debugText n) (Ref.det (ref_kind _) ?_)
  split
  · exact ref_next _
  · refine ref_jumpLoop (fun w s a => ?_) _ _
    refine Ref.det (ref_kind _) ?_
    dsimp only
    generalize w.heap.kind (some a) = k
    split
    · cases k
      case raw => exact Ref.det (ref_setKind _ _) (Ref.pure _)
      all_goals exact Ref.pure _
    · split
      · cases k
        case squareL => exact ref_toJump (ref_squareRun _ _) _
        all_goals exact Ref.pure _
      · cases k
        case interface_ => exact ref_toJump (ref_interfaceRun _ _) _
        case struct_ => exact ref_toJump (ref_structRun _ _) _
        case func_ => exact ref_toJump ((refAll d).func _ _ _ _) _
        case raw => exact ref_toJump (ref_paramRun _ _) _
        case squareL => exact ref_toJump (ref_squareRun _ _) _
        all_goals exact Ref.pure _

theorem execT_resetKind {h h' : Heap} {n r : Ptr} (hF : h.size + 1 = F) (e : resetKind h n = some (h', r)) :
    ∃ b, (RCode.resetKind F (8 * F) n []).execT h = some (h', ((), b)) ∧ h'.size + 1 = F := by
  unfold resetKind at e
  have key : ∀ {p : RCode Ptr} {o : Option (World × Ptr)}, Ref F ⟨h, []⟩ p o → o.map (fun r => (r.1.heap, r.2)) = some (h', r) →
      ∃ b, ((do let _ ← p; pure () : RCode Unit) []).execT h = some (h', ((), b)) ∧ h'.size + 1 = F := by
    intro p o hp ho
    simp only [Option.map_eq_some_iff, Prod.mk.injEq] at ho
    obtain ⟨⟨w', x⟩, hr, rfl, rfl⟩ := ho
    obtain ⟨h1, h2⟩ := hp hF w' x hr
    refine ⟨w'.buf, ?_, h2⟩
    show (p [] >>= fun r => pure ((), r.2)).execT h = _
    rw [execT_bind, h1]
    rfl
  have red : (RCode.resetKind F (8 * F) n []).execT h = ((match h.kind n with
      | .func_ => do let _ ← RCode.funcRun F (8 * F) { isFuncKeywordLeading := true } n []
      | .type_ => do let _ ← RCode.typeRun F (8 * F) n
      | _ => pure () : RCode Unit) []).execT h := by
    show ((RCode.kind n) [] >>= fun r => _).execT h = _
    simp only [RCode.kind, RCode.run, execT_bind, execT_kind, Option.bind_some, execT_pure]
    rfl
  rw [red]
  have hd : resetDepth h = 8 * F := by rw [← hF]; rfl
  rw [hd] at e
  generalize h.kind n = k at e
  cases k
  case func_ => exact key ((refAll _).func _ _ _ _) e
  case type_ => exact key (ref_typeRun _ _) e
  all_goals
    simp only [Option.some.injEq, Prod.mk.injEq] at e
    obtain ⟨rfl, -⟩ := e
    exact ⟨[], rfl, hF⟩

theorem execT_resetAll : ∀ (scs : List ScopeRec) {h h' : Heap}, h.size + 1 = F → resetAll h scs = some h' →
    (Code.resetAll F (8 * F) scs).execT h = some (h', ()) ∧ h'.size + 1 = F
  | [], h, h', hF, e => by
    simp only [resetAll, Option.some.injEq] at e
    rw [← e]
    exact ⟨rfl, hF⟩
  | sc :: scs, h, h', hF, e => by
    unfold resetAll at e
    cases hr : resetKind h sc.node with
    | none => rw [hr] at e; simp at e
    | some r =>
      obtain ⟨h₁, r⟩ := r
      rw [hr] at e
      obtain ⟨b, h1, h2⟩ := execT_resetKind hF hr
      obtain ⟨h3, h4⟩ := execT_resetAll scs h2 e
      refine ⟨?_, h4⟩
      unfold Code.resetAll
      rw [execT_bind, h1]
      exact h3

/-! ## scope.go -/

/-- The variables of `ParseScope` besides the nodes. -/
def ParseSt.vars (s : ParseSt) : Code.ParseVars := { scs := s.scs, head := s.head, k := s.k, line := s.line }

theorem execT_tryAppendScope (s : ParseSt) :
    (Code.tryAppendScope s.vars).execT s.heap = some ((tryAppendScope s).heap, (tryAppendScope s).vars) := by
  obtain ⟨h, scs, head, k, line⟩ := s
  simp only [Code.tryAppendScope, tryAppendScope, ParseSt.vars]
  by_cases hk : k = .unknown
  · simp only [hk, ne_eq, not_true_eq_false, if_false, execT_bind, execT_pure, Option.bind_some, execT_prev]
    by_cases hp : h.prev head = none <;> simp [hp, execT_bind, execT_removePrev, execT_pure]
  · simp only [hk, ne_eq, not_false_eq_true, if_true, execT_bind, execT_line, execT_pure, Option.bind_some, execT_prev]
    by_cases hp : h.prev head = none <;> simp [hp, execT_bind, execT_removePrev, execT_pure]

theorem size_tryAppendScope (s : ParseSt) : (tryAppendScope s).heap.size = s.heap.size := by
  unfold tryAppendScope
  dsimp only
  split <;> split <;> simp [Heap.removePrev]

theorem execT_parseStep (s : ParseSt) (a : Nat) {s' : ParseSt} {go : Bool} (e : parseStep s a = some (s', go)) :
    (Code.parseStep s.vars (some a)).execT s.heap = some (s'.heap, (s'.vars, go)) ∧ s'.heap.size = s.heap.size := by
  unfold parseStep at e
  unfold Code.parseStep
  simp only [execT_bind, execT_line, Option.bind_some]
  have hl : s.vars.line = s.line := rfl
  rw [hl]
  by_cases h1 : s.heap.line (some a) = s.line
  · simp only [h1, if_true, Option.some.injEq, Prod.mk.injEq] at e
    obtain ⟨rfl, rfl⟩ := e
    simp only [h1, if_true, and_true]
    rfl
  · simp only [h1, if_false] at e ⊢
    simp only [execT_bind, execT_line, execT_text, Option.bind_some]
    by_cases h2 : newScopeKind (s.heap.text (some a)) = .unknown
    · simp only [h2, if_true, Option.some.injEq, Prod.mk.injEq] at e
      obtain ⟨rfl, rfl⟩ := e
      simp only [h2, if_true, and_true]
      rfl
    · simp only [h2, if_false, Option.some.injEq, Prod.mk.injEq] at e
      obtain ⟨rfl, rfl⟩ := e
      simp only [h2, if_false]
      refine ⟨?_, size_tryAppendScope _⟩
      simp only [execT_bind]
      have := execT_tryAppendScope { s with line := s.heap.line (some a) }
      simp only [ParseSt.vars] at this ⊢
      rw [this]
      rfl

theorem execT_split (fuel : Nat) : ∀ (s : ParseSt) (n : Ptr) {s' : ParseSt} {p : Ptr},
    loop (fun s a => s.heap.next (some a)) parseStep fuel s n = some (s', p) →
    (Code.iterNext fuel Code.parseStep s.vars n).execT s.heap = some (s'.heap, (s'.vars, p)) ∧ s'.heap.size = s.heap.size := by
  induction fuel with
  | zero =>
    intro s n s' p e
    cases n with
    | none =>
      simp only [loop, Option.some.injEq, Prod.mk.injEq] at e
      obtain ⟨rfl, rfl⟩ := e
      exact ⟨rfl, rfl⟩
    | some a => simp [loop] at e
  | succ fuel ih =>
    intro s n s' p e
    cases n with
    | none =>
      simp only [loop, Option.some.injEq, Prod.mk.injEq] at e
      obtain ⟨rfl, rfl⟩ := e
      exact ⟨rfl, rfl⟩
    | some a =>
      simp only [loop] at e
      cases hg : parseStep s a with
      | none => rw [hg] at e; simp at e
      | some r =>
        obtain ⟨s₁, go⟩ := r
        obtain ⟨h1, h2⟩ := execT_parseStep s a hg
        rw [hg] at e
        cases go with
        | false =>
          simp only [Option.some.injEq, Prod.mk.injEq] at e
          obtain ⟨rfl, rfl⟩ := e
          refine ⟨?_, h2⟩
          simp only [Code.iterNext, Code.loop, execT_bind, h1, Option.bind_some, execT_pure]
          rfl
        | true =>
          obtain ⟨h3, h4⟩ := ih s₁ _ e
          refine ⟨?_, by rw [h4, h2]⟩
          simp only [Code.iterNext, Code.loop, execT_bind, h1, Option.bind_some, execT_pure, if_true, execT_next]
          exact h3

/-! ## extractor.go -/

theorem execT_last {h : Heap} {n r : Ptr} (hF : h.size + 1 ≤ F) (e : h.last n = some r) : (Code.last F n).execT h = some (h, r) := by
  have main : ∀ (fuel F : Nat) (n p : Ptr), fuel ≤ F →
      loop (fun _ a => h.next (some a)) (fun () a => some ((), decide (h.next (some a) ≠ none))) fuel () n = some ((), p) →
      (Code.iterNext F (fun () a => do let p ← Code.next a; pure ((), decide (p ≠ none))) () n).execT h = some (h, ((), p)) := by
    intro fuel
    induction fuel with
    | zero =>
      intro F n p _ e
      cases n with
      | none =>
        simp only [loop, Option.some.injEq, Prod.mk.injEq] at e
        obtain ⟨-, rfl⟩ := e
        cases F <;> rfl
      | some a => simp [loop] at e
    | succ fuel ih =>
      intro F n p hF e
      cases n with
      | none =>
        simp only [loop, Option.some.injEq, Prod.mk.injEq] at e
        obtain ⟨-, rfl⟩ := e
        cases F <;> rfl
      | some a =>
        obtain ⟨F, rfl⟩ : ∃ k, F = k + 1 := ⟨F - 1, by omega⟩
        simp only [loop] at e
        simp only [Code.iterNext, Code.loop, execT_bind, execT_next, Option.bind_some, execT_pure]
        cases hn : h.next (some a) with
        | none =>
          simp only [hn, ne_eq, not_true_eq_false, decide_false, Option.some.injEq, Prod.mk.injEq] at e
          obtain ⟨-, rfl⟩ := e
          simp [execT_pure]
        | some b =>
          simp only [hn, ne_eq, reduceCtorEq, not_false_eq_true, decide_true] at e
          simp only [ne_eq, reduceCtorEq, not_false_eq_true, decide_true, if_true, execT_bind, execT_next, Option.bind_some, hn]
          exact ih F (some b) p (by omega) e
  unfold Heap.last Heap.iterNext at e
  simp only [Option.map_eq_some_iff] at e
  obtain ⟨⟨u, p⟩, hr, rfl⟩ := e
  have := main _ F n p hF hr
  unfold Code.last
  rw [execT_bind, this]
  rfl

theorem size_insertNode {s s' : Shared} {l l' : Local} {n : Ptr} (e : insertNode s l n = some (s', l')) : s'.heap.size = s.heap.size := by
  unfold insertNode at e
  cases n with
  | none =>
    simp only [Option.some.injEq, Prod.mk.injEq] at e
    rw [← e.1]
  | some a =>
    dsimp only at e
    split at e
    · simp at e
    · simp only [Option.some.injEq, Prod.mk.injEq] at e
      rw [← e.1]
      dsimp only
      split
      · exact Heap.size_replaceNext' _ _ _
      · rfl

/-- What the nested `Run` calls share besides the nodes. -/
def Shared.cursor (s : Shared) : Code.Cursor := { buf := s.buf, i := s.i, line := s.line }

theorem execT_insertNode {s s' : Shared} {l l' : Local} {n : Ptr} (hF : s'.heap.size + 1 ≤ F) (e : insertNode s l n = some (s', l')) :
    (Code.insertNode F l n).execT s.heap = some (s'.heap, l') ∧ s'.cursor = s.cursor := by
  have hs := size_insertNode e
  unfold insertNode at e
  unfold Code.insertNode
  cases n with
  | none =>
    simp only [Option.some.injEq, Prod.mk.injEq] at e
    obtain ⟨rfl, rfl⟩ := e
    exact ⟨rfl, rfl⟩
  | some a =>
    dsimp only at e
    split at e
    · simp at e
    · rename_i cur hc
      simp only [Option.some.injEq, Prod.mk.injEq] at e
      obtain ⟨rfl, rfl⟩ := e
      refine ⟨?_, rfl⟩
      simp only [reduceCtorEq, if_false]
      dsimp only at hF ⊢
      by_cases hcur : l.cur = none
      · simp only [hcur, ne_eq, not_true_eq_false, if_false] at hc hF ⊢
        rw [execT_bind, execT_last hF hc]
        rfl
      · simp only [hcur, ne_eq, not_false_eq_true, if_true] at hc hF ⊢
        rw [execT_bind, execT_replaceNext, Option.bind_some, execT_bind, execT_last hF hc]
        rfl

theorem size_newNode' (h : Heap) (l : Int) (t : Bytes) (ks : List Kind) : (h.newNode l t ks).1.size = h.size + 1 := by
  cases ks <;> simp [Heap.newNode, Heap.alloc, Heap.size]

theorem size_pushNode {s s' : Shared} {l l' : Local} {b : Bool} {ks : List Kind} (e : pushNode s l b ks = some (s', l')) :
    s.heap.size ≤ s'.heap.size := by
  unfold pushNode at e
  split at e
  · simp only [Option.some.injEq, Prod.mk.injEq] at e
    rw [← e.1]; omega
  · dsimp only at e
    split at e
    · simp at e
    · rename_i hi
      simp only [Option.some.injEq, Prod.mk.injEq] at e
      rw [← e.1]
      have := size_insertNode hi
      simp only [size_newNode'] at this
      dsimp only
      omega

theorem execT_pushNode {s s' : Shared} {l l' : Local} {b : Bool} {ks : List Kind} (hF : s'.heap.size + 1 ≤ F)
    (e : pushNode s l b ks = some (s', l')) : (Code.pushNode F s.cursor l b ks).execT s.heap = some (s'.heap, (s'.cursor, l')) := by
  unfold pushNode at e
  unfold Code.pushNode
  have h0 : s.cursor.buf = s.buf := rfl
  rw [h0]
  split at e
  · rename_i hb
    simp only [Option.some.injEq, Prod.mk.injEq] at e
    obtain ⟨rfl, rfl⟩ := e
    simp only [hb, if_true]
    rfl
  · rename_i hb
    dsimp only at e
    split at e
    · simp at e
    · rename_i s₁ l₁ hi
      simp only [Option.some.injEq, Prod.mk.injEq] at e
      obtain ⟨rfl, rfl⟩ := e
      obtain ⟨h1, h2⟩ := execT_insertNode (F := F) (s' := s₁) hF hi
      simp only [hb, if_false]
      rw [execT_bind, execT_newNode, Option.bind_some, execT_bind]
      dsimp only at h1
      have h3 : s.cursor.line = s.line := rfl
      rw [h3, h1]
      have h4 : s₁.line = s.line := congrArg Code.Cursor.line h2
      have h5 : s₁.i = s.i := congrArg Code.Cursor.i h2
      simp [execT_pure, Shared.cursor, h4, h5]

theorem execT_newInsert {s s' : Shared} {l l' : Local} {ln : Int} {t : Bytes} (hF : s'.heap.size + 1 ≤ F)
    (e : insertNode { s with heap := (s.heap.newNode ln t).1 } l (some (s.heap.newNode ln t).2) = some (s', l')) :
    (do let n ← Code.newNode ln t; let l ← Code.insertNode F l n; pure (s.cursor, l) : Code (Code.Cursor × Local)).execT s.heap =
      some (s'.heap, (s'.cursor, l')) ∧ s.heap.size ≤ s'.heap.size := by
  obtain ⟨h1, h2⟩ := execT_insertNode (F := F) hF e
  have := size_insertNode e
  simp only [size_newNode'] at this
  refine ⟨?_, by omega⟩
  rw [execT_bind, execT_newNode, Option.bind_some, execT_bind]
  dsimp only at h1
  rw [h1, h2]
  rfl

theorem cursor_lineStep (c : UInt8) (s : Shared) : (lineStep c s).cursor = Code.lineStep c s.cursor := by
  unfold lineStep Code.lineStep
  split <;> rfl

theorem heap_lineStep (c : UInt8) (s : Shared) : (lineStep c s).heap = s.heap := by
  unfold lineStep
  split <;> rfl

theorem size_newInsert {s s' : Shared} {l l' : Local} {ln : Int} {t : Bytes}
    (e : insertNode { s with heap := (s.heap.newNode ln t).1 } l (some (s.heap.newNode ln t).2) = some (s', l')) : s.heap.size ≤ s'.heap.size := by
  have := size_insertNode e
  simp only [size_newNode'] at this
  omega

theorem size_runLoop (ord : Nat → List (Bytes × Ext)) (text : Bytes) : ∀ (fuel : Nat) (e : Ext) (s : Shared) (l : Local) {s' : Shared} {p : Ptr},
    runLoop ord text fuel e s l = some (s', p) → s.heap.size ≤ s'.heap.size
  | 0, e, s, l, s', p, h => by simp [runLoop] at h
  | fuel + 1, e, s, l, s', p, h => by
    unfold runLoop at h
    split at h
    · split at h
      · simp at h
      · rename_i hp
        simp only [Option.some.injEq, Prod.mk.injEq] at h
        rw [← h.1]
        exact size_pushNode hp
    · split at h
      · split at h
        · simp at h
        · rename_i s₁ l₁ hp
          have i1 := size_pushNode hp
          split at h
          · simp at h
          · rename_i s₂ l₂ h2
            have i2 : s₁.heap.size ≤ s₂.heap.size := by
              split at h2
              · simp only [Option.some.injEq, Prod.mk.injEq] at h2
                rw [← h2.1]; exact Nat.le_refl _
              · exact size_newInsert h2
            dsimp only at h
            split at h
            · simp at h
            · rename_i s₃ ns h3
              have i3 := size_runLoop ord text fuel _ _ _ h3
              split at h
              · simp at h
              · rename_i s₄ l₄ h4
                have i4 := size_insertNode h4
                have i5 := size_runLoop ord text fuel _ _ _ h
                dsimp only at i3 i5
                omega
      · dsimp only at h
        split at h
        · have := size_runLoop ord text fuel _ _ _ h
          simpa [heap_lineStep] using this
        · split at h
          · split at h
            · simp at h
            · rename_i s₁ l₁ h1
              simp only [Option.some.injEq, Prod.mk.injEq] at h
              rw [← h.1, heap_lineStep]
              split at h1
              · have := size_pushNode h1
                exact this
              · split at h1
                · simp at h1
                · rename_i hp
                  exact Nat.le_trans (size_pushNode hp) (size_newInsert h1)
          · split at h
            · simp at h
            · rename_i s₁ l₁ h1
              have i2 := size_runLoop ord text fuel _ _ _ h
              simp only [heap_lineStep] at i2
              refine Nat.le_trans ?_ i2
              split at h1
              · split at h1
                · simp at h1
                · rename_i hp
                  exact Nat.le_trans (size_pushNode hp) (size_newInsert h1)
              · simp only [Option.some.injEq, Prod.mk.injEq] at h1
                rw [← h1.1]; exact Nat.le_refl _

theorem execT_runLoop (ord : Nat → List (Bytes × Ext)) (text : Bytes) : ∀ (fuel : Nat) (e : Ext) (s : Shared) (l : Local) {s' : Shared} {p : Ptr},
    s'.heap.size + 1 ≤ F → runLoop ord text fuel e s l = some (s', p) →
    (Code.runLoop ord text F fuel e s.cursor l).execT s.heap = some (s'.heap, (s'.cursor, p))
  | 0, e, s, l, s', p, _, h => by simp [runLoop] at h
  | fuel + 1, e, s, l, s', p, hF, h => by
    unfold runLoop at h
    unfold Code.runLoop
    have hi : s.cursor.i = s.i := rfl
    rw [hi]
    split at h
    · rename_i ht
      simp only [ht]
      split at h
      · simp at h
      · rename_i hp
        simp only [Option.some.injEq, Prod.mk.injEq] at h
        obtain ⟨rfl, rfl⟩ := h
        rw [execT_bind, execT_pushNode hF hp]
        rfl
    · rename_i char ht
      simp only [ht]
      split at h
      · rename_i ee hee
        simp only [hee]
        split at h
        · simp at h
        · rename_i s₁ l₁ hp
          split at h
          · simp at h
          · rename_i s₂ l₂ h2
            dsimp only at h
            split at h
            · simp at h
            · rename_i s₃ ns h3
              have i3 := size_runLoop ord text fuel _ _ _ h3
              split at h
              · simp at h
              · rename_i s₄ l₄ h4
                have i4 := size_insertNode h4
                have i5 := size_runLoop ord text fuel _ _ _ h
                dsimp only at i3 i5
                have i2 : s₁.heap.size ≤ s₂.heap.size := by
                  split at h2
                  · simp only [Option.some.injEq, Prod.mk.injEq] at h2
                    rw [← h2.1]; exact Nat.le_refl _
                  · exact size_newInsert h2
                rw [execT_bind, execT_pushNode (by omega) hp, Option.bind_some, execT_bind]
                have e2 : (if ee.includeOpen = true then pure ({ s₁.cursor with buf := s₁.cursor.buf ++ [char] }, l₁)
                    else do
                      let n ← Code.newNode l₁.bufLine (byteToString char)
                      let l ← Code.insertNode F l₁ n
                      pure (s₁.cursor, l) : Code (Code.Cursor × Local)).execT s₁.heap = some (s₂.heap, (s₂.cursor, l₂)) := by
                  split at h2
                  · rename_i ho
                    simp only [Option.some.injEq, Prod.mk.injEq] at h2
                    obtain ⟨rfl, rfl⟩ := h2
                    simp only [ho, if_true]
                    rfl
                  · rename_i ho
                    simp only [ho, if_false]
                    exact (execT_newInsert (by omega) h2).1
                dsimp only
                rw [e2, Option.bind_some, execT_bind]
                have e3 := execT_runLoop ord text fuel _ _ _ (s' := s₃) (by omega) h3
                simp only [Shared.cursor] at e3 ⊢
                rw [e3, Option.bind_some, execT_bind]
                obtain ⟨e4, c4⟩ := execT_insertNode (F := F) (by omega) h4
                dsimp only
                rw [e4, Option.bind_some]
                have e5 := execT_runLoop ord text fuel _ _ _ hF h
                simp only [Shared.cursor, Code.Cursor.mk.injEq] at e5 c4 ⊢
                rw [← c4.1, ← c4.2.1, ← c4.2.2]
                exact e5
      · rename_i hee
        simp only [hee]
        dsimp only at h
        split at h
        · rename_i hc
          simp only [hc, if_true]
          have := execT_runLoop ord text fuel _ _ _ hF h
          simp only [heap_lineStep] at this
          rw [← this]
          congr 2
          have c := cursor_lineStep char { s with buf := s.buf ++ [char] }
          simp only [Shared.cursor] at c ⊢
          rw [← c]
        · rename_i hc
          simp only [hc, if_false, Bool.false_eq_true]
          split at h
          · rename_i hc2
            simp only [hc2, if_true]
            split at h
            · simp at h
            · rename_i s₁ l₁ h1
              simp only [Option.some.injEq, Prod.mk.injEq] at h
              obtain ⟨rfl, rfl⟩ := h
              rw [heap_lineStep] at hF
              rw [execT_bind, heap_lineStep, cursor_lineStep]
              have e1 : (if e.includeClose then Code.pushNode F { buf := s.cursor.buf ++ [char], i := s.i, line := s.cursor.line } l false e.kinds
                  else do
                    let r ← Code.pushNode F s.cursor l true e.kinds
                    let n ← Code.newNode r.1.line (byteToString char)
                    let l ← Code.insertNode F r.2 n
                    pure (r.1, l)).execT s.heap = some (s₁.heap, (s₁.cursor, l₁)) := by
                split at h1
                · rename_i hcl
                  simp only [hcl, if_true]
                  exact execT_pushNode hF h1
                · rename_i hcl
                  simp only [hcl, if_false, Bool.false_eq_true]
                  split at h1
                  · simp at h1
                  · rename_i s₂ l₂ hp
                    have := size_newInsert h1
                    rw [execT_bind, execT_pushNode (by omega) hp, Option.bind_some]
                    exact (execT_newInsert hF h1).1
              rw [e1]
              rfl
          · rename_i hc2
            simp only [hc2, if_false, Bool.false_eq_true]
            split at h
            · simp at h
            · rename_i s₁ l₁ h1
              have i2 := size_runLoop ord text fuel _ _ _ h
              simp only [heap_lineStep] at i2
              rw [execT_bind]
              have e1 : (if e.separators.contain char then do
                    let r ← Code.pushNode F s.cursor l true []
                    let n ← Code.newNode r.1.line (byteToString char)
                    let l ← Code.insertNode F r.2 n
                    pure (r.1, l)
                  else pure ({ buf := s.cursor.buf ++ [char], i := s.i, line := s.cursor.line }, l) : Code (Code.Cursor × Local)).execT s.heap =
                    some (s₁.heap, (s₁.cursor, l₁)) := by
                split at h1
                · rename_i hcl
                  simp only [hcl, if_true]
                  split at h1
                  · simp at h1
                  · rename_i s₂ l₂ hp
                    have := size_newInsert h1
                    rw [execT_bind, execT_pushNode (by omega) hp, Option.bind_some]
                    exact (execT_newInsert (by omega) h1).1
                · rename_i hcl
                  simp only [Option.some.injEq, Prod.mk.injEq] at h1
                  obtain ⟨rfl, rfl⟩ := h1
                  simp only [hcl, if_false, Bool.false_eq_true]
                  rfl
              rw [e1, Option.bind_some]
              have := execT_runLoop ord text fuel _ _ _ hF h
              simp only [heap_lineStep] at this
              rw [← this]
              have c := cursor_lineStep char s₁
              simp only [Shared.cursor] at c ⊢
              rw [← c]

theorem execT_parseScope {ord : Nat → List (Bytes × Ext)} {h h' : Heap} {sl : Int} {text : Bytes} {scs : List ScopeRec}
    (e : parseScopeOrd ord h sl text = some (h', scs)) : (Code.parseScope ord (h'.size + 1) sl text).execT h = some (h', scs) := by
  unfold parseScopeOrd at e
  cases hx : extractOrd ord h text with
  | none => rw [hx] at e; simp at e
  | some r =>
    obtain ⟨h₁, node⟩ := r
    rw [hx] at e
    dsimp only at e
    cases hs : splitScopes h₁ sl node with
    | none => rw [hs] at e; simp at e
    | some s =>
      rw [hs] at e
      dsimp only at e
      cases hr : resetAll s.heap s.scs with
      | none => rw [hr] at e; simp at e
      | some h₂ =>
        rw [hr] at e
        simp only [Option.some.injEq, Prod.mk.injEq] at e
        obtain ⟨rfl, rfl⟩ := e
        unfold splitScopes at hs
        simp only [Option.map_eq_some_iff] at hs
        obtain ⟨⟨s₁, p⟩, hl, rfl⟩ := hs
        obtain ⟨e1, i1⟩ := execT_split _ _ _ hl
        dsimp only at i1 hr
        obtain ⟨e2, i2⟩ := execT_resetAll _ rfl hr
        have i3 : h₁.size + 1 = h₂.size + 1 := by rw [i2, size_tryAppendScope, i1]
        unfold Code.parseScope
        have e0 : (Code.extract ord (h₂.size + 1) text).execT h = some (h₁, node) := by
          unfold extractOrd run at hx
          simp only [Option.map_eq_some_iff, Prod.mk.injEq] at hx
          obtain ⟨⟨s', p⟩, hrun, rfl, rfl⟩ := hx
          have := execT_runLoop (F := h₂.size + 1) ord text _ _ _ _ (by dsimp only at i3; omega) hrun
          unfold Code.extract
          rw [execT_bind]
          simp only [Shared.cursor] at this
          rw [this]
          rfl
        rw [execT_bind, e0, Option.bind_some, execT_bind]
        simp only [ParseSt.vars] at e1
        rw [i3] at e1
        dsimp only
        rw [e1, Option.bind_some, execT_bind]
        have e3 := execT_tryAppendScope s₁
        simp only [ParseSt.vars] at e3
        dsimp only
        rw [e3, Option.bind_some, execT_bind]
        rw [← i2] at e2
        dsimp only
        rw [e2]
        rfl

end Goast
