import Verif.Proofs.Above

/-!
# Following a resetter's loop from its result
-/

set_option linter.unusedSimpArgs false
set_option linter.unusedVariables false

namespace Goast
open Heap

/-- The loop, started with some fuel, ended like this. -/
def Runs {ω : Type} (iter : ω → Addr → Ptr) (fn : ω → Addr → Option (ω × Bool)) (w : ω) (p : Ptr) (w' : ω) (r : Ptr) : Prop :=
  ∃ fuel, loop iter fn fuel w p = some (w', r)

section
variable {ω : Type} {iter : ω → Addr → Ptr} {fn : ω → Addr → Option (ω × Bool)} {w w' w1 : ω} {p r : Ptr} {a : Addr}

theorem Runs.end_ (h : Runs iter fn w none w' r) : w' = w ∧ r = none := by
  obtain ⟨fuel, e⟩ := h
  cases fuel <;> (simp [loop] at e; exact ⟨e.1.symm, e.2.symm⟩)

theorem Runs.step (h : Runs iter fn w (some a) w' r) :
    ∃ w1 b, fn w a = some (w1, b) ∧ (b = true → Runs iter fn w1 (iter w1 a) w' r) ∧ (b = false → w' = w1 ∧ r = some a) := by
  obtain ⟨fuel, e⟩ := h
  cases fuel with
  | zero => simp [loop] at e
  | succ fuel =>
    rw [loop] at e
    split at e
    · cases e
    · rename_i w1 hf
      exact ⟨w1, true, hf, fun _ => ⟨fuel, e⟩, by simp⟩
    · rename_i w1 hf
      cases e
      exact ⟨_, false, hf, by simp, fun _ => ⟨rfl, rfl⟩⟩

theorem Runs.cont (h : Runs iter fn w (some a) w' r) (e : fn w a = some (w1, true)) : Runs iter fn w1 (iter w1 a) w' r := by
  obtain ⟨w2, b, e2, h1, h2⟩ := h.step
  rw [e] at e2; cases e2
  exact h1 rfl

theorem Runs.stop (h : Runs iter fn w (some a) w' r) (e : fn w a = some (w1, false)) : w' = w1 ∧ r = some a := by
  obtain ⟨w2, b, e2, h1, h2⟩ := h.step
  rw [e] at e2; cases e2
  exact h2 rfl

theorem loop_mono : ∀ (n m : Nat) (w : ω) (p : Ptr) (x : ω × Ptr), loop iter fn n w p = some x → n ≤ m →
    loop iter fn m w p = some x
  | 0, m, w, none, x, h, _ => by cases m <;> exact h
  | n + 1, m, w, none, x, h, _ => by cases m <;> exact h
  | 0, m, w, some a, x, h, _ => by simp [loop] at h
  | n + 1, 0, w, some a, x, h, hm => by omega
  | n + 1, m + 1, w, some a, x, h, hm => by
    rw [loop] at h
    rw [loop]
    rcases hf : fn w a with _ | ⟨w1, _ | _⟩
    · simp [hf] at h
    · simpa [hf] using h
    · simp only [hf] at h ⊢
      exact loop_mono n m _ _ x h (by omega)

theorem Runs.det {w2 : ω} {r2 : Ptr} (h : Runs iter fn w p w' r) (h2 : Runs iter fn w p w2 r2) : w' = w2 ∧ r = r2 := by
  obtain ⟨n, e⟩ := h
  obtain ⟨m, e2⟩ := h2
  have a1 := loop_mono n (max n m) _ _ _ e (Nat.le_max_left _ _)
  have a2 := loop_mono m (max n m) _ _ _ e2 (Nat.le_max_right _ _)
  rw [a1] at a2; cases a2; exact ⟨rfl, rfl⟩

/-- Induction over a finished run. -/
theorem Runs.rec_on {motive : ω → Ptr → Prop} (h : Runs iter fn w p w' r)
    (nil : r = none → motive w' none)
    (stop : ∀ w a, r = some a → fn w a = some (w', false) → motive w (some a))
    (step : ∀ w a w1, fn w a = some (w1, true) → motive w1 (iter w1 a) → motive w (some a)) : motive w p := by
  obtain ⟨fuel, e⟩ := h
  induction fuel generalizing w p with
  | zero =>
    cases p with
    | none => simp [loop] at e; obtain ⟨rfl, rfl⟩ := e; exact nil rfl
    | some a => simp [loop] at e
  | succ fuel ih =>
    cases p with
    | none => simp [loop] at e; obtain ⟨rfl, rfl⟩ := e; exact nil rfl
    | some a =>
      rw [loop] at e
      split at e
      · cases e
      · rename_i w1 hf
        exact step w a w1 hf (ih e)
      · rename_i w1 hf
        cases e
        exact stop w a rfl hf

end

/-- A finished run of a resetter's loop, from any captured state. -/
def JR {σ : Type} (consume : Bool) (hooks : List Hook) (body : World → σ → Addr → Option (World × σ × Ctl))
    (w : World) (j : JState σ) (p : Ptr) (w' : World) (r : Ptr) : Prop :=
  ∃ j', Runs (fun (ws : World × JState σ) a => ws.1.heap.next (some a)) (jumpStep consume hooks body) (w, j) p (w', j') r

section
variable {σ : Type} {consume : Bool} {hooks : List Hook} {body : World → σ → Addr → Option (World × σ × Ctl)}
  {w w' w1 : World} {s s1 : σ} {p r : Ptr} {a : Addr}

theorem JR.of_jumpLoop (e : jumpLoop consume hooks body w s p = some (w', r)) :
    JR consume hooks body w ⟨false, none, s⟩ p w' r := by
  unfold jumpLoop iterW at e
  rw [Option.map_eq_some_iff] at e
  obtain ⟨⟨⟨w2, j'⟩, r2⟩, e1, e2⟩ := e
  cases e2
  exact ⟨j', _, e1⟩

theorem JR.end_ {j : JState σ} (h : JR consume hooks body w j none w' r) : w' = w ∧ r = none := by
  obtain ⟨j', h⟩ := h
  obtain ⟨e1, e2⟩ := h.end_
  cases e1; exact ⟨rfl, e2⟩

/-- One active step, by what the body does. -/
theorem JR.cont (h : JR consume [] body w ⟨false, none, s⟩ (some a) w' r) (e : body w s a = some (w1, s1, .cont)) :
    JR consume [] body w1 ⟨false, none, s1⟩ (w1.heap.next (some a)) w' r := by
  obtain ⟨j', h⟩ := h
  refine ⟨j', h.cont (w1 := (w1, ⟨false, none, s1⟩)) ?_⟩
  simp [jumpStep, handleHook, e, applyCtl]

theorem JR.stop (h : JR consume [] body w ⟨false, none, s⟩ (some a) w' r) (e : body w s a = some (w1, s1, .stop)) :
    w' = w1 ∧ r = some a := by
  obtain ⟨j', h⟩ := h
  have := h.stop (w1 := (w1, ⟨false, none, s1⟩)) (by simp [jumpStep, handleHook, e, applyCtl])
  cases this.1; exact ⟨rfl, this.2⟩

theorem JR.jump {q : Ptr} (h : JR consume [] body w ⟨false, none, s⟩ (some a) w' r) (e : body w s a = some (w1, s1, .jump q)) :
    JR consume [] body w1 ⟨decide (q = none), q, s1⟩ (w1.heap.next (some a)) w' r := by
  obtain ⟨j', h⟩ := h
  refine ⟨j', h.cont (w1 := (w1, ⟨decide (q = none), q, s1⟩)) ?_⟩
  simp [jumpStep, handleHook, e, applyCtl]

/-- Passing over a node on the way to the node jumped to. -/
theorem JR.pass {z : Addr} (h : JR consume [] body w ⟨false, some z, s⟩ (some a) w' r) (hz : z ≠ a) :
    JR consume [] body w ⟨false, some z, s⟩ (w.heap.next (some a)) w' r := by
  obtain ⟨j', h⟩ := h
  refine ⟨j', h.cont (w1 := (w, ⟨false, some z, s⟩)) ?_⟩
  simp [jumpStep, handleHook, hz]

/-- Arriving there. -/
theorem JR.arrive (h : JR false [] body w ⟨false, some a, s⟩ (some a) w' r) : JR false [] body w ⟨false, none, s⟩ (some a) w' r := by
  obtain ⟨j', h⟩ := h
  obtain ⟨fuel, e⟩ := h
  refine ⟨j', fuel, ?_⟩
  cases fuel with
  | zero => simp [loop] at e
  | succ fuel =>
    rw [← e, loop, loop]
    have : jumpStep false [] body (w, ⟨false, some a, s⟩) a = jumpStep false [] body (w, ⟨false, none, s⟩) a := by
      simp [jumpStep, handleHook]
    rw [this]

/-- The callback does something at each node (no body failed on the way): every step of a finished run is defined. -/
theorem JR.some_body (h : JR consume [] body w ⟨false, none, s⟩ (some a) w' r) : ∃ x, body w s a = some x := by
  obtain ⟨j', h⟩ := h
  obtain ⟨w1, b, e, _⟩ := h.step
  simp only [jumpStep, handleHook, List.foldl_nil] at e
  simp at e
  split at e
  · cases e
  · exact ⟨_, by assumption⟩

/-- With everything skipped, nothing happens and the result is nil. -/
theorem JR.skipAll {q : Ptr} (h : JR consume [] body w ⟨true, q, s⟩ p w' r) : w' = w ∧ r = none := by
  obtain ⟨j', h⟩ := h
  have := h.rec_on (motive := fun ws p => ws.2.skipAll = true → w' = ws.1 ∧ r = none) (fun hr hs => ⟨rfl, hr⟩) ?_ ?_
  · exact this rfl
  · intro ws a hr e hs
    simp [jumpStep, hs] at e
  · intro ws a ws1 e ih hs
    simp [jumpStep, hs, handleHook] at e
    subst e
    exact ih hs

/-- A resetter that returns a node stopped there. -/
theorem JR.stopped {j : JState σ} {z : Addr} (h : JR consume hooks body w j p w' (some z)) :
    ∃ w0 s0 s1, body w0 s0 z = some (w', s1, .stop) := by
  obtain ⟨j', h⟩ := h
  refine h.rec_on (motive := fun _ _ => ∃ w0 s0 s1, body w0 s0 z = some (w', s1, .stop)) (fun hr => by cases hr) ?_ ?_
  · intro ws a hr e
    cases hr
    simp only [jumpStep] at e
    split at e
    · simp at e
    · split at e
      · simp at e
      · split at e
        · simp at e
        · split at e
          · cases e
          · rename_i w2 s2 c2 hb
            cases c2 <;> simp [applyCtl] at e
            exact ⟨_, _, _, by rw [hb, e.1]⟩
  · intro ws a ws1 e ih
    exact ih

/-- Waiting for a node at which the body stops without doing anything: nothing happens. -/
theorem JR.idle {z : Addr} (h : JR false [] body w ⟨false, some z, s⟩ p w' r) (e : ∃ s1, body w s z = some (w, s1, .stop)) :
    w' = w ∧ (r = none ∨ r = some z) := by
  obtain ⟨j', h⟩ := h
  have := h.rec_on (motive := fun ws p => ws = (w, ⟨false, some z, s⟩) → w' = w ∧ (r = none ∨ r = some z)) ?_ ?_ ?_
  · exact this rfl
  · intro hr hs; cases hs; exact ⟨rfl, .inl hr⟩
  · intro ws a hr hh hs
    subst hs
    by_cases hz : z = a
    · subst hz
      obtain ⟨s1, e⟩ := e
      simp [jumpStep, handleHook, e, applyCtl] at hh
      exact ⟨hh.1.symm, .inr hr⟩
    · simp [jumpStep, handleHook, hz] at hh
  · intro ws a ws1 hh ih hs
    subst hs
    by_cases hz : z = a
    · subst hz
      obtain ⟨s1, e⟩ := e
      simp [jumpStep, handleHook, e, applyCtl] at hh
    · simp [jumpStep, handleHook, hz] at hh
      exact ih hh.symm

end

end Goast
