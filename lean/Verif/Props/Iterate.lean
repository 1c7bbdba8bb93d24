import Verif.Props.Edit

/-!
# C62: iterating while editing
-/

set_option linter.unusedSimpArgs false
set_option linter.unusedVariables false

namespace Goast
open Heap

variable {σ : Type}

/-! ## Specification -/

/-- `p.IterNext(fn)` (node.go:98-120, model `loop`) with a callback that may change the nodes (`Heap`) and the variables
its closure captures (`σ`) returns the node `r` and leaves the world `w'`.  The model's loop carries fuel; here any amount
will do, so a loop that goes on for ever is one for which this holds of no `w'` and `r`. -/
def IterReturns (fn : Heap × σ → Addr → (Heap × σ) × Bool) (w : Heap × σ) (p : Ptr) (w' : Heap × σ) (r : Ptr) : Prop :=
  ∃ fuel, loop (fun (w : Heap × σ) a => w.1.next (some a)) (fun w a => some (fn w a)) fuel w p = some (w', r)

/-- What is left of a list when the marked elements that are reached take out the one behind them. -/
def takeBehind (c : Addr → Bool) : List Addr → List Addr
  | [] => []
  | [a] => [a]
  | a :: b :: l => a :: (if c a then takeBehind c l else takeBehind c (b :: l))

/-- `m, x₁, m+1, x₂, …` -/
def interleave : Addr → List Addr → List Addr
  | _, [] => []
  | m, a :: l => m :: a :: interleave (m + 1) l

/-! ## Lemmas -/

theorem Chain.extends {h h' : Heap} {l : List Addr} (c : Chain h l) (ex : Extends h h') : Chain h' l := by
  refine ⟨fun a ha => Nat.lt_of_lt_of_le (c.1 a ha) ex.1, fun a ha => ?_, fun a ha => ?_, fun l₁ a b l₂ e => ?_⟩
  · rw [(ex.2 a (c.1 a (List.mem_of_mem_head? ha))).2.1]
    exact c.2.1 a ha
  · rw [(ex.2 a (c.1 a (List.mem_of_getLast? ha))).1]
    exact c.2.2.1 a ha
  · rw [(ex.2 a (c.1 a (by simp [e]))).1, (ex.2 b (c.1 b (by simp [e]))).2.1]
    exact c.2.2.2 l₁ a b l₂ e

theorem newNode_post {h : Heap} (w : WF h) (L : Int) (t : Bytes) :
    (h.newNode L t).2 = h.size ∧ Extends h (h.newNode L t).1 ∧ WF (h.newNode L t).1 ∧ Chain (h.newNode L t).1 [h.size] ∧
      (h.newNode L t).1.size = h.size + 1 := by
  obtain ⟨h', e, ex, w', c, _⟩ := C33_newNodes w L t []
  have e2 : (h.newNode L t).2 = h.size := by rw [newNode_eq]
  have : h' = (h.newNode L t).1 := by
    have := congrArg Prod.fst e
    simpa [newNodes, newNodesLoop] using this.symm
  subst this
  exact ⟨e2, ex, w', c, by rw [newNode_eq]; simp⟩

/-- From `a` on a finite chain does not come back to the node before `a`. -/
theorem Fwd.prev_not_mem {h : Heap} (w : WF h) {a b : Addr} {l : List Addr} (f : Fwd h (some a) (a :: l)) (hb : h.prev (some a) = some b) :
    b ∉ a :: l := by
  intro hm
  have nd := f.nodup
  have hn := (w.inverse b a).2 hb
  obtain ⟨l₁, l₂, e⟩ := List.append_of_mem hm
  rw [e] at f nd
  have f' := Fwd.drop l₁ f
  cases f' with
  | cons _ g =>
    rw [hn] at g
    cases g with
    | cons _ g =>
      cases l₁ with
      | nil =>
        simp only [List.nil_append, List.cons.injEq] at e
        exact w.irrefl a (e.1 ▸ hn)
      | cons x l₁ =>
        simp only [List.cons_append, List.cons.injEq] at e
        rw [← e.1] at nd
        simp at nd

/-! ## The loop itself -/

/-- **C62** What `IterNext` does, whatever the callback changes: nothing on nil; else it calls back for the node and stops
there if told to; else it goes on with the node that is next *after* the call. -/
theorem C62_steps (fn : Heap × σ → Addr → (Heap × σ) × Bool) (w w' : Heap × σ) (a : Addr) (r : Ptr) :
    (IterReturns fn w none w' r ↔ w' = w ∧ r = none) ∧
    ((fn w a).2 = false → (IterReturns fn w (some a) w' r ↔ w' = (fn w a).1 ∧ r = some a)) ∧
    ((fn w a).2 = true → (IterReturns fn w (some a) w' r ↔ IterReturns fn (fn w a).1 ((fn w a).1.1.next (some a)) w' r)) := by
  refine ⟨?_, ?_, ?_⟩
  · constructor
    · rintro ⟨n, e⟩
      simp only [loop, Option.some.injEq, Prod.mk.injEq] at e
      exact ⟨e.1.symm, e.2.symm⟩
    · rintro ⟨rfl, rfl⟩
      exact ⟨0, by simp [loop]⟩
  · intro hf
    have ef : fn w a = ((fn w a).1, false) := by rw [← hf]
    constructor
    · rintro ⟨n, e⟩
      cases n with
      | zero => simp [loop] at e
      | succ n =>
        simp only [loop] at e
        rw [ef] at e
        simp only [Option.some.injEq, Prod.mk.injEq] at e
        exact ⟨e.1.symm, e.2.symm⟩
    · rintro ⟨rfl, rfl⟩
      refine ⟨1, ?_⟩
      simp only [loop]
      rw [ef]
  · intro ht
    have et : fn w a = ((fn w a).1, true) := by rw [← ht]
    constructor
    · rintro ⟨n, e⟩
      cases n with
      | zero => simp [loop] at e
      | succ n =>
        simp only [loop] at e
        rw [et] at e
        exact ⟨n, e⟩
    · rintro ⟨n, e⟩
      refine ⟨n + 1, ?_⟩
      simp only [loop]
      rw [et]
      exact e

/-- **C62** There is at most one outcome. -/
theorem C62_unique {fn : Heap × σ → Addr → (Heap × σ) × Bool} {w w₁ w₂ : Heap × σ} {p r₁ r₂ : Ptr} (e₁ : IterReturns fn w p w₁ r₁)
    (e₂ : IterReturns fn w p w₂ r₂) : w₁ = w₂ ∧ r₁ = r₂ := by
  obtain ⟨n, e₁⟩ := e₁
  obtain ⟨m, e₂⟩ := e₂
  have h1 := loop_mono _ _ _ _ _ e₁ (Nat.le_max_left n m)
  have h2 := loop_mono _ _ _ _ _ e₂ (Nat.le_max_right n m)
  rw [h1] at h2
  simpa using h2

/-- **C62** A callback that leaves alone the links from the current node on: it is called for exactly the nodes that were
in the chain at the start, in order, until it says stop.  `I` is anything the callback keeps up. -/
theorem C62_stable {fn : Heap × σ → Addr → (Heap × σ) × Bool} (I : Heap × σ → Prop)
    (keep : ∀ w a l, I w → Fwd w.1 (some a) (a :: l) → I (fn w a).1 ∧ Fwd (fn w a).1.1 (some a) (a :: l)) :
    ∀ {l : List Addr} {w : Heap × σ} {p : Ptr}, I w → Fwd w.1 p l → IterReturns fn w p (walk fn w l).1 (walk fn w l).2
  | [], w, p, hI, f => by
    cases f
    exact (C62_steps fn w w 0 none).1.2 ⟨rfl, rfl⟩
  | a :: l, w, p, hI, f => by
    obtain ⟨rfl⟩ : p = some a := f.head
    obtain ⟨hI', f'⟩ := keep w a l hI f
    have st := C62_steps fn w
    rcases hb : fn w a with ⟨w1, b⟩
    rw [hb] at hI' f'
    cases b with
    | false =>
      simp only [walk, hb]
      exact ((st w1 a (some a)).2.1 (by rw [hb])).2 ⟨by rw [hb], rfl⟩
    | true =>
      simp only [walk, hb]
      refine ((st _ a _).2.2 (by rw [hb])).2 ?_
      rw [hb]
      cases f' with
      | cons _ f' => exact C62_stable I keep hI' f'

/-! ## Particular callbacks -/

/-- **C62** `TakePrev` of the current node, under any condition, does not disturb the iteration. -/
theorem C62_takePrev (c go : Heap × σ → Addr → Bool) (upd : Heap × σ → Addr → σ) {w : Heap × σ} (wf : WF w.1) {p : Ptr} {l : List Addr}
    (f : Fwd w.1 p l) :
    let fn := fun (w : Heap × σ) a => ((if c w a then (w.1.takePrev (some a)).1 else w.1, upd w a), go w a)
    IterReturns fn w p (walk fn w l).1 (walk fn w l).2 := by
  intro fn
  refine C62_stable (fun w => WF w.1) (fun w a l wf f => ?_) wf f
  have ha : a < w.1.size := f.lt a (by simp)
  show WF (if c w a then (w.1.takePrev (some a)).1 else w.1) ∧ Fwd (if c w a then (w.1.takePrev (some a)).1 else w.1) (some a) (a :: l)
  split
  · refine ⟨wf_takePrev wf (valid_some ha), f.congr (fun x hx => ?_) (fun x hx => ?_)⟩
    · rw [(sameData_takePrev w.1 (some a)).1]
      exact f.lt x hx
    · rw [(takePrev_links wf (valid_some ha) x).2]
      cases hp : w.1.prev (some a) with
      | none => simp
      | some b =>
        have hb := f.prev_not_mem wf hp
        rw [if_neg (by simp only [Option.some.injEq]; rintro rfl; exact hb hx)]
        cases hq : w.1.prev (some b) with
        | none => simp
        | some d =>
          rw [if_neg]
          simp only [Option.some.injEq]
          rintro rfl
          have hn := (wf.inverse x b).2 hq
          obtain ⟨l₁, l₂, e⟩ := List.append_of_mem hx
          rw [e] at f hb
          obtain ⟨_, nx, _⟩ := Fwd.at f
          rw [hn] at nx
          cases l₂ with
          | nil => simp at nx
          | cons y l₂ =>
            simp only [List.head?_cons, Option.some.injEq] at nx
            exact hb (by simp [nx])
  · exact ⟨wf, f⟩

/-- **C62** `SetKind` and `SetText` on any nodes do not disturb it either. -/
theorem C62_relabel (k : Heap × σ → Addr → List (Ptr × Kind)) (t : Heap × σ → Addr → List (Ptr × Bytes)) (go : Heap × σ → Addr → Bool)
    (upd : Heap × σ → Addr → σ) {w : Heap × σ} {p : Ptr} {l : List Addr} (f : Fwd w.1 p l) :
    let fn := fun (w : Heap × σ) a =>
      (((t w a).foldl (fun h x => h.setText x.1 x.2) ((k w a).foldl (fun h x => h.setKind x.1 x.2) w.1), upd w a), go w a)
    IterReturns fn w p (walk fn w l).1 (walk fn w l).2 := by
  intro fn
  have h1 : ∀ (xs : List (Ptr × Kind)) (h : Heap), (xs.foldl (fun h x => h.setKind x.1 x.2) h).size = h.size ∧
      ∀ p, (xs.foldl (fun h x => h.setKind x.1 x.2) h).next p = h.next p := by
    intro xs
    induction xs with
    | nil => intro h; exact ⟨rfl, fun _ => rfl⟩
    | cons x xs ih => intro h; simp [ih]
  have h2 : ∀ (xs : List (Ptr × Bytes)) (h : Heap), (xs.foldl (fun h x => h.setText x.1 x.2) h).size = h.size ∧
      ∀ p, (xs.foldl (fun h x => h.setText x.1 x.2) h).next p = h.next p := by
    intro xs
    induction xs with
    | nil => intro h; exact ⟨rfl, fun _ => rfl⟩
    | cons x xs ih => intro h; simp [ih]
  refine C62_stable (fun _ => True) (fun w a l _ f => ⟨trivial, f.congr (fun x hx => ?_) (fun x hx => ?_)⟩) trivial f
  · show x < Heap.size (List.foldl _ _ _)
    rw [(h2 _ _).1, (h1 _ _).1]
    exact f.lt x hx
  · show Heap.next (List.foldl _ _ _) _ = _
    rw [(h2 _ _).2, (h1 _ _).2]

/-- **C62** `TakeNext` on the current node: the node that is taken out is not visited.  What is visited is what remains.
(Taking the next node out everywhere removes every other node, not all but the first.) -/
theorem C62_takeNext (c : Addr → Bool) : ∀ {l : List Addr} {h : Heap} {A seen : List Addr}, WF h → Chain h (A ++ l) →
    let fn := fun (w : Heap × List Addr) a => ((if c a then (w.1.takeNext (some a)).1 else w.1, w.2 ++ [a]), true)
    ∃ h', IterReturns fn (h, seen) l.head? (h', seen ++ takeBehind c l) none ∧ WF h' ∧ Chain h' (A ++ takeBehind c l) ∧ SameData h h'
  | [], h, A, seen, w, ch => ⟨h, (C62_steps _ _ _ 0 _).1.2 ⟨by simp [takeBehind], rfl⟩, w, ch, ⟨rfl, fun _ => ⟨rfl, rfl, rfl⟩⟩⟩
  | [a], h, A, seen, w, ch => by
    have ha : a < h.size := ch.1 a (by simp)
    have hn : h.next (some a) = none := ch.2.2.1 a (by simp)
    obtain ⟨_, sd, lk⟩ := C27_takeNext_none h (some a) hn
    have lk := lk w (valid_some ha)
    have ex : Extends h (h.takeNext (some a)).1 :=
      ⟨by rw [sd.1]; exact Nat.le_refl _, fun x hx => ⟨(lk x).1, (lk x).2, by simp [data, sd.2]⟩⟩
    intro fn
    have key : ∀ h', WF h' → Extends h h' → SameData h h' → fn (h, seen) a = ((h', seen ++ [a]), true) →
        ∃ h', IterReturns fn (h, seen) [a].head? (h', seen ++ takeBehind c [a]) none ∧ WF h' ∧
          Chain h' (A ++ takeBehind c [a]) ∧ SameData h h' := by
      intro h' w' ex sd e
      refine ⟨h', ((C62_steps fn (h, seen) _ a _).2.2 rfl).2 ?_, w', ch.extends ex, sd⟩
      rw [e]
      simp only
      rw [(ex.2 a ha).1, hn]
      exact (C62_steps _ _ _ 0 _).1.2 ⟨rfl, rfl⟩
    by_cases hc : c a
    · exact key _ (wf_takeNext w (valid_some ha)) ex sd (by simp [fn, hc])
    · exact key h w ⟨Nat.le_refl _, fun _ _ => ⟨rfl, rfl, rfl⟩⟩ ⟨rfl, fun _ => ⟨rfl, rfl, rfl⟩⟩ (by simp [fn, hc])
  | a :: b :: l, h, A, seen, w, ch => by
    intro fn
    have ha : a < h.size := ch.1 a (by simp)
    obtain ⟨ret, ch', _, sd⟩ := C27_takeNext_chain w ch
    by_cases hc : c a
    · have w' := wf_takeNext w (valid_some ha)
      obtain ⟨h', e, w2, c2, sd2⟩ := C62_takeNext c (l := l) (A := A ++ [a]) (seen := seen ++ [a]) w' (by simpa using ch')
      refine ⟨h', ?_, w2, by simpa [takeBehind, hc] using c2, ⟨sd2.1.trans sd.1, fun p => ⟨(sd2.2 p).1.trans (sd.2 p).1, (sd2.2 p).2.1.trans (sd.2 p).2.1, (sd2.2 p).2.2.trans (sd.2 p).2.2⟩⟩⟩
      refine ((C62_steps _ _ _ a _).2.2 rfl).2 ?_
      have nx : (h.takeNext (some a)).1.next (some a) = l.head? := (Fwd.at ch'.fwd).2.1
      simp only [fn, hc, if_true]
      rw [nx]
      simpa [takeBehind, hc] using e
    · obtain ⟨h', e, w2, c2, sd2⟩ := C62_takeNext c (l := b :: l) (A := A ++ [a]) (seen := seen ++ [a]) w (by simpa using ch)
      refine ⟨h', ?_, w2, by simpa [takeBehind, hc] using c2, sd2⟩
      refine ((C62_steps _ _ _ a _).2.2 rfl).2 ?_
      have nx : h.next (some a) = some b := (ch.2.2.2 A a b l rfl).1
      simp only [fn, hc, if_false, Bool.false_eq_true]
      rw [nx]
      simpa [takeBehind, hc] using e

/-- **C62** `InsertPrev` of a new node before every node visited: the new nodes are not visited, and stand where they were put. -/
theorem C62_insertPrev (L : Int) (t : Bytes) : ∀ {l : List Addr} {h : Heap} {A seen : List Addr}, WF h → Chain h (A ++ l) →
    let fn := fun (w : Heap × List Addr) a => ((((w.1.newNode L t).1.insertPrev (some a) (some (w.1.newNode L t).2)).1, w.2 ++ [a]), true)
    ∃ h', IterReturns fn (h, seen) l.head? (h', seen ++ l) none ∧ WF h' ∧ Chain h' (A ++ interleave h.size l) ∧ h'.size = h.size + l.length
  | [], h, A, seen, w, ch => ⟨h, (C62_steps _ _ _ 0 _).1.2 ⟨by simp, rfl⟩, w, by simpa [interleave] using ch, rfl⟩
  | a :: l, h, A, seen, w, ch => by
    intro fn
    obtain ⟨e2, ex, w1, c1, sz⟩ := newNode_post w L t
    have ha : a < h.size := ch.1 a (by simp)
    have dj : ∀ x ∈ A ++ a :: l, x ∉ ([] : List Addr) ++ h.size :: [] := by
      intro x hx hy
      have := ch.1 x hx
      simp only [List.nil_append, List.mem_singleton] at hy
      omega
    have c2 := (C25_insertPrev_chains w1 (ch.extends ex) (C := []) (D := []) c1 dj).1
    have w2 : WF ((h.newNode L t).1.insertPrev (some a) (some h.size)).1 := wf_insertPrev w1 (valid_some (by omega)) (valid_some (by omega))
    have sz2 : ((h.newNode L t).1.insertPrev (some a) (some h.size)).1.size = h.size + 1 := by
      rw [(sameData_insertPrev (h.newNode L t).1 (some a) (some h.size)).1, sz]
    obtain ⟨h', e, w3, c3, s3⟩ := C62_insertPrev L t (l := l) (A := A ++ [h.size, a]) (seen := seen ++ [a]) w2 (by simpa using c2)
    refine ⟨h', ?_, w3, ?_, ?_⟩
    · refine ((C62_steps _ _ _ a _).2.2 rfl).2 ?_
      have nx : ((h.newNode L t).1.insertPrev (some a) (some h.size)).1.next (some a) = l.head? :=
        (Fwd.at (B := A ++ [h.size]) (by simpa using c2.fwd)).2.1
      simp only [fn, e2]
      rw [nx]
      simpa using e
    · rw [sz2] at c3
      simpa [interleave] using c3
    · rw [s3, sz2]
      simp only [List.length_cons]
      omega

/-- **C62** Known trap: a callback that inserts a new node behind every node visited never ends (the new nodes are visited
too). -/
theorem C62_insertNext_forever (L : Int) (t : Bytes) (upd : Heap × σ → Addr → σ) {w : Heap × σ} (wf : WF w.1) {a : Addr} (ha : a < w.1.size)
    (w' : Heap × σ) (r : Ptr) :
    ¬ IterReturns (fun (w : Heap × σ) a => ((((w.1.newNode L t).1.insertNext (some a) (some (w.1.newNode L t).2)).1, upd w a), true))
      w (some a) w' r := by
  rintro ⟨n, e⟩
  induction n generalizing w a with
  | zero => simp [loop] at e
  | succ n ih =>
    simp only [loop] at e
    obtain ⟨e2, ex, w1, c1, sz⟩ := newNode_post wf L t
    have n1 : (w.1.newNode L t).1.next (some a) ≠ some w.1.size := by

      rw [(ex.2 a ha).1]
      intro hh
      have := wf.valid_next (some a) _ hh
      omega
    have lk := (insertNext_links w1 (n := some a) (m := some w.1.size) (valid_some (by omega)) (valid_some (by omega))
      (by simp only [ne_eq, Option.some.injEq]; omega) n1 a).1
    rw [if_pos rfl] at lk
    rw [e2, lk] at e
    refine ih (w := (((w.1.newNode L t).1.insertNext (some a) (some w.1.size)).1, upd w a)) ?_ ?_ e
    · exact wf_insertNext w1 (valid_some (by omega)) (valid_some (by omega))
    · rw [(sameData_insertNext (w.1.newNode L t).1 (some a) (some w.1.size)).1, sz]
      omega

/-- **C62** Known trap: a callback that takes the current node out (here with `Isolate`) ends the iteration there. -/
theorem C62_isolate (upd : Heap × σ → Addr → σ) {w : Heap × σ} (wf : WF w.1) {a : Addr} (ha : a < w.1.size) :
    IterReturns (fun (w : Heap × σ) a => ((w.1.isolate (some a), upd w a), true)) w (some a) (w.1.isolate (some a), upd w a) none := by
  refine ((C62_steps _ _ _ a _).2.2 rfl).2 ?_
  show IterReturns _ (w.1.isolate (some a), upd w a) ((w.1.isolate (some a)).next (some a)) _ _
  rw [(isolate_links wf (valid_some ha) a).1, if_pos (.inl rfl)]
  exact (C62_steps _ _ _ 0 _).1.2 ⟨rfl, rfl⟩

/-! ## Cases that meet the hypotheses (`demo`: chains `0 1 2` and `3 4`) -/

/-- Taking out the next node everywhere leaves every other node; taking out the node before never disturbs; new nodes
before `0 1 2`. -/
example : WF demo ∧ Chain demo ([] ++ [0, 1, 2]) ∧ Fwd demo (some 0) [0, 1, 2] ∧ 0 < demo.size ∧
    takeBehind (fun _ => true) [0, 1, 2] = [0, 2] ∧ interleave demo.size [0, 1, 2] = [5, 0, 6, 1, 7, 2] ∧
    (∃ h', IterReturns (fun (w : Heap × List Addr) a => ((if true then (w.1.takeNext (some a)).1 else w.1, w.2 ++ [a]), true)) (demo, []) (some 0)
      (h', [0, 2]) none ∧ Chain h' [0, 2]) := by
  have c : Chain demo ([] ++ [0, 1, 2]) := by rw [Chain.seg]; decide +kernel
  refine ⟨demo_wf, c, c.fwd, by decide +kernel, by decide, by decide +kernel, ?_⟩
  obtain ⟨h', e, _, c', _⟩ := C62_takeNext (fun _ => true) (seen := []) demo_wf c
  exact ⟨h', e, c'⟩

end Goast
