import Verif.Props.ParseSteps

/-!
# C83: how long `ParseScope` takes

The bounds are in the length of the text, in bytes; what is counted are the reads and writes of fields of nodes, and the calls of `NewNode`.
-/

set_option linter.unusedSimpArgs false
set_option linter.unusedVariables false

namespace Goast

/-- **C83** `ParseScope` makes at most one node for each byte of the text, in any state of the program's nodes. -/
theorem C83_nodes {ord : Nat → List (Bytes × Ext)} (ho : MapOrder ord) {h h' : Heap} {startLine : Int} {text : Bytes} {scs : List ScopeRec}
    (e : parseScopeOrd ord h startLine text = some (h', scs)) : h'.size ≤ h.size + text.length := by
  unfold parseScopeOrd at e
  obtain ⟨ts, h1, p, l, e1, eh, -, el, f, -⟩ := extract_nodes ho h text
  obtain ⟨h1', p', l', e1', f', tx⟩ := C01_lossless ho h text
  rw [e1] at e1'; cases e1'
  cases f.det f'
  rw [e1] at e
  dsimp only at e
  cases hs : splitScopes h1 startLine p with
  | none => rw [hs] at e; cases e
  | some st =>
    rw [hs] at e
    dsimp only at e
    cases hr : resetAll st.heap st.scs with
    | none => rw [hr] at e; cases e
    | some h2 =>
      rw [hr] at e
      simp only [Option.some.injEq, Prod.mk.injEq] at e
      obtain ⟨rfl, -⟩ := e
      have s3 := (execT_resetAll (F := st.heap.size + 1) st.scs rfl hr).2
      have s2 : st.heap.size = h1.size := by
        unfold splitScopes at hs
        simp only [Option.map_eq_some_iff] at hs
        obtain ⟨⟨s₁, q⟩, hl, rfl⟩ := hs
        obtain ⟨-, i1⟩ := execT_split _ _ _ hl
        dsimp only at i1 ⊢
        rw [size_tryAppendScope, i1]
      have hl := length_le_textOf (h := h1) (l := l) fun a ha => C05_nonempty ho e1 f a ha
      rw [tx] at hl
      have hsz : h1.size = h.size + ts.length := by simp [eh]
      have : l.length = ts.length := by rw [el]; simp
      omega

/-- **C83** Any number of goroutines that parse at the same time, as in C82: whatever the schedule, goroutine `i` is scheduled for at most
`50000 (n + 1)³` memory accesses, `n` being the length of its own text, and can go on until it has returned: none waits for another, and no schedule makes
the work of one longer. -/
theorem C83_parallel (job : Nat → ParseJob) (ho : ∀ i, MapOrder (job i).ord) :
    ∃ steps : Nat → Nat, (∀ i, steps i ≤ 50000 * ((job i).text.length + 1) ^ 3) ∧
    ∀ (F : Nat → Nat), (∀ i, (job i).text.length + 1 ≤ F i) → ∀ (m m' : Mem) (ps' : Nat → Code (List ScopeRec)) (sched : List (Nat × Nat)),
      goTogether m (fun i => Code.parseScope (job i).ord (F i) (job i).startLine (job i).text) sched = some (m', ps') →
      ∀ i, ((offered i sched).length = steps i ∧ ∃ scs, ps' i = .ret scs) ∨
        ((offered i sched).length < steps i ∧ ∀ c, m' c = none → ∃ r, (ps' i).step m' c = some r) := by
  obtain ⟨out, bound, steps, -, h2, h3⟩ := parallel_run job ho
  refine ⟨steps, fun i => (h2 i).2, fun F hF m m' ps' sched e i => ?_⟩
  obtain ⟨-, -, ass, -, h4⟩ := h3 F (fun i => Nat.le_trans (h2 i).1 (hF i)) m m' ps' sched e
  rcases h4 i with ⟨h5, scs, h6, -⟩ | h5
  · exact .inl ⟨h5, scs, h6⟩
  · exact .inr h5

/-- A goroutine alone, as one of many. -/
theorem goTogether_alone {α : Type} : ∀ (cs : List Nat) (m : Mem) (p : Code α) (ps : Nat → Code α) {m' : Mem} {q : Code α}, ps 0 = p →
    p.alone m cs = some (m', q) → ∃ ps', goTogether m ps (cs.map fun c => (0, c)) = some (m', ps') ∧ ps' 0 = q
  | [], m, p, ps, m', q, hp, e => by
    simp only [Code.alone, Option.some.injEq, Prod.mk.injEq] at e
    obtain ⟨rfl, rfl⟩ := e
    exact ⟨ps, rfl, hp⟩
  | c :: cs, m, p, ps, m', q, hp, e => by
    simp only [Code.alone] at e
    simp only [List.map_cons, goTogether, hp]
    cases hs : p.step m c with
    | none => rw [hs] at e; cases e
    | some r =>
      rw [hs] at e
      exact goTogether_alone cs r.1 r.2 (fun j => if j = 0 then r.2 else ps j) rfl e

theorem offered_zero (cs : List Nat) : offered 0 (cs.map fun c => (0, c)) = cs := by
  induction cs with
  | nil => rfl
  | cons c cs ih => simpa [offered] using ih

/-- **C83** A goroutine that calls `ParseScope`, alone and in any state of the memory, with any free addresses for the new nodes and any order of Go's map
iteration: it makes a fixed number of memory accesses, at most `50000 (n + 1)³` for a text of `n` bytes; until it has made them it can go on, whatever
address the allocator gives it next, and then it has returned.  The bounds `F` of the loops of the model do not matter from `n + 1` on. -/
theorem C83_alone {ord : Nat → List (Bytes × Ext)} (ho : MapOrder ord) (startLine : Int) (text : Bytes) :
    ∃ steps, steps ≤ 50000 * (text.length + 1) ^ 3 ∧
      ∀ F, text.length + 1 ≤ F → ∀ (m m' : Mem) (q' : Code (List ScopeRec)) (cs : List Nat),
        (Code.parseScope ord F startLine text).alone m cs = some (m', q') →
        (cs.length = steps ∧ ∃ scs, q' = .ret scs) ∨ (cs.length < steps ∧ ∀ c, m' c = none → ∃ r, q'.step m' c = some r) := by
  obtain ⟨steps, hs, run⟩ := C83_parallel (fun _ => ⟨ord, startLine, text⟩) (fun _ => ho)
  refine ⟨steps 0, hs 0, fun F hF m m' q' cs e => ?_⟩
  obtain ⟨ps', e', rfl⟩ := goTogether_alone cs m _ (fun _ => Code.parseScope ord F startLine text) rfl e
  have := run (fun _ => F) (fun _ => hF) m m' ps' _ e' 0
  rwa [offered_zero] at this

/-! ## The hypotheses are met -/

/-- Six nodes for eleven bytes. -/
example : (parseScopeOrd (fun _ => commonDeeperExtract.reverse) Heap.empty 0 b!"type T int\n").map (fun r => r.1.size) = some 6 := by decide +kernel

/-- Two goroutines parse, as in the example of C82: the first has made its 32 steps and returned; the second is scheduled for 89 of its 90
steps and can go on. -/
example : ((goTogether (fun _ => none) (fun i => Code.parseScope (parseJobs i).ord 20 (parseJobs i).startLine (parseJobs i).text) (parseSched.take 121)).map fun r =>
    ((offered 0 (parseSched.take 121)).length, ((r.2 0).result).isSome, (offered 1 (parseSched.take 121)).length, ((r.2 1).result).isSome)) =
    some (32, true, 89, false) := by
  decide +kernel

end Goast
