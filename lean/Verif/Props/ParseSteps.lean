import Verif.Proofs.CostAll
import Verif.Proofs.ParseShown
import Verif.Props.Steps
import Verif.Props.Pure

/-!
# C82: `ParseScope` at single memory accesses
-/

set_option linter.unusedSimpArgs false
set_option linter.unusedVariables false

namespace Goast
open Heap

/-- **C82** The single steps of `ParseScope`, made one after the other by the only goroutine, in any state of the program's nodes: it returns, with exactly
the scopes and the nodes of the function `parseScopeOrd` that all other theorems are about, and all nodes it touches exist. -/
theorem C82_call {ord : Nat → List (Bytes × Ext)} (ho : MapOrder ord) (h : Heap) (startLine : Int) (text : Bytes) :
    ∃ h' scs, parseScopeOrd ord h startLine text = some (h', scs) ∧
      ∀ F, h'.size < F → (Code.parseScope ord F startLine text).exec h = some (h', scs) := by
  obtain ⟨h0, scs0, _, e, _⟩ := C59_parse ho h startLine text
  exact ⟨_, _, e, fun F hF => exec_parseScope e hF⟩

theorem ScopesRel.to {ρ : Corr} {o : Nat → Prop} (d : ρ.Diag o) : ∀ {xs ys : List ScopeRec}, ScopesRel ρ xs ys → ∀ sc ∈ xs, PtrTo o sc.node
  | [], _, _, _, h => by cases h
  | _ :: _, [], h, _, _ => h.elim
  | x :: xs, y :: ys, h, sc, hs => by
    rcases List.mem_cons.1 hs with rfl | hs
    · exact PtrRel.to d h.1.2.2
    · exact ScopesRel.to d h.2 sc hs

/-- **C82** `ParseScope` is careful in the sense of C81, whatever nodes the goroutine and the others have: it reads and writes only nodes it
makes itself, and so do the scopes it returns consist of nodes of the goroutine's own.  So a goroutine may parse, and then go on with
calls on what it got (`C81_careful_seq`). -/
theorem C82_careful (ord : Nat → List (Bytes × Ext)) (F : Nat) (startLine : Int) (text : Bytes) (shared own : Nat → Prop) :
    Careful shared (Code.parseScope ord F startLine text) own fun o scs => (∀ a, own a → o a) ∧ ∀ sc ∈ scs, PtrTo o sc.node := by
  let ρ : Corr := ⟨fun a b => a = b ∧ own a, fun a a' b h h' => h.1.trans h'.1.symm, fun a b b' h h' => h.1.symm.trans h'.1⟩
  have d : ρ.Diag own := fun a b => Iff.rfl
  refine careful_mono ?_ _ _ ((alike_parseScope (ρ := ρ) (Nat.le_refl F) ord startLine text).later.careful rfl own d)
  rintro o scs ⟨ρ', d', le, hs⟩
  refine ⟨fun a ha => ((d' a a).1 (le a a ⟨rfl, ha⟩)).2, ScopesRel.to d' hs⟩

/-- What goroutine `i` is asked to do. -/
structure ParseJob where
  ord : Nat → List (Bytes × Ext)
  startLine : Int
  text : Bytes

/-- The parse of a job by a goroutine alone: how many steps it takes, and what one sees of the result. -/
theorem parse_run (j : ParseJob) (ho : MapOrder j.ord) :
    ∃ (out : List (ScopeKind × Int × List (Int × Kind × Bytes))) (bound steps : Nat),
      (∃ h0 scs0 ass0, parseScope Heap.empty j.startLine j.text = some (h0, scs0) ∧ Shown h0.mem scs0 ass0 out) ∧
      (bound ≤ j.text.length + 1 ∧ steps ≤ 50000 * (j.text.length + 1) ^ 3) ∧
      ∀ F, bound ≤ F → ∀ m cs m' q', (Code.parseScope j.ord F j.startLine j.text).alone m cs = some (m', q') →
        (∃ scs ass, q' = .ret scs ∧ Shown m' scs ass out ∧ cs.length = steps ∧ ass.flatten.Nodup ∧ ∀ a ∈ ass.flatten, m a = none) ∨
        (q'.returned = false ∧ q'.panicked = false ∧ cs.length < steps) := by
  obtain ⟨h0, scs0, e⟩ := C09_total mapOrder_id wf_empty acyclic_empty j.startLine j.text
  obtain ⟨_, _, _, ls, hm, nd, hl⟩ := C12_separate mapOrder_id wf_empty acyclic_empty e
  obtain ⟨out, hs⟩ := shown_of_chains hm fun l h => (hl l h).2.1
  refine ⟨out, h0.size + 1, (Code.parseScope j.ord (h0.size + 1) j.startLine j.text).count Heap.empty, ⟨h0, scs0, ls, e, hs⟩, ?_⟩
  rw [C09_deterministic mapOrder_id ho] at e
  obtain ⟨c1, c2⟩ := count_parseScope ho e
  refine ⟨⟨by omega, c2⟩, ?_⟩
  intro F hF m cs m' q' run
  obtain ⟨ρ, h1, p1, _, al, i1, e1, c1, f1⟩ := sim_alone cs (alike_parseScope (ρ := Corr.empty) hF j.ord j.startLine j.text)
    (memRel_empty Heap.empty m) (execT_parseScope e) run
  rcases sim_where al i1 e1 with ⟨scs, rfl, hr, i2, c2⟩ | ⟨h1, h2, h3, _⟩
  · obtain ⟨bss, hb, ha⟩ := hs.rel i2 hr
    refine .inl ⟨scs, bss, rfl, hb, by omega, ha.nodup nd, fun b hb => ?_⟩
    obtain ⟨a, _, hab⟩ := ha.mem b hb
    exact (f1 a b hab).resolve_left id
  · exact .inr ⟨h1, h2, by omega⟩

/-- Any number of goroutines that parse: `C82_parallel` and `C83_parallel`. -/
theorem parallel_run (job : Nat → ParseJob) (ho : ∀ i, MapOrder (job i).ord) :
    ∃ (out : Nat → List (ScopeKind × Int × List (Int × Kind × Bytes))) (bound steps : Nat → Nat),
    (∀ i, ∃ h0 scs0 ass0, parseScope Heap.empty (job i).startLine (job i).text = some (h0, scs0) ∧ Shown h0.mem scs0 ass0 (out i)) ∧
    (∀ i, bound i ≤ (job i).text.length + 1 ∧ steps i ≤ 50000 * ((job i).text.length + 1) ^ 3) ∧
    ∀ (F : Nat → Nat), (∀ i, bound i ≤ F i) → ∀ (m m' : Mem) (ps' : Nat → Code (List ScopeRec)) (sched : List (Nat × Nat)),
      goTogether m (fun i => Code.parseScope (job i).ord (F i) (job i).startLine (job i).text) sched = some (m', ps') →
      (∀ a, m a ≠ none → m' a = m a) ∧
      (∀ i j a w w', i ≠ j → (ps' i).touches = some (a, w) → (ps' j).touches = some (a, w') → False) ∧
      ∃ ass : Nat → List (List Nat), (∀ i j a, a ∈ (ass i).flatten → a ∈ (ass j).flatten → i = j) ∧
      ∀ i, ((offered i sched).length = steps i ∧ ∃ scs, ps' i = .ret scs ∧ Shown m' scs (ass i) (out i) ∧ (ass i).flatten.Nodup ∧
              ∀ a ∈ (ass i).flatten, m a = none) ∨
           ((offered i sched).length < steps i ∧ ∀ c, m' c = none → ∃ r, (ps' i).step m' c = some r) := by
  refine ⟨fun i => Classical.choose (parse_run (job i) (ho i)), fun i => Classical.choose (Classical.choose_spec (parse_run (job i) (ho i))),
    fun i => Classical.choose (Classical.choose_spec (Classical.choose_spec (parse_run (job i) (ho i)))), fun i => ?_, fun i => ?_, ?_⟩
  · exact (Classical.choose_spec (Classical.choose_spec (Classical.choose_spec (parse_run (job i) (ho i))))).1
  · exact (Classical.choose_spec (Classical.choose_spec (Classical.choose_spec (parse_run (job i) (ho i))))).2.1
  intro F hF m m' ps' sched e
  have run := fun i => (Classical.choose_spec (Classical.choose_spec (Classical.choose_spec (parse_run (job i) (ho i))))).2.2 (F i) (hF i) m
  generalize hsteps : (fun i => Classical.choose (Classical.choose_spec (Classical.choose_spec (parse_run (job i) (ho i))))) = steps at *
  generalize hout : (fun i => Classical.choose (parse_run (job i) (ho i))) = out at *
  have hs : ∀ i, Classical.choose (Classical.choose_spec (Classical.choose_spec (parse_run (job i) (ho i)))) = steps i := fun i => congrFun hsteps i
  have hou : ∀ i, Classical.choose (parse_run (job i) (ho i)) = out i := fun i => congrFun hout i
  have isl : Island m fun _ => False := ⟨fun _ h => h.elim, fun _ _ _ h => h.elim, fun _ _ _ h => h.elim⟩
  obtain ⟨nc, st⟩ := C81_careful (own := fun _ _ => False) (fun _ => isl) isl (fun _ _ _ h => h.elim) (fun _ _ h => h.elim)
    (fun i => C82_careful (job i).ord (F i) (job i).startLine (job i).text (fun _ => False) (fun _ => False))
  obtain ⟨M, I⟩ := goTogether_inv nc st sched [] _ m _ (inter_start m _ _ _) m' ps' e
  simp only [List.nil_append] at I
  have nostop := C81_no_stop nc st e
  have here : ∀ i, ∃ ass : List (List Nat), (∀ a ∈ ass.flatten, m a = none ∧ M i a ≠ none) ∧
      (((offered i sched).length = steps i ∧ ∃ scs, ps' i = .ret scs ∧ Shown m' scs ass (out i) ∧ ass.flatten.Nodup ∧ ∀ a ∈ ass.flatten, m a = none) ∨
        ((offered i sched).length < steps i ∧ ∀ c, m' c = none → ∃ r, (ps' i).step m' c = some r)) := by
    intro i
    rcases run i _ _ _ (I.alone i) with ⟨scs, ass, h1, h2, h3, h4, h5⟩ | ⟨h1, h2, h3⟩
    · have new : ∀ a ∈ ass.flatten, m a = none ∧ M i a ≠ none := fun a ha => ⟨h5 a ha, h2.exists a ha⟩
      refine ⟨ass, new, .inl ⟨by rw [h3, hs i], scs, h1, ?_, h4, h5⟩⟩
      rw [hou i] at h2
      exact h2.congr fun a ha => I.own i a (.inr (.inr (new a ha)))
    · refine ⟨[], by simp, .inr ⟨by rw [← hs i]; exact h3, ?_⟩⟩
      rcases nostop i with ⟨x, hx⟩ | hx | hx
      · rw [hx] at h1; simp [Code.returned] at h1
      · rw [hx] at h2; simp [Code.panicked] at h2
      · exact hx
  refine ⟨fun a ha => I.rest a ha fun _ h => h, ?_, fun i => Classical.choose (here i), ?_, fun i => (Classical.choose_spec (here i)).2⟩
  · intro i j a w w' hij hi hj
    rcases st i _ _ _ (I.alone i) a w hi with h | ⟨_, h⟩ | ⟨h1, h2⟩
    · exact h
    · exact h
    · rcases st j _ _ _ (I.alone j) a w' hj with h | ⟨_, h⟩ | ⟨_, h3⟩
      · exact h
      · exact h
      · exact hij (I.apart i j a h1 h2 h3)
  · intro i j a hi hj
    obtain ⟨h1, h2⟩ := (Classical.choose_spec (here i)).1 a hi
    exact I.apart i j a h1 h2 ((Classical.choose_spec (here j)).1 a hj).2

/-- **C82** Any number of goroutines call `ParseScope` at the same time, each with a text of its own, in any state of the memory; their single memory accesses
are interleaved by any schedule, the allocator gives any free addresses, and Go iterates over its map in any orders.  No two of them are ever about to touch
the same node (so there is no data race); no node that was there is changed; none of them panics or is stopped by the others; each takes a fixed number of
steps, whatever the others do; and when it has made them it has returned, and what one sees of its scopes is what one sees of a parse of its text alone:
the same kinds and lines of scopes, the same lines, kinds and texts of their nodes, in properly linked lists of new nodes, no node being in two
scopes, be it of one goroutine or of two. -/
theorem C82_parallel (job : Nat → ParseJob) (ho : ∀ i, MapOrder (job i).ord) :
    ∃ (out : Nat → List (ScopeKind × Int × List (Int × Kind × Bytes))) (bound steps : Nat → Nat),
    (∀ i, ∃ h0 scs0 ass0, parseScope Heap.empty (job i).startLine (job i).text = some (h0, scs0) ∧ Shown h0.mem scs0 ass0 (out i)) ∧
    ∀ (F : Nat → Nat), (∀ i, bound i ≤ F i) → ∀ (m m' : Mem) (ps' : Nat → Code (List ScopeRec)) (sched : List (Nat × Nat)),
      goTogether m (fun i => Code.parseScope (job i).ord (F i) (job i).startLine (job i).text) sched = some (m', ps') →
      (∀ a, m a ≠ none → m' a = m a) ∧
      (∀ i j a w w', i ≠ j → (ps' i).touches = some (a, w) → (ps' j).touches = some (a, w') → False) ∧
      ∃ ass : Nat → List (List Nat), (∀ i j a, a ∈ (ass i).flatten → a ∈ (ass j).flatten → i = j) ∧
      ∀ i, ((offered i sched).length = steps i ∧ ∃ scs, ps' i = .ret scs ∧ Shown m' scs (ass i) (out i) ∧ (ass i).flatten.Nodup ∧
              ∀ a ∈ (ass i).flatten, m a = none) ∨
           ((offered i sched).length < steps i ∧ ∀ c, m' c = none → ∃ r, (ps' i).step m' c = some r) := by
  obtain ⟨out, bound, steps, h1, -, h3⟩ := parallel_run job ho
  exact ⟨out, bound, steps, h1, h3⟩

/-! ## The hypotheses are met -/

/-- Two goroutines, with different texts and map orders. -/
def parseJobs : Nat → ParseJob
  | 0 => ⟨fun _ => commonDeeperExtract, 0, b!"package p"⟩
  | _ => ⟨fun i => if i % 2 = 0 then commonDeeperExtract else commonDeeperExtract.reverse, 0, b!"type T int\n"⟩

example : ∀ i, MapOrder (parseJobs i).ord
  | 0 => fun _ => List.Perm.refl _
  | i + 1 => fun j => by
    show List.Perm (if j % 2 = 0 then commonDeeperExtract else commonDeeperExtract.reverse) _
    split
    · exact List.Perm.refl _
    · exact List.reverse_perm _

/-- The result of a goroutine that has returned. -/
def Code.result {α : Type} : Code α → Option α
  | .ret x => some x
  | _ => none

/-- The step numbers 0 to 63 alternate between the two; then the second goes on.  Step `k` is offered the address `200 - k`. -/
def parseSched : List (Nat × Nat) := (List.range 122).map fun k => (if k < 64 then k % 2 else 1, 200 - k)

/-- Both have returned; the scopes of the two, and the nodes in memory. -/
example : ((goTogether (fun _ => none) (fun i => Code.parseScope (parseJobs i).ord 20 (parseJobs i).startLine (parseJobs i).text) parseSched).map fun r =>
    ((r.2 0).result, (r.2 1).result, (List.range 201).filterMap fun a => (r.1 a).map fun q => (a, q))) =
    some (some [⟨0, .package_, some 200⟩], some [⟨0, .type_, some 199⟩],
      [(130, ⟨0, .newLine, b!"\n", some 141, none⟩), (141, ⟨0, .basic, b!"int", some 159, some 130⟩), (159, ⟨0, .space, b!" ", some 177, some 141⟩),
        (177, ⟨0, .typeName, b!"T", some 195, some 159⟩), (178, ⟨0, .raw, b!"p", some 196, none⟩), (195, ⟨0, .space, b!" ", some 199, some 177⟩),
        (196, ⟨0, .space, b!" ", some 200, some 178⟩), (199, ⟨0, .type_, b!"type", none, some 195⟩),
        (200, ⟨0, .package_, b!"package", none, some 196⟩)]) := by
  decide +kernel

end Goast
