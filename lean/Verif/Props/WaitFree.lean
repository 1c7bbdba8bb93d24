import Verif.Proofs.WaitWalk
import Verif.Props.Steps
import Verif.Props.ParseSteps

/-!
# C84: how long the calls on nodes take

What is counted are the reads and writes of fields of nodes, and the allocations of nodes.
-/

set_option linter.unusedSimpArgs false
set_option linter.unusedVariables false

namespace Goast

variable {α : Type}

/-! ## Calls that do not walk along a list -/

/-- **C84** A call that makes or changes nodes, `Copy(true)` apart, makes at most a fixed number of steps (`Op.steps`: it depends only on the number of
arguments), whatever the other goroutines do in between, be it on the same nodes, and whatever links there are: it never waits, and it cannot be kept busy. -/
theorem C84_bounded {op : Op} {n : Nat} (hn : op.steps = some n) {m m' : Mem} {ps ps' : Nat → Code (List Ptr)} {sched : List (Nat × Nat)}
    (e : goTogether m ps sched = some (m', ps')) {i fuel : Nat} (hi : ps i = op.code fuel) : (offered i sched).length ≤ n := by
  obtain ⟨n', h1, -⟩ := atMost_together (i := i) sched (n := n) (by rw [hi]; exact atMost_op hn fuel) e
  omega

/-- **C84** The same for the methods that look at one node: one step, and three for `Description`. -/
theorem C84_look_bounded {m m' : Mem} {n : Ptr} {i : Nat} {sched : List (Nat × Nat)} :
    (∀ (ps ps' : Nat → Code Ptr), goTogether m ps sched = some (m', ps') → (ps i = Code.next n ∨ ps i = Code.prev n) → (offered i sched).length ≤ 1) ∧
    (∀ (ps ps' : Nat → Code Int), goTogether m ps sched = some (m', ps') → ps i = Code.line n → (offered i sched).length ≤ 1) ∧
    (∀ (ps ps' : Nat → Code Kind), goTogether m ps sched = some (m', ps') → ps i = Code.kind n → (offered i sched).length ≤ 1) ∧
    (∀ (ps ps' : Nat → Code Bytes), goTogether m ps sched = some (m', ps') → ps i = Code.text n → (offered i sched).length ≤ 1) ∧
    (∀ (ps ps' : Nat → Code Bytes), goTogether m ps sched = some (m', ps') → ps i = Code.describe n → (offered i sched).length ≤ 3) := by
  have key : ∀ {γ : Type} {k : Nat} {ps ps' : Nat → Code γ}, goTogether m ps sched = some (m', ps') → AtMost (ps i) k → (offered i sched).length ≤ k := by
    intro γ k ps ps' e h
    obtain ⟨n', h1, -⟩ := atMost_together (i := i) sched h e
    omega
  refine ⟨fun ps ps' e h => key e ?_, fun ps ps' e h => key e (h ▸ atMost_line n), fun ps ps' e h => key e (h ▸ atMost_kind n),
    fun ps ps' e h => key e (h ▸ atMost_text n), fun ps ps' e h => key e (h ▸ atMost_describe n)⟩
  rcases h with h | h <;> rw [h]
  · exact atMost_next n
  · exact atMost_prev n

/-! ## No dangling pointers -/

/-- **C84** Goroutines that forge no pointers, on any nodes, shared or not, and without any synchronisation: however their steps are interleaved, there
are no dangling pointers at any time, and each goroutine has returned, or has panicked on a nil pointer, or can make its next step, whichever free
address the allocator gives it. -/
theorem C84_never_stuck {m m' : Mem} {ps ps' : Nat → Code α} (w : m.Sound) (hp : ∀ i, Honest (ps i) fun a => m a ≠ none) {sched : List (Nat × Nat)}
    (e : goTogether m ps sched = some (m', ps')) :
    m'.Sound ∧ ∀ i, (ps' i).returned = true ∨ (ps' i).panicked = true ∨ ∀ c, m' c = none → ∃ r, (ps' i).step m' c = some r := by
  obtain ⟨w', h'⟩ := honest_together sched w hp e
  exact ⟨w', fun i => honest_goes_on w' (h' i)⟩

/-- **C84** All calls are honest: those that make or change nodes, on nodes that exist; `ParseScope`; the methods that look at one node; and the getters of a
scope.  (For iteration with a user's callback see `C81_look_careful`.) -/
theorem C84_honest (S : Nat → Prop) :
    (∀ (op : Op) (fuel : Nat), (∀ p ∈ op.args, PtrTo S p) → Honest (op.code fuel) S) ∧
    (∀ ord F startLine text, Honest (Code.parseScope ord F startLine text) S) ∧
    (∀ n, PtrTo S n → Honest (Code.next n) S ∧ Honest (Code.prev n) S ∧ Honest (Code.line n) S ∧ Honest (Code.kind n) S ∧ Honest (Code.text n) S ∧
      Honest (Code.describe n) S) ∧
    (∀ (d : ScopeRec) (fuel : Nat), PtrTo S d.node → Honest (Code.getFuncName fuel d) S ∧ Honest (Code.getTypeName fuel d) S ∧ Honest (Code.getStructName fuel d) S ∧
      Honest (Code.getInterfaceName fuel d) S ∧ Honest (Code.getMethodReceiver fuel d) S ∧ Honest (Code.getMethodName fuel d) S) := by
  have T : ∀ {γ : Type} {p : Code γ} {own : Nat → Prop} {Q : (Nat → Prop) → γ → Prop}, Careful (fun _ => False) p own Q →
      Careful (fun _ => False) p own fun _ _ => True := fun h => careful_mono (fun _ _ _ => trivial) _ _ h
  have L := fun (U : Nat → Prop) (n : Ptr) => C81_look_careful (fun _ => False) U n
  refine ⟨fun op fuel ha U hU => T (C81_calls_careful _ U fuel op (.inl fun p hp => (ha p hp).mono hU)), fun ord F sl text U _ => T (C82_careful ord F sl text _ U),
    fun n hn => ⟨fun U hU => T ((L U n).2.1 (hn.mono hU)).1, fun U hU => T ((L U n).2.1 (hn.mono hU)).2, fun U hU => T ((L U n).1 (.inl (hn.mono hU))).1,
      fun U hU => T ((L U n).1 (.inl (hn.mono hU))).2.1, fun U hU => T ((L U n).1 (.inl (hn.mono hU))).2.2.1, fun U hU => T ((L U n).1 (.inl (hn.mono hU))).2.2.2⟩,
    fun d fuel hn => ?_⟩
  have G := fun (U : Nat → Prop) (hU : ∀ a, S a → U a) => (L U none).2.2.2.1 d fuel (.inl (hn.mono hU))
  exact ⟨fun U hU => T (G U hU).1, fun U hU => T (G U hU).2.1, fun U hU => T (G U hU).2.2.1, fun U hU => T (G U hU).2.2.2.1,
    fun U hU => T (G U hU).2.2.2.2.1, fun U hU => T (G U hU).2.2.2.2.2⟩

/-- **C84** So a call that makes or changes nodes, `Copy(true)` apart, is over after a fixed number of its own steps, whatever other calls are going on, on the
same nodes too: until then it can go on at any time. -/
theorem C84_wait_free {m m' : Mem} (w : m.Sound) {ops : Nat → Op} {F : Nat → Nat} (hv : ∀ i, ∀ p ∈ (ops i).args, PtrTo (fun a => m a ≠ none) p)
    {ps' : Nat → Code (List Ptr)} {sched : List (Nat × Nat)} (e : goTogether m (fun i => (ops i).code (F i)) sched = some (m', ps'))
    {i n : Nat} (hn : (ops i).steps = some n) :
    (offered i sched).length ≤ n ∧ ((ps' i).returned = true ∨ (ps' i).panicked = true ∨
      ((offered i sched).length < n ∧ ∀ c, m' c = none → ∃ r, (ps' i).step m' c = some r)) := by
  have hb := C84_bounded hn e (i := i) rfl
  obtain ⟨n', h1, h2⟩ := atMost_together (i := i) sched (n := n) (atMost_op hn (F i)) e
  refine ⟨hb, ?_⟩
  rcases (C84_never_stuck w (fun i => (C84_honest _).1 (ops i) (F i) (hv i)) e).2 i with h | h | h
  · exact .inl h
  · exact .inr (.inl h)
  · by_cases hl : (offered i sched).length < n
    · exact .inr (.inr ⟨hl, h⟩)
    · have : n' = 0 := by omega
      subst this
      cases hp : ps' i with
      | ret x => exact .inl rfl
      | panic => exact .inr (.inl rfl)
      | read a f k => rw [hp] at h2; obtain ⟨_, h, _⟩ := h2; cases h
      | write a f v k => rw [hp] at h2; obtain ⟨_, h, _⟩ := h2; cases h
      | alloc r k => rw [hp] at h2; obtain ⟨_, h, _⟩ := h2; cases h

/-- The nodes of a heap in which `Next` and `Prev` are inverse: no dangling pointers. -/
theorem sound_mem {h : Heap} (w : WF h) : h.mem.Sound := by
  have lt : ∀ a, h.mem a ≠ none → a < h.size := fun a ha => by
    rcases Nat.lt_or_ge a h.size with hl | hl
    · exact hl
    · exact (ha (List.getElem?_eq_none hl)).elim
  have ex : ∀ b, b < h.size → h.mem b ≠ none := fun b hb => by obtain ⟨r, hr, -⟩ := mem_get hb; rw [hr]; simp
  refine ⟨fun a ha => by obtain ⟨r, hr, -⟩ := mem_get (lt a ha); exact ⟨r, hr⟩, fun a r b ha hr hb => ?_, fun a r b ha hr hb => ?_⟩
  · obtain ⟨r', hr', h2, h3, -⟩ := mem_get (lt a ha)
    rw [hr] at hr'; cases hr'
    rw [hb] at h3
    exact ex b (w.sound.pPrev (some a) b h3)
  · obtain ⟨r', hr', h2, h3, -⟩ := mem_get (lt a ha)
    rw [hr] at hr'; cases hr'
    rw [hb] at h2
    exact ex b (w.sound.pNext (some a) b h2)

/-! ## Walks along a list -/

/-- **C84** `Last` makes two steps for each node from the receiver to the end of the list, less one; `First` likewise towards the front; `Copy(true)` makes seven
steps for each node of the list, and one more.  (`F` bounds the rounds in the model; it does not matter once it is large enough.) -/
theorem C84_walks {h : Heap} {F : Nat} :
    (∀ n l, Fwd h n l → l.length ≤ F → (Code.last F n).ReturnsAfter h.mem (2 * l.length - 1)) ∧
    (∀ n l, Bwd h n l → l.length ≤ F → (Code.first F n).ReturnsAfter h.mem (2 * l.length - 1)) ∧
    (∀ a l₁ l₂, Bwd h (some a) (a :: l₁) → Fwd h (some a) (a :: l₂) → l₁.length + l₂.length < F →
      (Code.copy F (some a) true).ReturnsAfter h.mem (7 * (l₁.length + 1 + l₂.length) + 1)) :=
  ⟨fun n l f hl => (gives_last f hl).elim fun _ h => ends_returns h, fun n l f hl => (gives_first f hl).elim fun _ h => ends_returns h,
    fun a l₁ l₂ f₁ f₂ hl => ends_returns (ends_copy f₁ f₂ hl)⟩

/-- **C84** The getters of a scope make at most six steps for each of its nodes. -/
theorem C84_getters {h : Heap} {F : Nat} {d : ScopeRec} {l : List Addr} (f : Fwd h d.node l) (hl : l.length ≤ F) :
    (∃ n, n ≤ 3 * l.length ∧ (Code.getFuncName F d).ReturnsAfter h.mem n) ∧ (∃ n, n ≤ 3 * l.length ∧ (Code.getTypeName F d).ReturnsAfter h.mem n) ∧
    (∃ n, n ≤ 5 * l.length ∧ (Code.getStructName F d).ReturnsAfter h.mem n) ∧ (∃ n, n ≤ 5 * l.length ∧ (Code.getInterfaceName F d).ReturnsAfter h.mem n) ∧
    (∃ n, n ≤ 3 * l.length ∧ (Code.getMethodReceiver F d).ReturnsAfter h.mem n) ∧ (∃ n, n ≤ 6 * l.length ∧ (Code.getMethodName F d).ReturnsAfter h.mem n) := by
  have key : ∀ {γ : Type} {p : Code γ} {b : Nat}, (∃ n x, n ≤ b ∧ Gives h p n x) → ∃ n, n ≤ b ∧ p.ReturnsAfter h.mem n :=
    fun ⟨n, x, h1, h2⟩ => ⟨n, h1, ends_returns h2⟩
  exact ⟨key (gives_getFuncName f hl), key (gives_getTypeName f hl), key (gives_getStructName f hl), key (gives_getInterfaceName f hl),
    key (gives_getMethodReceiver f hl), key (gives_getMethodName f hl)⟩

/-- **C84** And goroutines that only read do not make each other slower: if one of them returns after `n` steps alone, then so it does among many, on the same
nodes and under every schedule. -/
theorem C84_readers {h : Heap} {m' : Mem} {ps ps' : Nat → Code α} (ro : ∀ i, ReadOnly (ps i)) {sched : List (Nat × Nat)}
    (e : goTogether h.mem ps sched = some (m', ps')) {i n : Nat} (hr : (ps i).ReturnsAfter h.mem n) :
    ((offered i sched).length = n ∧ ∃ x, ps' i = .ret x) ∨ ((offered i sched).length < n ∧ ∀ c, m' c = none → ∃ r, (ps' i).step m' c = some r) := by
  refine hr (offered i sched) m' (ps' i) ?_
  have key : ∀ (sched : List (Nat × Nat)) (qs : Nat → Code α), (∀ i, ReadOnly (qs i)) → ∀ m' qs', goTogether h.mem qs sched = some (m', qs') →
      (qs i).alone h.mem (offered i sched) = some (m', qs' i) := by
    intro sched
    induction sched with
    | nil =>
      intro qs hq m' qs' e
      simp [goTogether] at e
      obtain ⟨rfl, rfl⟩ := e
      rfl
    | cons jc sched ih =>
      obtain ⟨j, c⟩ := jc
      intro qs hq m' qs' e
      simp only [goTogether] at e
      cases es : (qs j).step h.mem c with
      | none => rw [es] at e; simp at e
      | some r =>
        rw [es] at e
        have es' : (qs j).step h.mem c = some (r.1, r.2) := es
        obtain ⟨e1, e2⟩ := readOnly_step (hq j) es'
        simp only [e1] at e
        have := ih _ (fun k => by by_cases hk : k = j <;> simp [hk, e2, hq]) m' qs' e
        rw [offered_cons]
        by_cases hj : j = i
        · subst hj
          simp only [if_true] at this ⊢
          simp only [Code.alone, es', e1]
          exact this
        · simpa [hj, Ne.symm hj] using this
  exact key sched ps ro m' ps' e

/-! ## Walks while others change the list -/

/-- **C84, witness** The walks have no bound if the list is changed by others at the same time.  Three nodes in a list; two goroutines insert the second and
the third node behind the first.  Whichever call comes first, or if there is only one, the three nodes are in one list afterwards.  But there is a
schedule under which both calls return and the list has become a ring: `Last` of its first node never ends (whatever bound `F` the model has). -/
theorem C84_ring : ∃ (h h' : Heap) (sched : List (Nat × Nat)), WF h ∧ Acyclic h ∧
    ((goTogether h.mem (fun i => if i = 0 then Code.insertNext (some 0) (some 1) else Code.insertNext (some 0) (some 2)) sched).map fun r =>
      ((List.range 3).filterMap r.1, (r.2 0).returned && (r.2 1).returned)) = some (h'.cells, true) ∧
    (∀ F, (Code.last F (some 0)).exec h' = none) ∧
    (((Code.insertNext (some 0) (some 1)).exec h).bind fun r => (Code.insertNext (some 0) (some 2)).exec r.1).map (fun r =>
      (r.1.next (some 0), r.1.next (some 2), r.1.next (some 1))) = some (some 2, some 1, none) ∧
    (((Code.insertNext (some 0) (some 2)).exec h).bind fun r => (Code.insertNext (some 0) (some 1)).exec r.1).map (fun r =>
      (r.1.next (some 0), r.1.next (some 1), r.1.next (some 2))) = some (some 1, some 2, none) := by
  have w1 := Heap.newNodes_wf Heap.wf_empty 0 [b!"a", b!"b", b!"c"]
  have a1 := Heap.acyclic_newNodes Heap.wf_empty (fun a ha => by simp [Heap.empty, Heap.size] at ha) 0 [b!"a", b!"b", b!"c"]
  refine ⟨_, ⟨[⟨0, .raw, b!"a", none, some 1⟩, ⟨0, .raw, b!"b", some 0, some 2⟩, ⟨0, .raw, b!"c", some 1, some 1⟩]⟩,
    List.replicate 15 (1, 0) ++ List.replicate 9 (0, 0) ++ List.replicate 3 (1, 0) ++ List.replicate 5 (0, 0), w1, a1, by decide +kernel, fun F => ?_,
    by decide +kernel, by decide +kernel⟩
  have key : ∀ (F : Nat) (a : Nat), a < 3 → (Code.loop Code.next (fun () a => do let p ← Code.next a; pure ((), decide (p ≠ none))) F () (some a)).exec
      ⟨[⟨0, .raw, b!"a", none, some 1⟩, ⟨0, .raw, b!"b", some 0, some 2⟩, ⟨0, .raw, b!"c", some 1, some 1⟩]⟩ = none := by
    intro F
    induction F with
    | zero => intro a _; rfl
    | succ F ih =>
      intro a ha
      match a, ha with
      | 0, _ => exact ih 1 (by omega)
      | 1, _ => exact ih 2 (by omega)
      | 2, _ => exact ih 1 (by omega)
  show (Code.loop _ _ F () (some 0) >>= fun r => pure r.2 : Code Ptr).exec _ = none
  rw [exec_bind, key F 0 (by omega)]
  rfl

/-! ## The hypotheses are met -/

/-- Two goroutines on the same three nodes, without synchronisation: `C84_wait_free` says that each is over after at most 28 steps; under the
schedule of the next example the first returns after 14 steps and the second after 18. -/
example : (Heap.empty.newNodes 0 [b!"a", b!"b", b!"c"]).1.mem.Sound ∧
    (∀ i : Nat, ∀ p ∈ ((fun i => if i = 0 then Op.insertNext (some 0) (some 1) else Op.insertNext (some 0) (some 2)) i).args,
      PtrTo (fun a => (Heap.empty.newNodes 0 [b!"a", b!"b", b!"c"]).1.mem a ≠ none) p) := by
  refine ⟨sound_mem (Heap.newNodes_wf Heap.wf_empty 0 _), fun i p hp a ha => ?_⟩
  have h3 : ∀ a, a < 3 → (Heap.empty.newNodes 0 [b!"a", b!"b", b!"c"]).1.mem a ≠ none := by decide +kernel
  subst ha
  dsimp only at hp
  split at hp <;> simp [Op.args] at hp <;> rcases hp with rfl | rfl <;> exact h3 _ (by omega)

example : ((goTogether (Heap.empty.newNodes 0 [b!"a", b!"b", b!"c"]).1.mem
      (fun i => (if i = 0 then Op.insertNext (some 0) (some 1) else Op.insertNext (some 0) (some 2)).code 0)
      (List.replicate 15 (1, 0) ++ List.replicate 9 (0, 0) ++ List.replicate 3 (1, 0) ++ List.replicate 5 (0, 0))).map fun r =>
    ((r.2 0).returned, (r.2 1).returned)) = some (true, true) := by decide +kernel

/-- The list of the example has three nodes: `Last` takes five steps and `Copy(true)` twenty-two. -/
example : Fwd (Heap.empty.newNodes 0 [b!"a", b!"b", b!"c"]).1 (some 0) [0, 1, 2] ∧ Bwd (Heap.empty.newNodes 0 [b!"a", b!"b", b!"c"]).1 (some 0) [0] ∧
    ((Code.last 3 (some 0)).alone (Heap.empty.newNodes 0 [b!"a", b!"b", b!"c"]).1.mem (List.replicate 5 0)).map (·.2.returned) = some true ∧
    ((Code.copy 3 (some 0) true).alone (Heap.empty.newNodes 0 [b!"a", b!"b", b!"c"]).1.mem ((List.range 22).map (· + 3))).map (·.2.returned) = some true := by
  refine ⟨.cons (by decide +kernel) (.cons (by decide +kernel) (.cons (by decide +kernel) .nil)), .cons (by decide +kernel) .nil, by decide +kernel, by decide +kernel⟩

/-- A scope of six nodes: `GetTypeName` takes eight steps, less than eighteen. -/
example : ((parseScope Heap.empty 0 b!"type T int\n").map fun r => r.2.map fun d =>
    (((Code.getTypeName 6 d).alone r.1.mem (List.replicate 8 0)).map (·.2.returned), d.getTypeName r.1)) = some [(some true, some (b!"T", true))] := by
  decide +kernel

end Goast
