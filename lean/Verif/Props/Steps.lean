import Verif.Proofs.StepsPanic
import Verif.Props.Goroutines

/-!
# C81: goroutines interleaved at single memory accesses
-/

set_option linter.unusedSimpArgs false
set_option linter.unusedVariables false

namespace Goast

variable {α β : Type}

/-! ## The theorem about interleavings -/

/-- **C81** Any number of goroutines, each running any code, none of which writes what another one reads or writes, under any schedule that
interleaves their single reads, writes and allocations: every one is exactly where it would be if it had run alone (so it gets the same
results), the nodes it uses are as if it had run alone, and nodes that none of them writes are as before. -/
theorem C81_alone {m m' : Mem} {ps ps' : Nat → Code α} {R W : Nat → Nat → Prop} (nc : NoConflict m R W) (st : ∀ i, StaysIn m (ps i) (R i) (W i))
    {sched : List (Nat × Nat)} (e : goTogether m ps sched = some (m', ps')) :
    (∀ i, ∃ mi, (ps i).alone m (offered i sched) = some (mi, ps' i) ∧
      ∀ a, (R i a ∨ W i a ∨ (m a = none ∧ mi a ≠ none)) → m' a = mi a) ∧
    (∀ a, m a ≠ none → (∀ i, ¬ W i a) → m' a = m a) := by
  obtain ⟨M, I⟩ := goTogether_inv nc st sched [] _ m ps (inter_start m ps R W) m' ps' e
  simp only [List.nil_append] at I
  exact ⟨fun i => ⟨M i, I.alone i, I.own i⟩, I.rest⟩

/-- **C81** There is no data race: never are two goroutines about to touch the same node unless both are about to read it. -/
theorem C81_no_race {m m' : Mem} {ps ps' : Nat → Code α} {R W : Nat → Nat → Prop} (nc : NoConflict m R W) (st : ∀ i, StaysIn m (ps i) (R i) (W i))
    {sched : List (Nat × Nat)} (e : goTogether m ps sched = some (m', ps')) {i j : Nat} (hij : i ≠ j) {a : Nat} {w w' : Bool}
    (hi : (ps' i).touches = some (a, w)) (hj : (ps' j).touches = some (a, w')) : w = false ∧ w' = false := by
  obtain ⟨M, I⟩ := goTogether_inv nc st sched [] _ m ps (inter_start m ps R W) m' ps' e
  simp only [List.nil_append] at I
  have key : ∀ i j w w', i ≠ j → (ps' i).touches = some (a, w) → (ps' j).touches = some (a, w') → w = false := by
    intro i j w w' hij hi hj
    rcases st i _ _ _ (I.alone i) a w hi with h1 | ⟨h1, _⟩ | ⟨h1, h1'⟩
    · rcases st j _ _ _ (I.alone j) a w' hj with h2 | ⟨_, h2⟩ | ⟨h2, _⟩
      · exact (hij (nc.write i j a h1 h2)).elim
      · exact (hij (nc.read i j a h1 h2)).elim
      · exact (nc.existW i a h1 h2).elim
    · exact h1
    · rcases st j _ _ _ (I.alone j) a w' hj with h2 | ⟨_, h2⟩ | ⟨_, h2⟩
      · exact (nc.existW j a h2 h1).elim
      · exact (nc.existR j a h2 h1).elim
      · exact (hij (I.apart i j a h1 h1' h2)).elim
  exact ⟨key i j w w' hij hi hj, key j i w' w (Ne.symm hij) hj hi⟩

/-- **C81** No goroutine is stopped by the others: at any moment it is done, it has panicked as it would have alone, or it can make its next
step, with any address the allocator may choose among the free ones. -/
theorem C81_no_stop {m m' : Mem} {ps ps' : Nat → Code α} {R W : Nat → Nat → Prop} (nc : NoConflict m R W) (st : ∀ i, StaysIn m (ps i) (R i) (W i))
    {sched : List (Nat × Nat)} (e : goTogether m ps sched = some (m', ps')) (i : Nat) :
    (∃ x, ps' i = .ret x) ∨ ps' i = .panic ∨ ∀ c, m' c = none → ∃ r, (ps' i).step m' c = some r := by
  obtain ⟨M, I⟩ := goTogether_inv nc st sched [] _ m ps (inter_start m ps R W) m' ps' e
  simp only [List.nil_append] at I
  have key : ∀ a w, (ps' i).touches = some (a, w) → ∃ r, m' a = some r := by
    intro a w ht
    have h1 : m' a = M i a ∧ M i a ≠ none := by
      rcases st i _ _ _ (I.alone i) a w ht with h | ⟨_, h⟩ | h
      · exact ⟨I.own i a (.inr (.inl h)), alone_mono (I.alone i) a (nc.existW i a h)⟩
      · exact ⟨I.own i a (.inl h), alone_mono (I.alone i) a (nc.existR i a h)⟩
      · exact ⟨I.own i a (.inr (.inr h)), h.2⟩
    rw [h1.1]
    exact Option.ne_none_iff_exists'.1 h1.2
  cases hp : ps' i with
  | ret x => exact .inl ⟨x, rfl⟩
  | panic => exact .inr (.inl rfl)
  | read a f k =>
    obtain ⟨r, hr⟩ := key a false (by rw [hp]; rfl)
    exact .inr (.inr fun c _ => by simp [Code.step, hr])
  | write a f v k =>
    obtain ⟨r, hr⟩ := key a true (by rw [hp]; rfl)
    exact .inr (.inr fun c _ => by simp [Code.step, hr])
  | alloc r k => exact .inr (.inr fun c hc => by simp [Code.step, hc])

/-! ## Goroutines with lists of their own, and lists that all may read -/

/-- **C81** The conditions hold for goroutines that write only nodes of their own and read also nodes that none of them writes, if these sets
of nodes are not linked with each other: code that is careful about where its pointers come from stays where it may go. -/
theorem C81_careful {m : Mem} {ps : Nat → Code α} {own : Nat → Nat → Prop} {shared : Nat → Prop} {Q : Nat → (Nat → Prop) → α → Prop}
    (io : ∀ i, Island m (own i)) (is : Island m shared) (dj : ∀ i j a, own i a → own j a → i = j) (ds : ∀ i a, own i a → shared a → False)
    (ca : ∀ i, Careful shared (ps i) (own i) (Q i)) :
    NoConflict m (fun _ => shared) own ∧ ∀ i, StaysIn m (ps i) shared (own i) :=
  ⟨⟨fun i j a h h' => (ds i a h h').elim, dj, fun i a h e => (by obtain ⟨r, hr⟩ := is.exist a h; rw [hr] at e; cases e),
    fun i a h e => (by obtain ⟨r, hr⟩ := (io i).exist a h; rw [hr] at e; cases e)⟩,
    fun i => careful_stays (io i) is (ds i) (ca i)⟩

/-- **C81** All calls that make or change nodes are careful: called with nodes of its own (or nil) a goroutine writes nodes of its own only,
and gets nodes of its own (or nil).  `Copy` may be called on shared nodes too. -/
theorem C81_calls_careful (shared own : Nat → Prop) (fuel : Nat) (op : Op)
    (ha : (∀ p ∈ op.args, PtrTo own p) ∨ ∃ n b, op = .copy n b ∧ PtrTo shared n) :
    Careful shared (op.code fuel) own fun o ps => (∀ a, own a → o a) ∧ ∀ p ∈ ps, PtrTo o p := by
  have two : ∀ (p : Code (Ptr × Ptr)), Careful shared p own (NoneMade own (PairTo own)) →
      Careful shared (p >>= fun r => pure [r.1, r.2]) own fun o ps => (∀ a, own a → o a) ∧ ∀ p ∈ ps, PtrTo o p := by
    intro p hp
    refine careful_seq hp fun r hr => ⟨fun _ h => h, ?_⟩
    intro q hq
    simp at hq
    rcases hq with rfl | rfl
    · exact hr.1
    · exact hr.2
  have one : ∀ (p : Code Ptr), Careful shared p own (NoneMade own (PtrTo own)) →
      Careful shared (p >>= fun r => pure [r]) own fun o ps => (∀ a, own a → o a) ∧ ∀ p ∈ ps, PtrTo o p := by
    intro p hp
    refine careful_seq hp fun r hr => ⟨fun _ h => h, ?_⟩
    intro q hq; simp at hq; subst hq; exact hr
  have new : ∀ (p : Code Ptr), Careful shared p own (Grows own fun o x => PtrTo o x) →
      Careful shared (p >>= fun r => pure [r]) own fun o ps => (∀ a, own a → o a) ∧ ∀ p ∈ ps, PtrTo o p := by
    intro p hp
    refine careful_bind _ p own (careful_mono (fun o x h => ⟨h.1, ?_⟩) p own hp)
    intro q hq; simp at hq; subst hq; exact h.2
  have zero : ∀ (p : Code Unit), Careful shared p own (NoneMade own fun _ => True) →
      Careful shared (p >>= fun _ => pure []) own fun o ps => (∀ a, own a → o a) ∧ ∀ p ∈ ps, PtrTo o p := by
    intro p hp
    exact careful_seq hp fun r hr => ⟨fun _ h => h, by simp⟩
  rcases ha with ha | ⟨n, b, rfl, hn⟩
  case inr => exact new _ (careful_copy fuel (.inr hn) b)
  cases op <;> simp only [Op.args, List.mem_cons, List.not_mem_nil, or_false, forall_eq_or_imp, forall_eq] at ha
  case newNode l t ks => exact new _ (careful_newNode l t ks)
  case newNodes l ts => exact new _ (careful_newNodes l ts)
  case insertNext n m => exact two _ (careful_insertNext ha.1 ha.2)
  case insertPrev n m => exact two _ (careful_insertPrev ha.1 ha.2)
  case replaceNext n m => exact two _ (careful_replaceNext ha.1 ha.2)
  case replacePrev n m => exact two _ (careful_replacePrev ha.1 ha.2)
  case takeNext n => exact one _ (careful_takeNext ha)
  case takePrev n => exact one _ (careful_takePrev ha)
  case removeNext n => exact one _ (careful_removeNext ha)
  case removePrev n => exact one _ (careful_removePrev ha)
  case isolate n => exact zero _ (careful_isolate ha)
  case combineNext n k ms => exact one _ (careful_combineNext ha.1 k ha.2)
  case combinePrev n k ms => exact one _ (careful_combinePrev ha.1 k ha.2)
  case copy n b => exact new _ (careful_copy fuel (.inl ha) b)
  case setKind n k => exact zero _ (careful_setKind ha k)
  case setText n t => exact zero _ (careful_setText ha t)

/-! ## The single steps of a call make the call -/

theorem call_some {h : Heap} (w : WF h) (op : Op) (v : ∀ p ∈ op.args, Valid h p) {r : Heap × List Ptr} (e : op.perform h = some r) :
    (op.code (h.size + 1)).exec h = some r := by
  have g := w.sound
  have two : ∀ {p : Code (Ptr × Ptr)} {h' x}, Does h.size h p h' x → (p >>= fun r => pure [r.1, r.2]).exec h = some (h', [x.1, x.2]) := by
    intro p h' x d; rw [exec_bind, d.exec]; rfl
  have one : ∀ {p : Code Ptr} {h' x}, p.exec h = some (h', x) → (p >>= fun r => pure [r]).exec h = some (h', [x]) := by
    intro p h' x d; rw [exec_bind, d]; rfl
  have zero : ∀ {p : Code Unit} {h'}, Does h.size h p h' () → (p >>= fun _ => pure ([] : List Ptr)).exec h = some (h', []) := by
    intro p h' d; rw [exec_bind, d.exec]; rfl
  cases op <;> simp only [Op.args, List.mem_cons, List.not_mem_nil, or_false, forall_eq_or_imp, forall_eq] at v <;>
    simp only [Op.perform, Option.some.injEq] at e
  case newNode l t ks => subst e; exact one (makes_newNode g l t ks).exec
  case newNodes l ts => subst e; exact one (makes_newNodes w l ts).exec
  case insertNext n m => subst e; exact two (does_insertNext g v.1 v.2)
  case insertPrev n m => subst e; exact two (does_insertPrev g v.1 v.2)
  case replaceNext n m => subst e; exact two (does_replaceNext g v.1 v.2)
  case replacePrev n m => subst e; exact two (does_replacePrev g v.1 v.2)
  case takeNext n => subst e; exact one (does_takeNext g v).exec
  case takePrev n => subst e; exact one (does_takePrev g v).exec
  case removeNext n => subst e; exact one (does_removeNext g v).exec
  case removePrev n => subst e; exact one (does_removePrev g v).exec
  case isolate n => subst e; exact zero (does_isolate g v)
  case combineNext n k ms =>
    rw [Option.map_eq_some_iff] at e
    obtain ⟨q, e, rfl⟩ := e
    exact one (does_combineNext g v.1 k v.2 e).exec
  case combinePrev n k ms =>
    rw [Option.map_eq_some_iff] at e
    obtain ⟨q, e, rfl⟩ := e
    exact one (does_combinePrev g v.1 k v.2 e).exec
  case copy n b =>
    rw [Option.map_eq_some_iff] at e
    obtain ⟨q, e, rfl⟩ := e
    exact one (makes_copy g v b e).exec
  case setKind n k => subst e; exact zero (does_setKind g v k)
  case setText n t => subst e; exact zero (does_setText g v t)

/-- **C81** The single steps of a call, made one after the other by the only goroutine, have exactly the effect and the results of the call, and
panic exactly if the call does. -/
theorem C81_call {h : Heap} (w : WF h) (op : Op) (v : ∀ p ∈ op.args, Valid h p) : (op.code (h.size + 1)).exec h = op.perform h := by
  cases e : op.perform h with
  | some r => exact call_some w op v e
  | none =>
    have g := w.sound
    cases op <;> simp only [Op.args, List.mem_cons, List.not_mem_nil, or_false, forall_eq_or_imp, forall_eq] at v <;>
      simp only [Op.perform, reduceCtorEq, Option.map_eq_none_iff] at e
    case combineNext n k ms => exact (panics_combineNext g v.1 k v.2 e).bind _
    case combinePrev n k ms => exact (panics_combinePrev g v.1 k v.2 e).bind _
    case copy n b => exact (panics_copy g v b e).bind _

/-- **C81** The same for iteration, with any callback made of single steps (that keeps the lists in order, as all calls do: C24): it is the iteration
of `loop`, which calls the callback at once and then asks for the next node in the heap the callback leaves. -/
theorem C81_iter {σ : Type} {fn : σ → Ptr → Code (σ × Bool)}
    (ok : ∀ s a h h' r, WF h → a < h.size → (fn s (some a)).exec h = some (h', r) → WF h' ∧ h.size ≤ h'.size)
    (fuel : Nat) (s : σ) {h : Heap} {n : Ptr} (w : WF h) (v : Valid h n) :
    (Code.iterNext fuel fn s n).exec h =
      (loop (fun (w : Heap × σ) a => w.1.next (some a)) (fun w a => ((fn w.2 (some a)).exec w.1).map fun r => ((r.1, r.2.1), r.2.2)) fuel (h, s) n).map
        (fun r => (r.1.1, (r.1.2, r.2))) ∧
    (Code.iterPrev fuel fn s n).exec h =
      (loop (fun (w : Heap × σ) a => w.1.prev (some a)) (fun w a => ((fn w.2 (some a)).exec w.1).map fun r => ((r.1, r.2.1), r.2.2)) fuel (h, s) n).map
        (fun r => (r.1.1, (r.1.2, r.2))) :=
  ⟨exec_loop ok (fun h n w hn => ⟨(does_next w.sound hn).exec, w.sound.pNext n⟩) fuel s h n w v,
    exec_loop ok (fun h n w hn => ⟨(does_prev w.sound hn).exec, w.sound.pPrev n⟩) fuel s h n w v⟩

/-- A callback as in `C81_iter`: it takes the node behind the one it is at out of the list. -/
example : ∀ (s : Unit) a (h h' : Heap) r, WF h → a < h.size →
    ((fun (_ : Unit) p => (do let _ ← (Op.takeNext p).code 0; pure ((), true)) : Unit → Ptr → Code (Unit × Bool)) s (some a)).exec h = some (h', r) →
    WF h' ∧ h.size ≤ h'.size := by
  intro s a h h' r w ha e
  have va : ∀ p ∈ (Op.takeNext (some a)).args, Valid h p := by
    intro p hp b hb; simp only [Op.args, List.mem_singleton] at hp; subst hp; cases hb; exact ha
  have e1 := C81_call w (.takeNext (some a)) va
  have e2 : (Op.takeNext (some a)).apply h = some (h.takeNext (some a)).1 := rfl
  rw [exec_bind, show (Op.takeNext (some a)).code 0 = (Op.takeNext (some a)).code (h.size + 1) from rfl, e1] at e
  cases e
  exact ⟨Heap.wf_apply w _ va e2, Nat.le_of_eq (by simp [Heap.takeNext])⟩

/-- **C81** The same for the methods that look at one node. -/
theorem C81_look {h : Heap} (w : WF h) {n : Ptr} (v : Valid h n) :
    (Code.next n).exec h = some (h, h.next n) ∧ (Code.prev n).exec h = some (h, h.prev n) ∧ (Code.line n).exec h = some (h, h.line n) ∧
    (Code.kind n).exec h = some (h, h.kind n) ∧ (Code.text n).exec h = some (h, h.text n) ∧ (Code.describe n).exec h = some (h, h.describe n) ∧
    (∀ r, h.first n = some r → (Code.first (h.size + 1) n).exec h = some (h, r)) ∧
    (∀ r, h.last n = some r → (Code.last (h.size + 1) n).exec h = some (h, r)) :=
  have g := w.sound
  ⟨(does_next g v).exec, (does_prev g v).exec, (does_line g v).exec, (does_kind g v).exec, (does_text g v).exec, (does_describe g v).exec,
    fun _ e => (does_first g v e).exec, fun _ e => (does_last g v e).exec⟩

/-- **C81** The same for the getters of a scope. -/
theorem C81_getters {h : Heap} (w : WF h) {d : ScopeRec} (v : Valid h d.node) (r : Bytes × Bool) :
    (d.getFuncName h = some r → (Code.getFuncName (h.size + 1) d).exec h = some (h, r)) ∧
    (d.getTypeName h = some r → (Code.getTypeName (h.size + 1) d).exec h = some (h, r)) ∧
    (d.getStructName h = some r → (Code.getStructName (h.size + 1) d).exec h = some (h, r)) ∧
    (d.getInterfaceName h = some r → (Code.getInterfaceName (h.size + 1) d).exec h = some (h, r)) ∧
    (d.getMethodReceiver h = some r → (Code.getMethodReceiver (h.size + 1) d).exec h = some (h, r)) ∧
    (d.getMethodName h = some r → (Code.getMethodName (h.size + 1) d).exec h = some (h, r)) :=
  have g := w.sound
  ⟨fun e => (does_getFuncName g v e).exec, fun e => (does_getTypeName g v e).exec, fun e => (does_getStructName g v e).exec,
    fun e => (does_getInterfaceName g v e).exec, fun e => (does_getMethodReceiver g v e).exec, fun e => (does_getMethodName g v e).exec⟩

/-- Code after code, alone: the second starts where the first ended. -/
theorem C81_seq (p : Code α) (g : α → Code β) (h : Heap) : (p >>= g).exec h = (p.exec h).bind fun r => (g r.2).exec r.1 := exec_bind p g h

/-! ## Results -/

theorem mem_modify {h : Heap} {a : Nat} {r : NodeRec} (hr : h.cells[a]? = some r) (f : NodeField) (v : f.Val) :
    (h.modify a (·.put f v)).mem = h.mem.set a (r.put f v) := by
  funext b
  simp only [Heap.mem, Heap.modify, Mem.set, List.getElem?_modify]
  by_cases hb : b = a
  · subst hb; simp [hr]
  · simp [hb, Ne.symm hb]

theorem makesNone_alone : ∀ (cs : List Nat) {h : Heap} {p p₁ : Code α} {m₁ : Mem}, MakesNone p → p.alone h.mem cs = some (m₁, p₁) →
    ∃ h₁, h₁.mem = m₁ ∧ MakesNone p₁ ∧ p₁.exec h₁ = p.exec h
  | [], h, p, p₁, m₁, mn, e => by
    simp [Code.alone] at e
    obtain ⟨rfl, rfl⟩ := e
    exact ⟨h, rfl, mn, rfl⟩
  | c :: cs, h, p, p₁, m₁, mn, e => by
    simp only [Code.alone] at e
    cases p with
    | ret x => simp [Code.step] at e
    | panic => simp [Code.step] at e
    | alloc r k => exact mn.elim
    | read a f k =>
      simp only [Code.step, Heap.mem] at e
      cases hr : h.cells[a]? with
      | none => rw [hr] at e; simp at e
      | some r =>
        rw [hr] at e
        simp only [Option.map_some] at e
        obtain ⟨h₁, e1, e2, e3⟩ := makesNone_alone cs (h := h) (mn _) e
        exact ⟨h₁, e1, e2, by rw [e3]; simp [Code.exec, hr]⟩
    | write a f v k =>
      simp only [Code.step] at e
      cases hr : h.cells[a]? with
      | none => simp [Heap.mem, hr] at e
      | some r =>
        rw [show h.mem a = some r from hr] at e
        simp only [Option.map_some] at e
        rw [← mem_modify hr] at e
        obtain ⟨h₁, e1, e2, e3⟩ := makesNone_alone cs (p := k) mn e
        refine ⟨h₁, e1, e2, ?_⟩
        have ha : a < h.size := (List.getElem?_eq_some_iff.1 hr).1
        rw [e3, Code.exec, if_pos ha]

/-- **C81** So goroutines that change nodes of their own, read nodes that nobody changes and make no nodes get, under every schedule, the results
their calls give when each of them is the only one and runs from beginning to end; and each finds its nodes as these calls leave them. -/
theorem C81_results {h : Heap} {m' : Mem} {ps ps' : Nat → Code α} {R W : Nat → Nat → Prop} (nc : NoConflict h.mem R W)
    (st : ∀ i, StaysIn h.mem (ps i) (R i) (W i)) (mn : ∀ i, MakesNone (ps i)) {sched : List (Nat × Nat)}
    (e : goTogether h.mem ps sched = some (m', ps')) {i : Nat} {x : α} (hx : ps' i = .ret x) :
    ∃ hi, (ps i).exec h = some (hi, x) ∧ ∀ a, (R i a ∨ W i a) → m' a = hi.mem a := by
  obtain ⟨mi, h1, h2⟩ := (C81_alone nc st e).1 i
  obtain ⟨h₁, e1, _, e3⟩ := makesNone_alone _ (mn i) h1
  rw [hx] at e3
  exact ⟨h₁, by rw [← e3]; rfl, fun a ha => by rw [e1]; exact h2 a (ha.elim .inl fun h => .inr (.inl h))⟩

/-- **C81** The results do not depend on the schedule. -/
theorem C81_schedules {h : Heap} {m₁ m₂ : Mem} {ps ps₁ ps₂ : Nat → Code α} {R W : Nat → Nat → Prop} (nc : NoConflict h.mem R W)
    (st : ∀ i, StaysIn h.mem (ps i) (R i) (W i)) (mn : ∀ i, MakesNone (ps i)) {s₁ s₂ : List (Nat × Nat)}
    (e₁ : goTogether h.mem ps s₁ = some (m₁, ps₁)) (e₂ : goTogether h.mem ps s₂ = some (m₂, ps₂)) {i : Nat} {x y : α}
    (hx : ps₁ i = .ret x) (hy : ps₂ i = .ret y) : x = y ∧ ∀ a, W i a → m₁ a = m₂ a := by
  obtain ⟨h₁, a1, a2⟩ := C81_results nc st mn e₁ hx
  obtain ⟨h₂, b1, b2⟩ := C81_results nc st mn e₂ hy
  rw [a1] at b1
  cases b1
  exact ⟨rfl, fun a ha => by rw [a2 a (.inr ha), b2 a (.inr ha)]⟩

/-! ## Readers -/

theorem readOnly_bind {g : α → Code β} (hg : ∀ x, ReadOnly (g x)) : ∀ (p : Code α), ReadOnly p → ReadOnly (p >>= g)
  | .ret x, _ => hg x
  | .panic, _ => trivial
  | .read _ _ k, h => fun v => readOnly_bind hg (k v) (h v)
  | .write .., h => h.elim
  | .alloc .., h => h.elim

theorem readOnly_makesNone : ∀ (p : Code α), ReadOnly p → MakesNone p
  | .ret x, _ => trivial
  | .panic, _ => trivial
  | .read _ _ k, h => fun v => readOnly_makesNone (k v) (h v)
  | .write .., h => h.elim
  | .alloc .., h => h.elim

theorem readOnly_step {m m' : Mem} {p p' : Code α} {c : Nat} (hp : ReadOnly p) (e : p.step m c = some (m', p')) : m' = m ∧ ReadOnly p' := by
  cases p with
  | ret x => simp [Code.step] at e
  | panic => simp [Code.step] at e
  | read a f k =>
    simp only [Code.step, Option.map_eq_some_iff] at e
    obtain ⟨r, _, e⟩ := e
    cases e
    exact ⟨rfl, hp _⟩
  | write a f v k => exact hp.elim
  | alloc r k => exact hp.elim

/-- **C81** Goroutines that only read may all share the same nodes: nothing changes, each gets what it gets alone, and there is no race. -/
theorem C81_readers {h : Heap} {m' : Mem} {ps ps' : Nat → Code α} (ro : ∀ i, ReadOnly (ps i)) {sched : List (Nat × Nat)}
    (e : goTogether h.mem ps sched = some (m', ps')) :
    m' = h.mem ∧ (∀ i x, ps' i = .ret x → (ps i).exec h = some (h, x)) ∧ (∀ i a w, (ps' i).touches = some (a, w) → w = false) := by
  have key : ∀ (sched : List (Nat × Nat)) (qs : Nat → Code α), (∀ i, ReadOnly (qs i)) → ∀ m' qs', goTogether h.mem qs sched = some (m', qs') →
      m' = h.mem ∧ (∀ i, ReadOnly (qs' i)) ∧ ∀ i, (qs' i).exec h = (qs i).exec h := by
    intro sched
    induction sched with
    | nil =>
      intro qs hq m' qs' e
      simp [goTogether] at e
      obtain ⟨rfl, rfl⟩ := e
      exact ⟨rfl, hq, fun _ => rfl⟩
    | cons ic sched ih =>
      obtain ⟨i, c⟩ := ic
      intro qs hq m' qs' e
      simp only [goTogether] at e
      cases es : (qs i).step h.mem c with
      | none => rw [es] at e; simp at e
      | some r =>
        rw [es] at e
        obtain ⟨e1, e2⟩ := readOnly_step (hq i) (show (qs i).step h.mem c = some (r.1, r.2) from es)
        simp only [e1] at e
        obtain ⟨b1, b2, b3⟩ := ih _ (fun j => by by_cases hj : j = i <;> simp [hj, e2, hq]) m' qs' e
        refine ⟨b1, b2, fun j => ?_⟩
        rw [b3]
        by_cases hj : j = i
        · subst hj
          simp only [if_true]
          cases hp : qs j with
          | ret x => rw [hp] at es; simp [Code.step] at es
          | panic => rw [hp] at es; simp [Code.step] at es
          | read a f k =>
            rw [hp] at es
            simp only [Code.step, Heap.mem, Option.map_eq_some_iff] at es
            obtain ⟨q, hq', er⟩ := es
            subst er
            simp [Code.exec, hq']
          | write a f v k => have := hq j; rw [hp] at this; exact this.elim
          | alloc r k => have := hq j; rw [hp] at this; exact this.elim
        · simp [hj]
  obtain ⟨h1, h2, h3⟩ := key sched ps ro m' ps' e
  refine ⟨h1, fun i x hx => ?_, fun i a w ht => ?_⟩
  · rw [← h3 i, hx]; rfl
  · have := h2 i
    cases hp : ps' i with
    | ret x => rw [hp] at ht; simp [Code.touches] at ht
    | panic => rw [hp] at ht; simp [Code.touches] at ht
    | read b f k => rw [hp] at ht; simp [Code.touches] at ht; exact ht.2
    | write b f v k => rw [hp] at this; exact this.elim
    | alloc r k => rw [hp] at this; exact this.elim

theorem readOnly_pure (x : α) : ReadOnly (pure x : Code α) := trivial

theorem readOnly_load (n : Ptr) (f : NodeField) : ReadOnly (Code.load n f) := by
  cases n with
  | none => trivial
  | some a => exact fun v => trivial

theorem readOnly_next (n : Ptr) : ReadOnly (Code.next n) := by
  cases n with
  | none => trivial
  | some a => exact fun v => trivial

theorem readOnly_prev (n : Ptr) : ReadOnly (Code.prev n) := by
  cases n with
  | none => trivial
  | some a => exact fun v => trivial

theorem readOnly_line (n : Ptr) : ReadOnly (Code.line n) := by
  cases n with
  | none => trivial
  | some a => exact fun v => trivial

theorem readOnly_kind (n : Ptr) : ReadOnly (Code.kind n) := by
  cases n with
  | none => trivial
  | some a => exact fun v => trivial

theorem readOnly_text (n : Ptr) : ReadOnly (Code.text n) := by
  cases n with
  | none => trivial
  | some a => exact fun v => trivial

theorem readOnly_loop {σ : Type} {iter : Ptr → Code Ptr} {fn : σ → Ptr → Code (σ × Bool)} (hi : ∀ n, ReadOnly (iter n)) (hf : ∀ s n, ReadOnly (fn s n)) :
    ∀ (fuel : Nat) (s : σ) (n : Ptr), ReadOnly (Code.loop iter fn fuel s n)
  | _, s, none => by unfold Code.loop; trivial
  | 0, s, some a => trivial
  | fuel + 1, s, some a => by
    unfold Code.loop
    refine readOnly_bind (fun r => ?_) _ (hf s _)
    obtain ⟨s', go⟩ := r
    cases go with
    | false => trivial
    | true => exact readOnly_bind (fun nn => readOnly_loop hi hf fuel s' nn) _ (hi _)

theorem readOnly_findKindName (fuel : Nat) (n : Ptr) (k : Kind) : ReadOnly (Code.findKindName fuel n k) :=
  readOnly_bind (fun _ => readOnly_pure _) _ (readOnly_loop readOnly_next
    (fun _ n => readOnly_bind (fun _ => readOnly_bind (fun _ => readOnly_pure _) _ (readOnly_text n)) _ (readOnly_kind n)) _ _ _)

theorem readOnly_hasKind (fuel : Nat) (n : Ptr) (k : Kind) : ReadOnly (Code.hasKind fuel n k) :=
  readOnly_bind (fun _ => readOnly_pure _) _ (readOnly_loop readOnly_next (fun _ n => readOnly_bind (fun _ => readOnly_pure _) _ (readOnly_kind n)) _ _ _)

theorem readOnly_getTypeName (fuel : Nat) (d : ScopeRec) : ReadOnly (Code.getTypeName fuel d) := by
  unfold Code.getTypeName; split
  · trivial
  · exact readOnly_findKindName ..

theorem readOnly_getMethodReceiver (fuel : Nat) (d : ScopeRec) : ReadOnly (Code.getMethodReceiver fuel d) := by
  unfold Code.getMethodReceiver; split
  · trivial
  · exact readOnly_findKindName ..

/-- **C81** The methods that look at nodes only read, iteration too if the callback only reads, and so does code made of them. -/
theorem C81_look_only (n : Ptr) (d : ScopeRec) (fuel : Nat) :
    ReadOnly (Code.next n) ∧ ReadOnly (Code.prev n) ∧ ReadOnly (Code.line n) ∧ ReadOnly (Code.kind n) ∧ ReadOnly (Code.text n) ∧
    ReadOnly (Code.describe n) ∧ ReadOnly (Code.first fuel n) ∧ ReadOnly (Code.last fuel n) ∧
    ReadOnly (Code.getFuncName fuel d) ∧ ReadOnly (Code.getTypeName fuel d) ∧ ReadOnly (Code.getStructName fuel d) ∧
    ReadOnly (Code.getInterfaceName fuel d) ∧ ReadOnly (Code.getMethodReceiver fuel d) ∧ ReadOnly (Code.getMethodName fuel d) ∧
    (∀ (σ : Type) (fn : σ → Ptr → Code (σ × Bool)) (s : σ), (∀ s n, ReadOnly (fn s n)) →
      ReadOnly (Code.iterNext fuel fn s n) ∧ ReadOnly (Code.iterPrev fuel fn s n)) ∧
    (∀ (α β : Type) (p : Code α) (g : α → Code β), ReadOnly p → (∀ x, ReadOnly (g x)) → ReadOnly (p >>= g)) := by
  refine ⟨readOnly_next n, readOnly_prev n, readOnly_line n, readOnly_kind n, readOnly_text n, ?_, ?_, ?_, ?_, readOnly_getTypeName fuel d, ?_, ?_,
    readOnly_getMethodReceiver fuel d, ?_, ?_, fun α β p g h h' => readOnly_bind h' p h⟩
  · unfold Code.describe; split
    · trivial
    · exact readOnly_bind (fun _ => readOnly_bind (fun _ => readOnly_bind (fun _ => readOnly_pure _) _ (readOnly_kind n)) _ (readOnly_text n)) _ (readOnly_line n)
  · exact readOnly_bind (fun _ => readOnly_pure _) _ (readOnly_loop readOnly_prev (fun _ n => readOnly_bind (fun _ => readOnly_pure _) _ (readOnly_prev n)) _ _ _)
  · exact readOnly_bind (fun _ => readOnly_pure _) _ (readOnly_loop readOnly_next (fun _ n => readOnly_bind (fun _ => readOnly_pure _) _ (readOnly_next n)) _ _ _)
  · unfold Code.getFuncName; split
    · trivial
    · refine readOnly_bind (fun _ => readOnly_pure _) _ (readOnly_loop readOnly_next (fun _ n => readOnly_bind (fun k => ?_) _ (readOnly_kind n)) _ _ _)
      split
      · exact readOnly_bind (fun _ => readOnly_pure _) _ (readOnly_text n)
      · trivial
  · unfold Code.getStructName; split
    · trivial
    · exact readOnly_bind (fun _ => readOnly_bind (fun _ => readOnly_pure _) _ (readOnly_getTypeName fuel d)) _ (readOnly_hasKind ..)
  · unfold Code.getInterfaceName; split
    · trivial
    · exact readOnly_bind (fun _ => readOnly_bind (fun _ => readOnly_pure _) _ (readOnly_getTypeName fuel d)) _ (readOnly_hasKind ..)
  · unfold Code.getMethodName; split
    · trivial
    · refine readOnly_bind (fun r => ?_) _ (readOnly_getMethodReceiver fuel d)
      split
      · exact readOnly_findKindName ..
      · trivial
  · exact fun σ fn s hf => ⟨readOnly_loop readOnly_next hf _ _ _, readOnly_loop readOnly_prev hf _ _ _⟩

/-! ## Where the conditions hold -/

theorem makesNone_bind {g : α → Code β} (hg : ∀ x, MakesNone (g x)) : ∀ (p : Code α), MakesNone p → MakesNone (p >>= g)
  | .ret x, _ => hg x
  | .panic, _ => trivial
  | .read _ _ k, h => fun v => makesNone_bind hg (k v) (h v)
  | .write _ _ _ k, h => makesNone_bind hg k h
  | .alloc .., h => h.elim

theorem makesNone_pure (x : α) : MakesNone (pure x : Code α) := trivial

theorem makesNone_prev (n : Ptr) : MakesNone (Code.prev n) := readOnly_makesNone _ (readOnly_prev n)

theorem makesNone_next (n : Ptr) : MakesNone (Code.next n) := readOnly_makesNone _ (readOnly_next n)

theorem makesNone_store (n : Ptr) (f : NodeField) (v : f.Val) : MakesNone (Code.store n f v) := by
  cases n <;> trivial

theorem makesNone_setKind (n : Ptr) (k : Kind) : MakesNone (Code.setKind n k) := by
  cases n <;> trivial

theorem makesNone_setText (n : Ptr) (t : Bytes) : MakesNone (Code.setText n t) := by
  cases n <;> trivial

theorem makesNone_setPrev (n nn : Ptr) : MakesNone (Code.setPrev n nn) := by
  unfold Code.setPrev; split
  · trivial
  · refine makesNone_bind (fun p => ?_) _ (readOnly_makesNone _ (readOnly_load n _))
    split
    · exact makesNone_bind (fun q => makesNone_bind (fun _ => makesNone_store _ .prev _) _ (makesNone_store _ .next _)) _ (readOnly_makesNone _ (readOnly_load n _))
    · exact makesNone_store _ .prev _

theorem makesNone_setNext (n nn : Ptr) : MakesNone (Code.setNext n nn) := by
  unfold Code.setNext; split
  · trivial
  · refine makesNone_bind (fun p => ?_) _ (readOnly_makesNone _ (readOnly_load n _))
    split
    · exact makesNone_bind (fun q => makesNone_bind (fun _ => makesNone_store _ .next _) _ (makesNone_store _ .prev _)) _ (readOnly_makesNone _ (readOnly_load n _))
    · exact makesNone_store _ .next _

theorem makesNone_isolate (n : Ptr) : MakesNone (Code.isolate n) :=
  makesNone_bind (fun _ => makesNone_bind (fun _ => makesNone_bind (fun _ => makesNone_bind (fun _ => makesNone_bind (fun _ => makesNone_setNext ..) _
    (makesNone_setPrev ..)) _ (makesNone_setPrev ..)) _ (makesNone_next n)) _ (makesNone_setNext ..)) _ (makesNone_prev n)

theorem makesNone_combineLoop (n : Ptr) : ∀ (ms : List Ptr) (buf : List Bytes), MakesNone (Code.combineLoop n ms buf)
  | [], buf => trivial
  | m :: ms, buf => by
    unfold Code.combineLoop; split
    · exact makesNone_combineLoop n ms buf
    · exact makesNone_bind (fun _ => makesNone_bind (fun _ => makesNone_combineLoop n ms _) _ (makesNone_isolate m)) _ (readOnly_makesNone _ (readOnly_text m))

/-- **C81** The calls that change nodes make none, but for `NewNode`, `NewNodes` and `Copy`. -/
theorem C81_changes_make_none (fuel : Nat) (op : Op) (hn : ∀ l t ks, op ≠ .newNode l t ks) (hns : ∀ l ts, op ≠ .newNodes l ts)
    (hc : ∀ n b, op ≠ .copy n b) : MakesNone (op.code fuel) := by
  have sp := makesNone_setPrev
  have sn := makesNone_setNext
  have pv := makesNone_prev
  have nx := makesNone_next
  have B : ∀ {α β : Type} {p : Code α} {g : α → Code β}, MakesNone p → (∀ x, MakesNone (g x)) → MakesNone (p >>= g) := fun h h' => makesNone_bind h' _ h
  cases op
  case newNode l t ks => exact (hn l t ks rfl).elim
  case newNodes l ts => exact (hns l ts rfl).elim
  case copy n b => exact (hc n b rfl).elim
  case insertNext n m =>
    refine B ?_ fun _ => makesNone_pure _
    unfold Code.insertNext; split
    · trivial
    · refine B (nx n) fun p => ?_
      split
      · trivial
      · exact B (pv _) fun _ => B (nx _) fun _ => B (nx _) fun _ => B (sn ..) fun _ => B (sp ..) fun _ => B (sn ..) fun _ => B (sp ..) fun _ =>
          B (sn ..) fun _ => B (sp ..) fun _ => makesNone_pure _
  case insertPrev n m =>
    refine B ?_ fun _ => makesNone_pure _
    unfold Code.insertPrev; split
    · trivial
    · refine B (pv n) fun p => ?_
      split
      · trivial
      · exact B (pv _) fun _ => B (nx _) fun _ => B (pv _) fun _ => B (sp ..) fun _ => B (sn ..) fun _ => B (sp ..) fun _ => B (sn ..) fun _ =>
          B (sn ..) fun _ => B (sp ..) fun _ => makesNone_pure _
  case replaceNext n m =>
    refine B ?_ fun _ => makesNone_pure _
    unfold Code.replaceNext; split
    · trivial
    · refine B (nx n) fun p => ?_
      split
      · trivial
      · exact B (pv _) fun _ => B (nx _) fun _ => B (sn ..) fun _ => B (sp ..) fun _ => B (sn ..) fun _ => B (sp ..) fun _ => makesNone_pure _
  case replacePrev n m =>
    refine B ?_ fun _ => makesNone_pure _
    unfold Code.replacePrev; split
    · trivial
    · refine B (pv n) fun p => ?_
      split
      · trivial
      · exact B (pv _) fun _ => B (nx _) fun _ => B (sp ..) fun _ => B (sn ..) fun _ => B (sn ..) fun _ => B (sp ..) fun _ => makesNone_pure _
  case takeNext n =>
    exact B (B (nx _) fun _ => B (nx _) fun _ => B (sn ..) fun _ => B (sp ..) fun _ => B (sn ..) fun _ => B (sp ..) fun _ => makesNone_pure _) fun _ => makesNone_pure _
  case takePrev n =>
    exact B (B (pv _) fun _ => B (pv _) fun _ => B (sp ..) fun _ => B (sn ..) fun _ => B (sn ..) fun _ => B (sp ..) fun _ => makesNone_pure _) fun _ => makesNone_pure _
  case removeNext n => exact B (B (nx _) fun _ => B (sn ..) fun _ => B (sp ..) fun _ => makesNone_pure _) fun _ => makesNone_pure _
  case removePrev n => exact B (B (pv _) fun _ => B (sp ..) fun _ => B (sn ..) fun _ => makesNone_pure _) fun _ => makesNone_pure _
  case isolate n => exact B (makesNone_isolate n) fun _ => makesNone_pure _
  case setKind n k => exact B (makesNone_setKind n k) fun _ => makesNone_pure _
  case setText n t => exact B (makesNone_setText n t) fun _ => makesNone_pure _
  case combineNext n k ms =>
    refine B (B (makesNone_setKind n k) fun _ => ?_) fun _ => makesNone_pure _
    cases ms with
    | nil => trivial
    | cons m ms =>
      exact B (readOnly_makesNone _ (readOnly_text _)) fun _ => B (makesNone_combineLoop ..) fun _ => B (makesNone_store _ .text _) fun _ => makesNone_pure _
  case combinePrev n k ms =>
    refine B (B (makesNone_setKind n k) fun _ => ?_) fun _ => makesNone_pure _
    cases ms with
    | nil => trivial
    | cons m ms =>
      exact B (readOnly_makesNone _ (readOnly_text _)) fun _ => B (makesNone_combineLoop ..) fun _ => B (makesNone_store _ .text _) fun _ => makesNone_pure _

/-- **C81** Careful calls may be made one after the other, the later ones on nodes the earlier ones returned. -/
theorem C81_careful_seq {shared own : Nat → Prop} {Q : (Nat → Prop) → α → Prop} {Q' : (Nat → Prop) → β → Prop} {p : Code α} {g : α → Code β}
    (hp : Careful shared p own Q) (hg : ∀ o x, Q o x → Careful shared (g x) o Q') : Careful shared (p >>= g) own Q' :=
  careful_bind g p own (careful_mono hg p own hp)

/-- Iteration with a careful callback, starting in a set `S o` of nodes (own or shared) closed under the iterator. -/
theorem careful_iter {shared : Nat → Prop} {σ : Type} {iter : Ptr → Code Ptr} {fn : σ → Ptr → Code (σ × Bool)}
    {S : (Nat → Prop) → Nat → Prop} {I : (Nat → Prop) → σ → Prop} (smono : ∀ o o', (∀ a, o a → o' a) → ∀ a, S o a → S o' a)
    (hi : ∀ o n, PtrTo (S o) n → Careful shared (iter n) o (NoneMade o (PtrTo (S o)))) :
    ∀ (fuel : Nat) (own : Nat → Prop) (s : σ) (n : Ptr),
    (∀ o s n, (∀ a, own a → o a) → PtrTo (S o) n → I o s → Careful shared (fn s n) o fun o' r => (∀ a, o a → o' a) ∧ I o' r.1) →
    PtrTo (S own) n → I own s →
    Careful shared (Code.loop iter fn fuel s n) own fun o r => (∀ a, own a → o a) ∧ I o r.1 ∧ PtrTo (S o) r.2
  | _, own, s, none, _, _, hs => by unfold Code.loop; exact ⟨fun _ h => h, hs, .none⟩
  | 0, own, s, some a, _, _, _ => trivial
  | fuel + 1, own, s, some a, hf, hn, hs => by
    unfold Code.loop
    refine C81_careful_seq (hf own s _ (fun _ h => h) hn hs) fun o r hr => ?_
    obtain ⟨s', go⟩ := r
    have hn' : PtrTo (S o) (some a) := hn.mono (smono _ _ hr.1)
    cases go with
    | false => exact ⟨hr.1, hr.2, hn'⟩
    | true =>
      refine C81_careful_seq (hi o _ hn') fun o' nn h => ?_
      obtain ⟨rfl, hnn⟩ := h
      refine careful_mono (fun o'' x h => ⟨fun b hb => h.1 b (hr.1 b hb), h.2⟩) _ _
        (careful_iter smono hi fuel o' s' nn (fun o s n ho => hf o s n fun b hb => ho b (hr.1 b hb)) hnn hr.2)

/-- **C81** Looking is careful as well: a goroutine may look at its own nodes and at the shared ones (the getters of scopes included), the neighbours of its own nodes are its own
and those of shared nodes are shared; and it may iterate over both kinds of nodes, with a callback that is careful (and may change the own nodes
and make new ones). -/
theorem C81_look_careful (shared own : Nat → Prop) (n : Ptr) :
    (PtrTo own n ∨ PtrTo shared n →
      Careful shared (Code.line n) own (fun o _ => o = own) ∧ Careful shared (Code.kind n) own (fun o _ => o = own) ∧
      Careful shared (Code.text n) own (fun o _ => o = own) ∧ Careful shared (Code.describe n) own (fun o _ => o = own)) ∧
    (PtrTo own n → Careful shared (Code.next n) own (fun o p => o = own ∧ PtrTo own p) ∧
      Careful shared (Code.prev n) own (fun o p => o = own ∧ PtrTo own p)) ∧
    (PtrTo shared n → Careful shared (Code.next n) own (fun o p => o = own ∧ PtrTo shared p) ∧
      Careful shared (Code.prev n) own (fun o p => o = own ∧ PtrTo shared p)) ∧
    (∀ (d : ScopeRec) (fuel : Nat), PtrTo own d.node ∨ PtrTo shared d.node →
      Careful shared (Code.getFuncName fuel d) own (fun o _ => o = own) ∧ Careful shared (Code.getTypeName fuel d) own (fun o _ => o = own) ∧
      Careful shared (Code.getStructName fuel d) own (fun o _ => o = own) ∧ Careful shared (Code.getInterfaceName fuel d) own (fun o _ => o = own) ∧
      Careful shared (Code.getMethodReceiver fuel d) own (fun o _ => o = own) ∧ Careful shared (Code.getMethodName fuel d) own (fun o _ => o = own)) ∧
    (∀ (σ : Type) (fn : σ → Ptr → Code (σ × Bool)) (s : σ) (I : (Nat → Prop) → σ → Prop) (fuel : Nat), PtrTo own n → I own s →
      (∀ o s p, (∀ a, own a → o a) → PtrTo o p → I o s → Careful shared (fn s p) o fun o' r => (∀ a, o a → o' a) ∧ I o' r.1) →
      Careful shared (Code.iterNext fuel fn s n) own (fun o r => (∀ a, own a → o a) ∧ I o r.1 ∧ PtrTo o r.2) ∧
      Careful shared (Code.iterPrev fuel fn s n) own (fun o r => (∀ a, own a → o a) ∧ I o r.1 ∧ PtrTo o r.2)) ∧
    (∀ (σ : Type) (fn : σ → Ptr → Code (σ × Bool)) (s : σ) (I : (Nat → Prop) → σ → Prop) (fuel : Nat), PtrTo shared n → I own s →
      (∀ o s p, (∀ a, own a → o a) → PtrTo shared p → I o s → Careful shared (fn s p) o fun o' r => (∀ a, o a → o' a) ∧ I o' r.1) →
      Careful shared (Code.iterNext fuel fn s n) own (fun o r => (∀ a, own a → o a) ∧ I o r.1 ∧ PtrTo shared r.2) ∧
      Careful shared (Code.iterPrev fuel fn s n) own (fun o r => (∀ a, own a → o a) ∧ I o r.1 ∧ PtrTo shared r.2)) := by
  have nxS : ∀ (own : Nat → Prop) n, PtrTo shared n → Careful shared (Code.next n) own (NoneMade own (PtrTo shared)) := by
    intro own n h
    cases n with
    | none => exact careful_pure .none
    | some a => exact careful_loadS h .next
  have pvS : ∀ (own : Nat → Prop) n, PtrTo shared n → Careful shared (Code.prev n) own (NoneMade own (PtrTo shared)) := by
    intro own n h
    cases n with
    | none => exact careful_pure .none
    | some a => exact careful_loadS h .prev
  have one : ∀ {γ : Type} {P : γ → Prop} {p : Code γ}, Careful shared p own (NoneMade own P) → Careful shared p own fun o _ => o = own :=
    fun h => careful_mono (fun _ _ h => h.1) _ _ h
  refine ⟨fun h => ⟨one (careful_lineB h), one (careful_kindB h), one (careful_textB h), one (careful_describe h)⟩,
    fun h => ⟨careful_next h, careful_prev h⟩, fun h => ⟨nxS own n h, pvS own n h⟩, ?_, ?_, ?_⟩
  · intro d fuel h
    exact ⟨one (careful_getFuncName fuel h), one (careful_getTypeName fuel h), one (careful_getStructName fuel h), one (careful_getInterfaceName fuel h),
      one (careful_getMethodReceiver fuel h), one (careful_getMethodName fuel h)⟩
  · intro σ fn s I fuel hn hs hf
    exact ⟨careful_iter (S := fun o => o) (fun _ _ h => h) (fun o n h => careful_next h) fuel own s n hf hn hs,
      careful_iter (S := fun o => o) (fun _ _ h => h) (fun o n h => careful_prev h) fuel own s n hf hn hs⟩
  · intro σ fn s I fuel hn hs hf
    exact ⟨careful_iter (S := fun _ => shared) (fun _ _ _ _ h => h) (fun o n h => nxS o n h) fuel own s n hf hn hs,
      careful_iter (S := fun _ => shared) (fun _ _ _ _ h => h) (fun o n h => pvS o n h) fuel own s n hf hn hs⟩

/-- **C81** A chain of nodes is an island, and so are the sets of nodes of goroutines that have nothing in common (C69), for example those that got
different scopes of one parse (`C69_scopes`). -/
theorem C81_islands {h : Heap} :
    (∀ l, Chain h l → Island h.mem (· ∈ l)) ∧ (∀ gs own, Apart h gs own → (∀ i, Island h.mem (own i)) ∧ ∀ i j a, own i a → own j a → i = j) := by
  have ex : ∀ a, a < h.size → ∃ r, h.mem a = some r := fun a ha => ⟨_, List.getElem?_eq_getElem ha⟩
  have nx : ∀ a r b, h.mem a = some r → r.next = some b → h.next (some a) = some b := by
    intro a r b hr hb; simp only [Heap.mem] at hr; simp [Heap.next, hr, hb]
  have pv : ∀ a r b, h.mem a = some r → r.prev = some b → h.prev (some a) = some b := by
    intro a r b hr hb; simp only [Heap.mem] at hr; simp [Heap.prev, hr, hb]
  refine ⟨fun l c => ?_, fun gs own ap => ⟨fun i => ?_, ap.disjoint⟩⟩
  · obtain ⟨c1, c2, c3, c4⟩ := c
    refine ⟨fun a ha => ex a (c1 a ha), fun a r b ha hr hb => ?_, fun a r b ha hr hb => ?_⟩
    · have hp := pv a r b hr hb
      obtain ⟨l1, l2, rfl⟩ := List.append_of_mem ha
      rcases List.eq_nil_or_concat l1 with rfl | ⟨l3, x, rfl⟩
      · have := c2 a (by simp); rw [hp] at this; cases this
      · have := (c4 l3 x a l2 (by simp)).2
        rw [hp] at this; cases this; simp
    · have hp := nx a r b hr hb
      obtain ⟨l1, l2, rfl⟩ := List.append_of_mem ha
      cases l2 with
      | nil => have := c3 a (by simp); rw [hp] at this; cases this
      | cons x l2 =>
        have := (c4 l1 a x l2 (by simp)).1
        rw [hp] at this; cases this; simp
  · exact ⟨fun a ha => ex a (ap.exist i a ha), fun a r b ha hr hb => ap.prev i a b ha (pv a r b hr hb), fun a r b ha hr hb => ap.next i a b ha (nx a r b hr hb)⟩

/-! ## Nodes that are not one's own -/

/-- **C81, witness** The nodes must be of their own.  Two goroutines call `n.RemoveNext()` on the same node, whose successor is another one: if one call
is made after the other nothing bad happens, but there is a schedule under which one of them panics: between its test that there is a successor and its
use of it the other one has taken it away. -/
theorem C81_shared_panic : ∃ (h : Heap) (ps : Nat → Code Ptr) (sched : List (Nat × Nat)), WF h ∧ Acyclic h ∧
    (∀ i, i < 2 → ps i = Code.removeNext (some 0)) ∧
    ((goTogether h.mem ps sched).map fun r => (r.2 1).panicked) = some true ∧
    (((Code.removeNext (some 0)).exec h).bind fun r => (Code.removeNext (some 0)).exec r.1).isSome = true :=
  ⟨(Heap.empty.newNodes 0 [b!"a", b!"b"]).1, fun _ => Code.removeNext (some 0), List.replicate 2 (1, 0) ++ List.replicate 7 (0, 0) ++ [(1, 0)],
    Heap.newNodes_wf Heap.wf_empty _ _, Heap.acyclic_newNodes Heap.wf_empty (fun a ha => by simp [Heap.empty, Heap.size] at ha) _ _, fun _ _ => rfl,
    by decide +kernel, by decide +kernel⟩

/-- **C81, witness** And a node can get lost: two goroutines insert a node each behind the same node; whichever call comes first, both are then in the
list; but there is a schedule under which both calls end and one of the nodes is in no list. -/
theorem C81_shared_lost : ∃ (h : Heap) (sched : List (Nat × Nat)), WF h ∧ Acyclic h ∧
    ((goTogether h.mem (fun i => if i = 0 then Code.insertNext (some 0) (some 2) else Code.insertNext (some 0) (some 3)) sched).map fun r =>
      ((List.range 4).filterMap fun a => (r.1 a).map fun q => (q.prev, q.next), (r.2 0).returned && (r.2 1).returned)) =
      some ([(none, some 3), (some 3, none), (none, none), (some 0, some 1)], true) ∧
    (((Code.insertNext (some 0) (some 2)).exec h).bind fun r => (Code.insertNext (some 0) (some 3)).exec r.1).map (fun r =>
      (r.1.next (some 0), r.1.next (some 3), r.1.next (some 2), r.1.next (some 1))) = some (some 3, some 2, some 1, none) ∧
    (((Code.insertNext (some 0) (some 3)).exec h).bind fun r => (Code.insertNext (some 0) (some 2)).exec r.1).map (fun r =>
      (r.1.next (some 0), r.1.next (some 2), r.1.next (some 3), r.1.next (some 1))) = some (some 2, some 3, some 1, none) := by
  have w1 := Heap.newNodes_wf Heap.wf_empty 0 [b!"a", b!"b"]
  have a1 := Heap.acyclic_newNodes Heap.wf_empty (fun a ha => by simp [Heap.empty, Heap.size] at ha) 0 [b!"a", b!"b"]
  have w2 := Heap.newNodes_wf w1 0 [b!"c"]
  have a2 := Heap.acyclic_newNodes w1 a1 0 [b!"c"]
  exact ⟨_, List.replicate 4 (1, 0) ++ List.replicate 14 (0, 0) ++ List.replicate 12 (1, 0), Heap.newNodes_wf w2 0 [b!"d"], Heap.acyclic_newNodes w2 a2 0 [b!"d"],
    by decide +kernel, by decide +kernel, by decide +kernel⟩

/-! ## The hypotheses are met -/

/-- Two lists of two nodes and a single node. -/
def stepsHeap : Heap :=
  (((Heap.empty.newNodes 0 [b!"a", b!"b"]).1.newNodes 0 [b!"c", b!"d"]).1.newNodes 0 [b!"e"]).1

/-- Goroutine 0 takes the second node of the first list and reads the shared single node, goroutine 1 changes a text of the second list and copies the
shared node, all others do nothing. -/
def stepsCode : Nat → Code Bytes
  | 0 => do let _ ← (Op.takeNext (some 0)).code 0; Code.text (some 4)
  | 1 => do let _ ← (Op.setText (some 2) b!"x").code 0; let _ ← (Op.copy (some 4) true).code 3; pure b!"done"
  | _ => pure []

/-- Who owns which nodes. -/
def stepsOwn (i a : Nat) : Prop := (i = 0 ∧ (a = 0 ∨ a = 1)) ∨ (i = 1 ∧ (a = 2 ∨ a = 3))

example : NoConflict stepsHeap.mem (fun _ a => a = 4) stepsOwn ∧ ∀ i, StaysIn stepsHeap.mem (stepsCode i) (fun a => a = 4) (stepsOwn i) := by
  have cells : stepsHeap.cells = [⟨0, Kind.new b!"a", b!"a", none, some 1⟩, ⟨0, Kind.new b!"b", b!"b", some 0, none⟩,
      ⟨0, Kind.new b!"c", b!"c", none, some 3⟩, ⟨0, Kind.new b!"d", b!"d", some 2, none⟩, ⟨0, Kind.new b!"e", b!"e", none, none⟩] := by decide +kernel
  have m0 : ∀ a, stepsHeap.mem a = stepsHeap.cells[a]? := fun _ => rfl
  refine C81_careful (Q := fun _ _ _ => True) (fun i => ⟨?_, ?_, ?_⟩) ⟨?_, ?_, ?_⟩ ?_ ?_ fun i => ?_
  · rintro a (⟨_, rfl | rfl⟩ | ⟨_, rfl | rfl⟩) <;> simp [m0, cells]
  · rintro a r b (⟨rfl, rfl | rfl⟩ | ⟨rfl, rfl | rfl⟩) hr hb <;> simp [m0, cells] at hr <;> subst hr <;> simp_all [stepsOwn]
  · rintro a r b (⟨rfl, rfl | rfl⟩ | ⟨rfl, rfl | rfl⟩) hr hb <;> simp [m0, cells] at hr <;> subst hr <;> simp_all [stepsOwn]
  · rintro a rfl; simp [m0, cells]
  · rintro a r b rfl hr hb; simp [m0, cells] at hr; subst hr; simp_all
  · rintro a r b rfl hr hb; simp [m0, cells] at hr; subst hr; simp_all
  · intro i j a h h'; simp only [stepsOwn] at h h'; omega
  · intro i a h e; simp only [stepsOwn] at h; omega
  · match i with
    | 0 =>
      refine C81_careful_seq (C81_calls_careful _ _ 0 (.takeNext (some 0)) (.inl fun p hp => ?_)) fun o x hx => ?_
      · simp [Op.args] at hp; subst hp; intro a h; cases h; exact .inl ⟨rfl, .inl rfl⟩
      · exact .inr ⟨rfl, fun _ _ => trivial⟩
    | 1 =>
      refine C81_careful_seq (C81_calls_careful _ _ 0 (.setText (some 2) b!"x") (.inl fun p hp => ?_)) fun o x hx => ?_
      · simp [Op.args] at hp; subst hp; intro a h; cases h; exact .inr ⟨rfl, .inl rfl⟩
      · exact C81_careful_seq (C81_calls_careful _ _ 3 (.copy (some 4) true) (.inr ⟨_, _, rfl, fun a h => by cases h; rfl⟩)) fun o x hx => trivial
    | i + 2 => trivial

/-- Under one of the schedules both end; goroutine 0 has read the text of the shared node, its first list is cut, and goroutine 1 has changed its text. -/
example : ((goTogether stepsHeap.mem stepsCode
      ([(0, 0), (1, 0), (1, 0), (0, 0)] ++ List.replicate 4 (1, 5) ++ List.replicate 9 (0, 0) ++ List.replicate 3 (1, 5))).map fun r =>
    ((r.2 0).returned && (r.2 1).returned, (List.range 4).filterMap fun a => (r.1 a).map fun q => (q.text, q.prev, q.next))) =
    some (true, [(b!"a", none, none), (b!"b", none, none), (b!"x", none, some 3), (b!"d", some 2, none)]) := by decide +kernel

end Goast
