import Verif.Spec.WaitFree
import Verif.Proofs.StepsCareful

/-! # Proofs: how many steps the calls take -/

set_option linter.unusedSimpArgs false
set_option linter.unusedVariables false

namespace Goast

variable {α β : Type}

/-! ## Steps on every path -/

/-- On no path, whatever is read, are there more than `n` steps. -/
def AtMost : Code α → Nat → Prop
  | .ret _, _ => True
  | .panic, _ => True
  | .read _ _ k, n => ∃ n', n = n' + 1 ∧ ∀ v, AtMost (k v) n'
  | .write _ _ _ k, n => ∃ n', n = n' + 1 ∧ AtMost k n'
  | .alloc _ k, n => ∃ n', n = n' + 1 ∧ ∀ a, AtMost (k a) n'

theorem atMost_mono : ∀ (p : Code α) {n n' : Nat}, AtMost p n → n ≤ n' → AtMost p n'
  | .ret _, _, _, _, _ => trivial
  | .panic, _, _, _, _ => trivial
  | .read _ _ k, n, n', h, l => by
    obtain ⟨i, rfl, h⟩ := h
    exact ⟨n' - 1, by omega, fun v => atMost_mono (k v) (h v) (by omega)⟩
  | .write _ _ _ k, n, n', h, l => by
    obtain ⟨i, rfl, h⟩ := h
    exact ⟨n' - 1, by omega, atMost_mono k h (by omega)⟩
  | .alloc _ k, n, n', h, l => by
    obtain ⟨i, rfl, h⟩ := h
    exact ⟨n' - 1, by omega, fun v => atMost_mono (k v) (h v) (by omega)⟩

theorem atMost_bind {g : α → Code β} : ∀ (p : Code α) {a b : Nat}, AtMost p a → (∀ x, AtMost (g x) b) → AtMost (p >>= g) (a + b)
  | .ret x, a, b, _, hg => atMost_mono _ (hg x) (by omega)
  | .panic, _, _, _, _ => trivial
  | .read _ _ k, a, b, h, hg => by
    obtain ⟨i, rfl, h⟩ := h
    exact ⟨i + b, by omega, fun v => atMost_bind (k v) (h v) hg⟩
  | .write _ _ _ k, a, b, h, hg => by
    obtain ⟨i, rfl, h⟩ := h
    exact ⟨i + b, by omega, atMost_bind k h hg⟩
  | .alloc _ k, a, b, h, hg => by
    obtain ⟨i, rfl, h⟩ := h
    exact ⟨i + b, by omega, fun v => atMost_bind (k v) (h v) hg⟩

theorem am {p : Code α} {g : α → Code β} {a b c : Nat} (hp : AtMost p a) (hc : a + b = c) (hg : ∀ x, AtMost (g x) b) : AtMost (p >>= g) c :=
  hc ▸ atMost_bind p hp hg

theorem atMost_pure (x : α) (n : Nat) : AtMost (pure x : Code α) n := trivial

theorem atMost_load (n : Ptr) (f : NodeField) : AtMost (Code.load n f) 1 := by
  cases n with
  | none => trivial
  | some a => exact ⟨0, rfl, fun _ => trivial⟩

theorem atMost_store (n : Ptr) (f : NodeField) (v : f.Val) : AtMost (Code.store n f v) 1 := by
  cases n with
  | none => trivial
  | some a => exact ⟨0, rfl, trivial⟩

theorem atMost_prev (n : Ptr) : AtMost (Code.prev n) 1 := by cases n; exact trivial; exact ⟨0, rfl, fun _ => trivial⟩
theorem atMost_next (n : Ptr) : AtMost (Code.next n) 1 := by cases n; exact trivial; exact ⟨0, rfl, fun _ => trivial⟩
theorem atMost_line (n : Ptr) : AtMost (Code.line n) 1 := by cases n; exact trivial; exact ⟨0, rfl, fun _ => trivial⟩
theorem atMost_kind (n : Ptr) : AtMost (Code.kind n) 1 := by cases n; exact trivial; exact ⟨0, rfl, fun _ => trivial⟩
theorem atMost_text (n : Ptr) : AtMost (Code.text n) 1 := by cases n; exact trivial; exact ⟨0, rfl, fun _ => trivial⟩
theorem atMost_setKind (n : Ptr) (k : Kind) : AtMost (Code.setKind n k) 1 := by cases n; exact trivial; exact ⟨0, rfl, trivial⟩
theorem atMost_setText (n : Ptr) (t : Bytes) : AtMost (Code.setText n t) 1 := by cases n; exact trivial; exact ⟨0, rfl, trivial⟩

theorem atMost_setPrev (n nn : Ptr) : AtMost (Code.setPrev n nn) 4 := by
  unfold Code.setPrev; split
  · trivial
  · refine am (b := 3) (atMost_load ..) rfl fun p => ?_
    dsimp only; split
    · exact am (b := 2) (atMost_load ..) rfl fun p => am (b := 1) (atMost_store ..) rfl fun _ => atMost_store ..
    · exact atMost_mono _ (atMost_store ..) (by omega)

theorem atMost_setNext (n nn : Ptr) : AtMost (Code.setNext n nn) 4 := by
  unfold Code.setNext; split
  · trivial
  · refine am (b := 3) (atMost_load ..) rfl fun p => ?_
    dsimp only; split
    · exact am (b := 2) (atMost_load ..) rfl fun p => am (b := 1) (atMost_store ..) rfl fun _ => atMost_store ..
    · exact atMost_mono _ (atMost_store ..) (by omega)

theorem atMost_insertPrev (n nn : Ptr) : AtMost (Code.insertPrev n nn) 28 := by
  unfold Code.insertPrev; split
  · trivial
  · refine am (b := 27) (atMost_prev ..) rfl fun p => ?_
    split
    · trivial
    · exact am (b := 26) (atMost_prev ..) rfl fun _ => am (b := 25) (atMost_next ..) rfl fun _ => am (b := 24) (atMost_prev ..) rfl fun _ =>
        am (b := 20) (atMost_setPrev ..) rfl fun _ => am (b := 16) (atMost_setNext ..) rfl fun _ => am (b := 12) (atMost_setPrev ..) rfl fun _ =>
        am (b := 8) (atMost_setNext ..) rfl fun _ => am (b := 4) (atMost_setNext ..) rfl fun _ => am (b := 0) (atMost_setPrev ..) rfl fun _ => trivial

theorem atMost_insertNext (n nn : Ptr) : AtMost (Code.insertNext n nn) 28 := by
  unfold Code.insertNext; split
  · trivial
  · refine am (b := 27) (atMost_next ..) rfl fun p => ?_
    split
    · trivial
    · exact am (b := 26) (atMost_prev ..) rfl fun _ => am (b := 25) (atMost_next ..) rfl fun _ => am (b := 24) (atMost_next ..) rfl fun _ =>
        am (b := 20) (atMost_setNext ..) rfl fun _ => am (b := 16) (atMost_setPrev ..) rfl fun _ => am (b := 12) (atMost_setNext ..) rfl fun _ =>
        am (b := 8) (atMost_setPrev ..) rfl fun _ => am (b := 4) (atMost_setNext ..) rfl fun _ => am (b := 0) (atMost_setPrev ..) rfl fun _ => trivial

theorem atMost_replacePrev (n nn : Ptr) : AtMost (Code.replacePrev n nn) 19 := by
  unfold Code.replacePrev; split
  · trivial
  · refine am (b := 18) (atMost_prev ..) rfl fun p => ?_
    split
    · trivial
    · exact am (b := 17) (atMost_prev ..) rfl fun _ => am (b := 16) (atMost_next ..) rfl fun _ => am (b := 12) (atMost_setPrev ..) rfl fun _ =>
        am (b := 8) (atMost_setNext ..) rfl fun _ => am (b := 4) (atMost_setNext ..) rfl fun _ => am (b := 0) (atMost_setPrev ..) rfl fun _ => trivial

theorem atMost_replaceNext (n nn : Ptr) : AtMost (Code.replaceNext n nn) 19 := by
  unfold Code.replaceNext; split
  · trivial
  · refine am (b := 18) (atMost_next ..) rfl fun p => ?_
    split
    · trivial
    · exact am (b := 17) (atMost_prev ..) rfl fun _ => am (b := 16) (atMost_next ..) rfl fun _ => am (b := 12) (atMost_setNext ..) rfl fun _ =>
        am (b := 8) (atMost_setPrev ..) rfl fun _ => am (b := 4) (atMost_setNext ..) rfl fun _ => am (b := 0) (atMost_setPrev ..) rfl fun _ => trivial

theorem atMost_takePrev (n : Ptr) : AtMost (Code.takePrev n) 18 :=
  am (b := 17) (atMost_prev ..) rfl fun _ => am (b := 16) (atMost_prev ..) rfl fun _ => am (b := 12) (atMost_setPrev ..) rfl fun _ =>
    am (b := 8) (atMost_setNext ..) rfl fun _ => am (b := 4) (atMost_setNext ..) rfl fun _ => am (b := 0) (atMost_setPrev ..) rfl fun _ => trivial

theorem atMost_takeNext (n : Ptr) : AtMost (Code.takeNext n) 18 :=
  am (b := 17) (atMost_next ..) rfl fun _ => am (b := 16) (atMost_next ..) rfl fun _ => am (b := 12) (atMost_setNext ..) rfl fun _ =>
    am (b := 8) (atMost_setPrev ..) rfl fun _ => am (b := 4) (atMost_setNext ..) rfl fun _ => am (b := 0) (atMost_setPrev ..) rfl fun _ => trivial

theorem atMost_removePrev (n : Ptr) : AtMost (Code.removePrev n) 9 :=
  am (b := 8) (atMost_prev ..) rfl fun _ => am (b := 4) (atMost_setPrev ..) rfl fun _ => am (b := 0) (atMost_setNext ..) rfl fun _ => trivial

theorem atMost_removeNext (n : Ptr) : AtMost (Code.removeNext n) 9 :=
  am (b := 8) (atMost_next ..) rfl fun _ => am (b := 4) (atMost_setNext ..) rfl fun _ => am (b := 0) (atMost_setPrev ..) rfl fun _ => trivial

theorem atMost_isolate (n : Ptr) : AtMost (Code.isolate n) 18 :=
  am (b := 17) (atMost_prev ..) rfl fun _ => am (b := 13) (atMost_setNext ..) rfl fun _ => am (b := 12) (atMost_next ..) rfl fun _ =>
    am (b := 8) (atMost_setPrev ..) rfl fun _ => am (b := 4) (atMost_setPrev ..) rfl fun _ => atMost_setNext ..

theorem atMost_combineLoop (n : Ptr) : ∀ (nns : List Ptr) (buf : List Bytes), AtMost (Code.combineLoop n nns buf) (19 * nns.length)
  | [], buf => trivial
  | nn :: nns, buf => by
    unfold Code.combineLoop
    split
    · exact atMost_mono _ (atMost_combineLoop n nns buf) (by simp only [List.length_cons]; omega)
    · exact am (b := 18 + 19 * nns.length) (atMost_text ..) (by simp only [List.length_cons]; omega) fun t =>
        am (b := 19 * nns.length) (atMost_isolate ..) rfl fun _ => atMost_combineLoop n nns _

theorem atMost_combineNext (n : Ptr) (k : Kind) (nns : List Ptr) : AtMost (Code.combineNext n k nns) (19 * nns.length + 3) := by
  refine am (b := 19 * nns.length + 2) (atMost_setKind ..) (by omega) fun _ => ?_
  cases nns with
  | nil => trivial
  | cons nn0 rest =>
    refine am (b := 19 * (rest.length + 1) + 1) (atMost_text ..) (by simp only [List.length_cons]; omega) fun t => ?_
    refine am (b := 1) (atMost_mono _ (atMost_combineLoop _ _ _) (Nat.mul_le_mul_left 19 ?_)) rfl fun _ => am (b := 0) (atMost_store ..) rfl fun _ => trivial
    split <;> simp

theorem atMost_combinePrev (n : Ptr) (k : Kind) (nns : List Ptr) : AtMost (Code.combinePrev n k nns) (19 * nns.length + 3) := by
  refine am (b := 19 * nns.length + 2) (atMost_setKind ..) (by omega) fun _ => ?_
  cases nns with
  | nil => trivial
  | cons nn0 rest =>
    refine am (b := 19 * (rest.length + 1) + 1) (atMost_text ..) (by simp only [List.length_cons]; omega) fun t => ?_
    refine am (b := 1) (atMost_mono _ (atMost_combineLoop _ _ _) (Nat.mul_le_mul_left 19 ?_)) rfl fun _ => am (b := 0) (atMost_store ..) rfl fun _ => trivial
    split <;> simp

theorem atMost_newNode (l : Int) (t : Bytes) (ks : List Kind) : AtMost (Code.newNode l t ks) 1 := by
  unfold Code.newNode; split <;> exact ⟨0, rfl, fun _ => trivial⟩

theorem atMost_newNodesLoop : ∀ (ts : List Bytes) (cur : Ptr) (l : Int), AtMost (Code.newNodesLoop cur l ts) (30 * ts.length)
  | [], cur, l => trivial
  | t :: ts, cur, l => by
    unfold Code.newNodesLoop
    exact am (b := 29 + 30 * ts.length) (atMost_newNode ..) (by simp only [List.length_cons]; omega) fun _ =>
      am (b := 1 + 30 * ts.length) (atMost_insertNext ..) (by omega) fun _ => am (b := 30 * ts.length) (atMost_next ..) rfl fun _ => atMost_newNodesLoop ts _ _

theorem atMost_newNodes (l : Int) (ts : List Bytes) : AtMost (Code.newNodes l ts) (30 * ts.length) := by
  unfold Code.newNodes
  cases ts with
  | nil => trivial
  | cons t ts =>
    exact am (b := 29 + 30 * ts.length) (atMost_newNode ..) (by simp only [List.length_cons]; omega) fun _ =>
      am (a := 30 * ts.length) (b := 29) (atMost_newNodesLoop ..) (by omega) fun _ => trivial

theorem atMost_copy (fuel : Nat) (n : Ptr) : AtMost (Code.copy fuel n false) 4 := by
  unfold Code.copy; split
  · trivial
  · exact am (b := 3) (atMost_load ..) rfl fun _ => am (b := 2) (atMost_load ..) rfl fun _ => am (b := 1) (atMost_load ..) rfl fun _ =>
      ⟨0, rfl, fun _ => trivial⟩

theorem atMost_describe (n : Ptr) : AtMost (Code.describe n) 3 := by
  unfold Code.describe; split
  · trivial
  · exact am (b := 2) (atMost_line ..) rfl fun _ => am (b := 1) (atMost_text ..) rfl fun _ => am (b := 0) (atMost_kind ..) rfl fun _ => trivial

theorem atMost_op {op : Op} {n : Nat} (h : op.steps = some n) (fuel : Nat) : AtMost (op.code fuel) n := by
  have fin : ∀ {γ : Type} {p : Code γ} {g : γ → List Ptr} {k : Nat}, AtMost p k → AtMost (p >>= fun r => pure (g r)) k := fun hp => am (b := 0) hp rfl fun _ => trivial
  cases op <;> simp only [Op.steps, Option.some.injEq] at h <;> try subst h
  case newNode l t ks => exact fin (atMost_newNode ..)
  case newNodes l ts => exact fin (atMost_newNodes ..)
  case insertNext n m => exact fin (atMost_insertNext ..)
  case insertPrev n m => exact fin (atMost_insertPrev ..)
  case replaceNext n m => exact fin (atMost_replaceNext ..)
  case replacePrev n m => exact fin (atMost_replacePrev ..)
  case takeNext n => exact fin (atMost_takeNext ..)
  case takePrev n => exact fin (atMost_takePrev ..)
  case removeNext n => exact fin (atMost_removeNext ..)
  case removePrev n => exact fin (atMost_removePrev ..)
  case isolate n => exact fin (atMost_isolate ..)
  case combineNext n k ms => exact fin (atMost_combineNext ..)
  case combinePrev n k ms => exact fin (atMost_combinePrev ..)
  case copy n b =>
    cases b with
    | true => simp [Op.steps] at h
    | false => simp only [Op.steps, Option.some.injEq] at h; subst h; exact fin (atMost_copy ..)
  case setKind n k => exact fin (atMost_setKind ..)
  case setText n t => exact fin (atMost_setText ..)

theorem atMost_step {m m' : Mem} {p p' : Code α} {n c : Nat} (h : AtMost p n) (e : p.step m c = some (m', p')) : ∃ n', n = n' + 1 ∧ AtMost p' n' := by
  cases p with
  | ret x => simp [Code.step] at e
  | panic => simp [Code.step] at e
  | read a f k =>
    simp only [Code.step, Option.map_eq_some_iff] at e
    obtain ⟨r, _, e⟩ := e
    cases e
    obtain ⟨i, hi, h⟩ := h
    exact ⟨i, hi, h _⟩
  | write a f v k =>
    simp only [Code.step, Option.map_eq_some_iff] at e
    obtain ⟨r, _, e⟩ := e
    cases e
    exact h
  | alloc r k =>
    simp only [Code.step] at e
    split at e
    · cases e
      obtain ⟨i, hi, h⟩ := h
      exact ⟨i, hi, h _⟩
    · simp at e

theorem offered_cons (i j c : Nat) (sched : List (Nat × Nat)) : offered i ((j, c) :: sched) = if j = i then c :: offered i sched else offered i sched := by
  by_cases h : j = i <;> simp [offered, h]

theorem atMost_together {i : Nat} : ∀ (sched : List (Nat × Nat)) {m m' : Mem} {ps ps' : Nat → Code α} {n : Nat}, AtMost (ps i) n →
    goTogether m ps sched = some (m', ps') → ∃ n', (offered i sched).length + n' = n ∧ AtMost (ps' i) n'
  | [], m, m', ps, ps', n, h, e => by
    simp only [goTogether, Option.some.injEq, Prod.mk.injEq] at e
    obtain ⟨rfl, rfl⟩ := e
    exact ⟨n, by simp [offered], h⟩
  | (j, c) :: sched, m, m', ps, ps', n, h, e => by
    simp only [goTogether] at e
    cases es : (ps j).step m c with
    | none => rw [es] at e; cases e
    | some r =>
      rw [es] at e
      rw [offered_cons]
      by_cases hj : j = i
      · subst hj
        obtain ⟨k, rfl, hk⟩ := atMost_step h (show (ps j).step m c = some (r.1, r.2) from es)
        obtain ⟨n', h1, h2⟩ := atMost_together (i := j) sched (n := k) (by simpa using hk) e
        exact ⟨n', by simp; omega, h2⟩
      · obtain ⟨n', h1, h2⟩ := atMost_together (i := i) sched (n := n) (by simpa [Ne.symm hj] using h) e
        exact ⟨n', by simpa [hj] using h1, h2⟩

/-! ## No dangling pointers -/

theorem Honest.mono {p : Code α} {S T : Nat → Prop} (h : Honest p S) (hs : ∀ a, S a → T a) : Honest p T := fun U hu => h U fun a ha => hu a (hs a ha)

theorem honest_step {m m' : Mem} (w : m.Sound) {p p' : Code α} {c : Nat} (h : Honest p fun a => m a ≠ none) (e : p.step m c = some (m', p')) :
    m'.Sound ∧ Honest p' fun a => m' a ≠ none := by
  have emp : Island m fun _ => False := ⟨fun _ h => h.elim, fun _ _ _ h => h.elim, fun _ _ _ h => h.elim⟩
  obtain ⟨o, h1, -, h3, -⟩ := careful_step w emp (fun _ _ h => h) (h _ fun _ h => h) e
  have ho : o = fun a => m' a ≠ none := by
    funext a
    apply propext
    rw [h1]
    constructor
    · rintro (h | h)
      · exact step_mono e a h
      · exact h.2
    · intro h
      by_cases ha : m a = none
      · exact .inr ⟨ha, h⟩
      · exact .inl ha
  rw [ho] at h3
  refine ⟨h3, fun T ht => ?_⟩
  have hm : ∀ a, m a ≠ none → T a := fun a ha => ht a (step_mono e a ha)
  cases p with
  | ret x => simp [Code.step] at e
  | panic => simp [Code.step] at e
  | read a f k =>
    simp only [Code.step, Option.map_eq_some_iff] at e
    obtain ⟨r, hr, e⟩ := e
    cases e
    rcases h T hm with ⟨h1, h2⟩ | ⟨h1, -⟩
    · refine h2 _ ?_
      have := valTo_get w (a := a) (show m a ≠ none by rw [hr]; simp) hr f
      cases f <;> simp only [ValTo] at this ⊢
      · exact this.mono hm
      · exact this.mono hm
    · exact h1.elim
  | write a f v k =>
    simp only [Code.step, Option.map_eq_some_iff] at e
    obtain ⟨r, hr, e⟩ := e
    cases e
    exact (h T hm).2.2
  | alloc r k =>
    simp only [Code.step] at e
    split at e
    case isFalse => simp at e
    case isTrue hc =>
    cases e
    have := (h (fun a => T a ∧ a ≠ c) fun a ha => ⟨hm a ha, fun e => ha (e ▸ hc)⟩).2.2 c (fun h => h.2 rfl) (fun h => h)
    have hT : (fun a => (T a ∧ a ≠ c) ∨ a = c) = T := by
      funext a
      apply propext
      by_cases ha : a = c
      · subst ha; exact ⟨fun _ => ht a (by simp [Mem.set]), fun _ => .inr rfl⟩
      · simp [ha]
    rw [hT] at this
    exact this

theorem honest_together : ∀ (sched : List (Nat × Nat)) {m m' : Mem} {ps ps' : Nat → Code α}, m.Sound → (∀ i, Honest (ps i) fun a => m a ≠ none) →
    goTogether m ps sched = some (m', ps') → m'.Sound ∧ ∀ i, Honest (ps' i) fun a => m' a ≠ none
  | [], m, m', ps, ps', w, h, e => by
    simp only [goTogether, Option.some.injEq, Prod.mk.injEq] at e
    obtain ⟨rfl, rfl⟩ := e
    exact ⟨w, h⟩
  | (j, c) :: sched, m, m', ps, ps', w, h, e => by
    simp only [goTogether] at e
    cases es : (ps j).step m c with
    | none => rw [es] at e; cases e
    | some r =>
      rw [es] at e
      have es' : (ps j).step m c = some (r.1, r.2) := es
      obtain ⟨w1, h1⟩ := honest_step w (h j) es'
      refine honest_together sched w1 (fun i => ?_) e
      by_cases hi : i = j
      · simpa [hi] using h1
      · simpa [hi] using (h i).mono fun a ha => step_mono es' a ha

theorem honest_goes_on {m : Mem} (w : m.Sound) {p : Code α} (h : Honest p fun a => m a ≠ none) :
    p.returned = true ∨ p.panicked = true ∨ ∀ c, m c = none → ∃ r, p.step m c = some r := by
  have hc := h _ fun _ h => h
  cases p with
  | ret x => exact .inl rfl
  | panic => exact .inr (.inl rfl)
  | read a f k =>
    rcases hc with ⟨h1, -⟩ | ⟨h1, -⟩
    · obtain ⟨r, hr⟩ := w.exist a h1
      exact .inr (.inr fun c _ => ⟨_, by simp only [Code.step, hr]; rfl⟩)
    · exact h1.elim
  | write a f v k =>
    obtain ⟨r, hr⟩ := w.exist a hc.1
    exact .inr (.inr fun c _ => ⟨_, by simp only [Code.step, hr]; rfl⟩)
  | alloc r k => exact .inr (.inr fun c hc => ⟨_, by simp [Code.step, hc]; rfl⟩)

/-! ## Exact numbers of steps -/

/-- Alone from `m` it makes exactly `n` steps and then returns a result with `P`. -/
def Ends (P : Mem → α → Prop) : Code α → Mem → Nat → Prop
  | .ret x, m, n => n = 0 ∧ P m x
  | .panic, _, _ => False
  | .read a f k, m, n => ∃ r n', m a = some r ∧ n = n' + 1 ∧ Ends P (k (r.get f)) m n'
  | .write a f v k, m, n => ∃ r n', m a = some r ∧ n = n' + 1 ∧ Ends P k (m.set a (r.put f v)) n'
  | .alloc r k, m, n => ∃ n', n = n' + 1 ∧ ∀ c, m c = none → Ends P (k c) (m.set c r) n'

theorem ends_bind {P : Mem → β → Prop} {g : α → Code β} {k : Nat} :
    ∀ (p : Code α) {m : Mem} {n : Nat}, Ends (fun m' x => Ends P (g x) m' k) p m n → Ends P (p >>= g) m (n + k)
  | .ret x, m, n, h => by obtain ⟨rfl, h⟩ := h; rw [Nat.zero_add]; exact h
  | .panic, _, _, h => h.elim
  | .read a f q, m, n, h => by
    obtain ⟨r, i, h1, rfl, h2⟩ := h
    exact ⟨r, i + k, h1, by omega, ends_bind (q _) h2⟩
  | .write a f v q, m, n, h => by
    obtain ⟨r, i, h1, rfl, h2⟩ := h
    exact ⟨r, i + k, h1, by omega, ends_bind q h2⟩
  | .alloc r q, m, n, h => by
    obtain ⟨i, rfl, h2⟩ := h
    exact ⟨i + k, by omega, fun c hc => ends_bind (q c) (h2 c hc)⟩

theorem ends_mono {P Q : Mem → α → Prop} (h : ∀ m x, P m x → Q m x) : ∀ (p : Code α) {m : Mem} {n : Nat}, Ends P p m n → Ends Q p m n
  | .ret x, m, n, e => ⟨e.1, h _ _ e.2⟩
  | .panic, _, _, e => e.elim
  | .read a f q, m, n, e => by
    obtain ⟨r, i, h1, rfl, h2⟩ := e
    exact ⟨r, i, h1, rfl, ends_mono h (q _) h2⟩
  | .write a f v q, m, n, e => by
    obtain ⟨r, i, h1, rfl, h2⟩ := e
    exact ⟨r, i, h1, rfl, ends_mono h q h2⟩
  | .alloc r q, m, n, e => by
    obtain ⟨i, rfl, h2⟩ := e
    exact ⟨i, rfl, fun c hc => ends_mono h (q c) (h2 c hc)⟩

theorem es {P : Mem → β → Prop} {Q : Mem → α → Prop} {p : Code α} {g : α → Code β} {m : Mem} {a b c : Nat} (hp : Ends Q p m a) (hc : a + b = c)
    (hg : ∀ m' x, Q m' x → Ends P (g x) m' b) : Ends P (p >>= g) m c :=
  hc ▸ ends_bind p (ends_mono hg p hp)

theorem ends_returns {P : Mem → α → Prop} {p : Code α} {m : Mem} {n : Nat} (h : Ends P p m n) : p.ReturnsAfter m n := by
  intro cs
  induction cs generalizing m p n with
  | nil =>
    intro m' q e
    simp only [Code.alone, Option.some.injEq, Prod.mk.injEq] at e
    obtain ⟨rfl, rfl⟩ := e
    cases p with
    | ret x => exact .inl ⟨h.1.symm, x, rfl⟩
    | panic => exact h.elim
    | read a f k =>
      obtain ⟨r, i, h1, rfl, h2⟩ := h
      exact .inr ⟨by simp, fun c _ => ⟨_, by simp only [Code.step, h1]; rfl⟩⟩
    | write a f v k =>
      obtain ⟨r, i, h1, rfl, h2⟩ := h
      exact .inr ⟨by simp, fun c _ => ⟨_, by simp only [Code.step, h1]; rfl⟩⟩
    | alloc r k =>
      obtain ⟨i, rfl, h2⟩ := h
      exact .inr ⟨by simp, fun c hc => ⟨_, by simp [Code.step, hc]; rfl⟩⟩
  | cons c cs ih =>
    intro m' q e
    simp only [Code.alone] at e
    cases p with
    | ret x => simp [Code.step] at e
    | panic => exact h.elim
    | read a f k =>
      obtain ⟨r, i, h1, rfl, h2⟩ := h
      simp only [Code.step, h1, Option.map_some] at e
      rcases ih h2 m' q e with h | h
      · exact .inl ⟨by simp [h.1], h.2⟩
      · exact .inr ⟨by simp [h.1], h.2⟩
    | write a f v k =>
      obtain ⟨r, i, h1, rfl, h2⟩ := h
      simp only [Code.step, h1, Option.map_some] at e
      rcases ih h2 m' q e with h | h
      · exact .inl ⟨by simp [h.1], h.2⟩
      · exact .inr ⟨by simp [h.1], h.2⟩
    | alloc r k =>
      obtain ⟨i, rfl, h2⟩ := h
      by_cases hc : m c = none
      · simp only [Code.step, hc, if_true] at e
        rcases ih (h2 c hc) m' q e with h | h
        · exact .inl ⟨by simp [h.1], h.2⟩
        · exact .inr ⟨by simp [h.1], h.2⟩
      · simp [Code.step, hc] at e

end Goast
