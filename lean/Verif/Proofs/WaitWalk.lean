import Verif.Proofs.WaitFree
import Verif.Spec.Links

/-! # Proofs: how many steps the walks along a list take -/

set_option linter.unusedSimpArgs false
set_option linter.unusedVariables false

namespace Goast

variable {α β σ : Type}

theorem mem_get {h : Heap} {a : Addr} (ha : a < h.size) : ∃ r, h.mem a = some r ∧ h.next (some a) = r.next ∧ h.prev (some a) = r.prev ∧
    h.kind (some a) = r.kind ∧ h.text (some a) = r.text := by
  have hr : h.cells[a]? = some h.cells[a] := List.getElem?_eq_getElem ha
  exact ⟨_, hr, by simp [Heap.next, hr], by simp [Heap.prev, hr], by simp [Heap.kind, hr], by simp [Heap.text, hr]⟩

/-- Alone on the heap it reads `n` times, changes nothing and returns `x`. -/
def Gives (h : Heap) (p : Code α) (n : Nat) (x : α) : Prop := Ends (fun m' y => m' = h.mem ∧ y = x) p h.mem n

variable {h : Heap}

theorem Gives.bind {p : Code α} {g : α → Code β} {n k : Nat} {x : α} {y : β} (hp : Gives h p n x) (hg : Gives h (g x) k y) : Gives h (p >>= g) (n + k) y :=
  ends_bind p (ends_mono (fun m' x' hx => by obtain ⟨rfl, rfl⟩ := hx; exact hg) p hp)

theorem gives_pure (x : α) : Gives h (pure x) 0 x := ⟨rfl, rfl, rfl⟩

theorem gives_next {a : Addr} (ha : a < h.size) : Gives h (Code.next (some a)) 1 (h.next (some a)) := by
  obtain ⟨r, h1, h2, h3, h4, h5⟩ := mem_get ha
  exact ⟨r, 0, h1, rfl, rfl, rfl, h2.symm⟩

theorem gives_prev {a : Addr} (ha : a < h.size) : Gives h (Code.prev (some a)) 1 (h.prev (some a)) := by
  obtain ⟨r, h1, h2, h3, h4, h5⟩ := mem_get ha
  exact ⟨r, 0, h1, rfl, rfl, rfl, h3.symm⟩

theorem gives_kind {a : Addr} (ha : a < h.size) : Gives h (Code.kind (some a)) 1 (h.kind (some a)) := by
  obtain ⟨r, h1, h2, h3, h4, h5⟩ := mem_get ha
  exact ⟨r, 0, h1, rfl, rfl, rfl, h4.symm⟩

theorem gives_text {a : Addr} (ha : a < h.size) : Gives h (Code.text (some a)) 1 (h.text (some a)) := by
  obtain ⟨r, h1, h2, h3, h4, h5⟩ := mem_get ha
  exact ⟨r, 0, h1, rfl, rfl, rfl, h5.symm⟩

/-- Iteration with a callback that makes at most `c` reads and changes nothing: at most `c + 1` steps per node. -/
theorem gives_iterNext {c : Nat} {fn : σ → Ptr → Code (σ × Bool)} {p : Ptr} {l : List Addr} (f : Fwd h p l) :
    ∀ {fuel : Nat} {s : σ}, l.length ≤ fuel → (∀ s a, a ∈ l → ∃ k r, k ≤ c ∧ Gives h (fn s (some a)) k r) →
    ∃ n x, n ≤ (c + 1) * l.length ∧ Gives h (Code.iterNext fuel fn s p) n x := by
  unfold Code.iterNext
  induction f with
  | nil =>
    intro fuel s _ _
    refine ⟨0, (s, none), by simp, ?_⟩
    cases fuel <;> exact gives_pure _
  | @cons a l ha f ih =>
    intro fuel s hl hf
    cases fuel with
    | zero => simp at hl
    | succ fuel =>
      obtain ⟨k, ⟨s', b⟩, hk, hk'⟩ := hf s a (by simp)
      have e : (c + 1) * (a :: l).length = (c + 1) * l.length + (c + 1) := by simp [Nat.mul_add]
      cases b with
      | false => exact ⟨k + 0, _, by omega, hk'.bind (gives_pure _)⟩
      | true =>
        obtain ⟨n, x, h1, h2⟩ := ih (fuel := fuel) (s := s') (by simp at hl; omega) fun s b hb => hf s b (by simp [hb])
        exact ⟨k + (1 + n), x, by omega, hk'.bind ((gives_next ha).bind h2)⟩

theorem gives_iterPrev {c : Nat} {fn : σ → Ptr → Code (σ × Bool)} {p : Ptr} {l : List Addr} (f : Bwd h p l) :
    ∀ {fuel : Nat} {s : σ}, l.length ≤ fuel → (∀ s a, a ∈ l → ∃ k r, k ≤ c ∧ Gives h (fn s (some a)) k r) →
    ∃ n x, n ≤ (c + 1) * l.length ∧ Gives h (Code.iterPrev fuel fn s p) n x := by
  unfold Code.iterPrev
  induction f with
  | nil =>
    intro fuel s _ _
    refine ⟨0, (s, none), by simp, ?_⟩
    cases fuel <;> exact gives_pure _
  | @cons a l ha f ih =>
    intro fuel s hl hf
    cases fuel with
    | zero => simp at hl
    | succ fuel =>
      obtain ⟨k, ⟨s', b⟩, hk, hk'⟩ := hf s a (by simp)
      have e : (c + 1) * (a :: l).length = (c + 1) * l.length + (c + 1) := by simp [Nat.mul_add]
      cases b with
      | false => exact ⟨k + 0, _, by omega, hk'.bind (gives_pure _)⟩
      | true =>
        obtain ⟨n, x, h1, h2⟩ := ih (fuel := fuel) (s := s') (by simp at hl; omega) fun s b hb => hf s b (by simp [hb])
        exact ⟨k + (1 + n), x, by omega, hk'.bind ((gives_prev ha).bind h2)⟩

theorem fwd_size {p : Ptr} {l : List Addr} (f : Fwd h p l) : ∀ a ∈ l, a < h.size := by
  induction f with
  | nil => simp
  | cons ha f ih =>
    intro b hb
    rcases List.mem_cons.1 hb with rfl | hb
    · exact ha
    · exact ih b hb

theorem bwd_size {p : Ptr} {l : List Addr} (f : Bwd h p l) : ∀ a ∈ l, a < h.size := by
  induction f with
  | nil => simp
  | cons ha f ih =>
    intro b hb
    rcases List.mem_cons.1 hb with rfl | hb
    · exact ha
    · exact ih b hb

/-- `Last` reads twice for each node but the last, and there once. -/
theorem gives_last {p : Ptr} {l : List Addr} (f : Fwd h p l) : ∀ {fuel : Nat}, l.length ≤ fuel → ∃ x, Gives h (Code.last fuel p) (2 * l.length - 1) x := by
  have key : ∀ {fuel : Nat}, l.length ≤ fuel → ∃ x, Gives h (Code.loop Code.next (fun () a => do
      let p ← Code.next a
      pure ((), decide (p ≠ none))) fuel () p) (2 * l.length - 1) x := by
    induction f with
    | nil => intro fuel _; cases fuel <;> exact ⟨_, gives_pure _⟩
    | @cons a l ha f ih =>
      intro fuel hl
      cases fuel with
      | zero => simp at hl
      | succ fuel =>
        unfold Code.loop
        generalize hn : h.next (some a) = q at f ih
        cases q with
        | none =>
          cases f
          refine ⟨((), some a), Gives.bind (n := 1 + 0) (k := 0) (x := ((), false)) ((gives_next ha).bind ?_) (gives_pure _)⟩
          rw [hn]
          exact gives_pure _
        | some b =>
          obtain ⟨x, hx⟩ := ih (fuel := fuel) (by simp at hl; omega)
          have hlen : 1 ≤ l.length := by cases f; simp
          refine ⟨x, ?_⟩
          have := ((gives_next (h := h) ha).bind (g := fun p => pure ((), decide (p ≠ none))) (gives_pure ((), true) (h := h) |> fun e => by rw [hn]; exact e)).bind
            (g := fun r => if r.2 then (do
              let nn ← Code.next (some a)
              Code.loop Code.next (fun () a => do
                let p ← Code.next a
                pure ((), decide (p ≠ none))) fuel r.1 nn) else pure (r.1, some a)) ((gives_next (h := h) ha).bind (hn ▸ hx))
          rw [show 2 * (a :: l).length - 1 = 1 + 0 + (1 + (2 * l.length - 1)) by simp; omega]
          exact this
  intro fuel hl
  obtain ⟨x, hx⟩ := key hl
  exact ⟨x.2, hx.bind (g := fun (r : Unit × Ptr) => (pure r.2 : Code Ptr)) (gives_pure x.2)⟩

/-- `First` likewise. -/
theorem gives_first {p : Ptr} {l : List Addr} (f : Bwd h p l) : ∀ {fuel : Nat}, l.length ≤ fuel → ∃ x, Gives h (Code.first fuel p) (2 * l.length - 1) x := by
  have key : ∀ {fuel : Nat}, l.length ≤ fuel → ∃ x, Gives h (Code.loop Code.prev (fun () a => do
      let p ← Code.prev a
      pure ((), decide (p ≠ none))) fuel () p) (2 * l.length - 1) x := by
    induction f with
    | nil => intro fuel _; cases fuel <;> exact ⟨_, gives_pure _⟩
    | @cons a l ha f ih =>
      intro fuel hl
      cases fuel with
      | zero => simp at hl
      | succ fuel =>
        unfold Code.loop
        generalize hn : h.prev (some a) = q at f ih
        cases q with
        | none =>
          cases f
          refine ⟨((), some a), Gives.bind (n := 1 + 0) (k := 0) (x := ((), false)) ((gives_prev ha).bind ?_) (gives_pure _)⟩
          rw [hn]
          exact gives_pure _
        | some b =>
          obtain ⟨x, hx⟩ := ih (fuel := fuel) (by simp at hl; omega)
          have hlen : 1 ≤ l.length := by cases f; simp
          refine ⟨x, ?_⟩
          have := ((gives_prev (h := h) ha).bind (g := fun p => pure ((), decide (p ≠ none))) (gives_pure ((), true) (h := h) |> fun e => by rw [hn]; exact e)).bind
            (g := fun r => if r.2 then (do
              let nn ← Code.prev (some a)
              Code.loop Code.prev (fun () a => do
                let p ← Code.prev a
                pure ((), decide (p ≠ none))) fuel r.1 nn) else pure (r.1, some a)) ((gives_prev (h := h) ha).bind (hn ▸ hx))
          rw [show 2 * (a :: l).length - 1 = 1 + 0 + (1 + (2 * l.length - 1)) by simp; omega]
          exact this
  intro fuel hl
  obtain ⟨x, hx⟩ := key hl
  exact ⟨x.2, hx.bind (g := fun (r : Unit × Ptr) => (pure r.2 : Code Ptr)) (gives_pure x.2)⟩

variable {l : List Addr} {fuel : Nat}

theorem gives_findKindName {p : Ptr} (f : Fwd h p l) (hl : l.length ≤ fuel) (k : Kind) :
    ∃ n x, n ≤ 3 * l.length ∧ Gives h (Code.findKindName fuel p k) n x := by
  obtain ⟨n, x, h1, h2⟩ := gives_iterNext (c := 2) (fn := fun (_ : Bytes × Bool) a => do
    let k' ← Code.kind a
    let t ← Code.text a
    pure ((t, decide (k' = k)), !decide (k' = k))) f (s := ([], false)) hl fun s a ha =>
      ⟨1 + (1 + 0), _, by omega, (gives_kind (fwd_size f a ha)).bind ((gives_text (fwd_size f a ha)).bind (gives_pure _))⟩
  exact ⟨n + 0, x.1, h1, h2.bind (gives_pure _)⟩

theorem gives_hasKind {p : Ptr} (f : Fwd h p l) (hl : l.length ≤ fuel) (k : Kind) : ∃ n x, n ≤ 2 * l.length ∧ Gives h (Code.hasKind fuel p k) n x := by
  obtain ⟨n, x, h1, h2⟩ := gives_iterNext (c := 1) (fn := fun (_ : Bool) a => do
    let k' ← Code.kind a
    pure (decide (k' = k), !decide (k' = k))) f (s := false) hl fun s a ha =>
      ⟨1 + 0, _, by omega, (gives_kind (fwd_size f a ha)).bind (gives_pure _)⟩
  exact ⟨n + 0, x.1, h1, h2.bind (gives_pure _)⟩

variable {d : ScopeRec}

theorem gives_getFuncName (f : Fwd h d.node l) (hl : l.length ≤ fuel) : ∃ n x, n ≤ 3 * l.length ∧ Gives h (Code.getFuncName fuel d) n x := by
  unfold Code.getFuncName
  split
  · exact ⟨0, _, by omega, gives_pure _⟩
  · obtain ⟨n, x, h1, h2⟩ := gives_iterNext (c := 2) (fn := fun (s : Bytes × Bool) a => do
      let k ← Code.kind a
      if k = .funcName then
        let t ← Code.text a
        pure ((t, true), false)
      else pure (s, true)) f (s := ([], false)) hl fun s a ha => by
        by_cases hk : h.kind (some a) = .funcName
        · refine ⟨1 + (1 + 0), ((h.text (some a), true), false), by omega, (gives_kind (fwd_size f a ha)).bind ?_⟩
          rw [if_pos hk]
          exact (gives_text (fwd_size f a ha)).bind (gives_pure _)
        · refine ⟨1 + 0, (s, true), by omega, (gives_kind (fwd_size f a ha)).bind ?_⟩
          rw [if_neg hk]
          exact gives_pure _
    exact ⟨n + 0, x.1, h1, h2.bind (gives_pure _)⟩

theorem gives_getTypeName (f : Fwd h d.node l) (hl : l.length ≤ fuel) : ∃ n x, n ≤ 3 * l.length ∧ Gives h (Code.getTypeName fuel d) n x := by
  unfold Code.getTypeName
  split
  · exact ⟨0, _, by omega, gives_pure _⟩
  · exact gives_findKindName f hl _

theorem gives_getStructName (f : Fwd h d.node l) (hl : l.length ≤ fuel) : ∃ n x, n ≤ 5 * l.length ∧ Gives h (Code.getStructName fuel d) n x := by
  unfold Code.getStructName
  split
  · exact ⟨0, _, by omega, gives_pure _⟩
  · obtain ⟨n, x, h1, h2⟩ := gives_hasKind f hl .struct_
    obtain ⟨k, y, h3, h4⟩ := gives_getTypeName (d := d) f hl
    exact ⟨n + (k + 0), _, by omega, h2.bind (h4.bind (gives_pure _))⟩

theorem gives_getInterfaceName (f : Fwd h d.node l) (hl : l.length ≤ fuel) : ∃ n x, n ≤ 5 * l.length ∧ Gives h (Code.getInterfaceName fuel d) n x := by
  unfold Code.getInterfaceName
  split
  · exact ⟨0, _, by omega, gives_pure _⟩
  · obtain ⟨n, x, h1, h2⟩ := gives_hasKind f hl .interface_
    obtain ⟨k, y, h3, h4⟩ := gives_getTypeName (d := d) f hl
    exact ⟨n + (k + 0), _, by omega, h2.bind (h4.bind (gives_pure _))⟩

theorem gives_getMethodReceiver (f : Fwd h d.node l) (hl : l.length ≤ fuel) : ∃ n x, n ≤ 3 * l.length ∧ Gives h (Code.getMethodReceiver fuel d) n x := by
  unfold Code.getMethodReceiver
  split
  · exact ⟨0, _, by omega, gives_pure _⟩
  · exact gives_findKindName f hl _

theorem gives_getMethodName (f : Fwd h d.node l) (hl : l.length ≤ fuel) : ∃ n x, n ≤ 6 * l.length ∧ Gives h (Code.getMethodName fuel d) n x := by
  unfold Code.getMethodName
  split
  · exact ⟨0, _, by omega, gives_pure _⟩
  · obtain ⟨n, ⟨t, b⟩, h1, h2⟩ := gives_getMethodReceiver (d := d) f hl
    cases b with
    | false => exact ⟨n + 0, _, by omega, h2.bind (gives_pure _)⟩
    | true =>
      obtain ⟨k, y, h3, h4⟩ := gives_findKindName f hl .funcName
      exact ⟨n + k, y, by omega, h2.bind h4⟩

/-! ## `Copy(true)` -/

/-- What was there is still there. -/
def Kept (m m' : Mem) : Prop := ∀ a, m a ≠ none → m' a = m a

theorem Kept.trans {m₁ m₂ m₃ : Mem} (h : Kept m₁ m₂) (h' : Kept m₂ m₃) : Kept m₁ m₃ := fun a ha => by
  rw [h' a (by rw [h a ha]; exact ha), h a ha]

theorem ends_copyOne {h : Heap} {m : Mem} {a : Addr} (ha : a < h.size) (hm : m a = h.mem a) {f : Ptr → Code α} {P : Mem → α → Prop} {n : Nat}
    (hf : ∀ m' c, Kept m m' → m c = none → (∃ r, m' c = some r) → Ends P (f (some c)) m' n) :
    Ends P (do
      let l ← Code.load (some a) .line
      let k ← Code.load (some a) .kind
      let t ← Code.load (some a) .text
      let nn : Ptr ← Code.alloc { line := l, kind := k, text := t, prev := none, next := none } fun a => .ret (some a)
      f nn) m (n + 4) := by
  obtain ⟨r, hr, -⟩ := mem_get ha
  rw [← hm] at hr
  refine ⟨r, n + 3, hr, rfl, r, n + 2, hr, rfl, r, n + 1, hr, rfl, n, rfl, fun c hc => hf _ c (fun b hb => ?_) hc ?_⟩
  rotate_left
  · simp only [Mem.set, if_true]; exact ⟨_, rfl⟩
  have : b ≠ c := fun e => hb (e ▸ hc)
  simp [Mem.set, this]

theorem ends_storeTwo {m m' : Mem} {c : Nat} (hk : Kept m m') (hc : m c = none) (he : ∃ r, m' c = some r) (p q : Ptr) :
    Ends (fun m'' (x : Ptr) => Kept m m'' ) (do
      Code.store (some c) .prev p
      Code.store (some c) .next q
      pure (some c)) m' 2 := by
  obtain ⟨r, hr⟩ := he
  refine ⟨r, 1, hr, rfl, r.put .prev p, 0, by simp [Mem.set], rfl, rfl, fun b hb => ?_⟩
  have : b ≠ c := fun e => hb (e ▸ hc)
  simp [Mem.set, this, hk b hb]

theorem ends_copyPrev {p : Ptr} {l : List Addr} (f : Bwd h p l) : ∀ {m : Mem} {fuel : Nat} {c : Nat}, (∀ a ∈ l, m a = h.mem a) → l.length ≤ fuel →
    Ends (fun m' x => Kept m m') (Code.deepCopy fuel p none (some c)) m (7 * l.length) := by
  induction f with
  | nil => intro m fuel c _ _; cases fuel <;> exact ⟨rfl, fun _ _ => rfl⟩
  | @cons a l ha f ih =>
    intro m fuel c hm hl
    cases fuel with
    | zero => simp at hl
    | succ fuel =>
      unfold Code.deepCopy
      rw [show 7 * (a :: l).length = (1 + 7 * l.length + 2) + 4 by simp; omega]
      refine ends_copyOne ha (hm a (by simp)) fun m1 c1 hk hc he => ?_
      obtain ⟨r, hr, h2, h3, -⟩ := mem_get ha
      refine es (a := 1 + 7 * l.length) (b := 2) (Q := fun m' _ => Kept m1 m') ?_ rfl fun m2 pre hk2 => ?_
      · rw [if_pos rfl]
        refine es (a := 1) (b := 7 * l.length) (Q := fun m' x => m' = m1 ∧ x = h.prev (some a)) ?_ rfl fun m2 x hx => ?_
        · exact ⟨r, 0, by rw [hk a (by rw [hm a (by simp), hr]; simp), hm a (by simp), hr], rfl, rfl, rfl, h3.symm⟩
        · obtain ⟨rfl, rfl⟩ := hx
          refine ih (fun b hb => ?_) (by simp at hl; omega)
          rw [hk b ?_, hm b (by simp [hb])]
          rw [hm b (by simp [hb])]
          obtain ⟨r', hr', -⟩ := mem_get (bwd_size f b hb)
          rw [hr']; simp
      · rw [if_neg (by simp)]
        refine es (a := 0) (b := 2) (Q := fun m' _ => m' = m2) ⟨rfl, rfl⟩ rfl fun m3 nx e => ?_
        subst e
        exact ends_storeTwo (hk.trans hk2) hc (by obtain ⟨r', hr'⟩ := he; exact ⟨r', by rw [hk2 c1 (by rw [hr']; simp), hr']⟩) _ _

theorem ends_copyNext {p : Ptr} {l : List Addr} (f : Fwd h p l) : ∀ {m : Mem} {fuel : Nat} {c : Nat}, (∀ a ∈ l, m a = h.mem a) → l.length ≤ fuel →
    Ends (fun m' x => Kept m m') (Code.deepCopy fuel p (some c) none) m (7 * l.length) := by
  induction f with
  | nil => intro m fuel c _ _; cases fuel <;> exact ⟨rfl, fun _ _ => rfl⟩
  | @cons a l ha f ih =>
    intro m fuel c hm hl
    cases fuel with
    | zero => simp at hl
    | succ fuel =>
      unfold Code.deepCopy
      rw [show 7 * (a :: l).length = (1 + 7 * l.length + 2) + 4 by simp; omega]
      refine ends_copyOne ha (hm a (by simp)) fun m1 c1 hk hc he => ?_
      obtain ⟨r, hr, h2, h3, -⟩ := mem_get ha
      rw [if_neg (by simp)]
      refine es (a := 0) (b := 1 + 7 * l.length + 2) (Q := fun m' _ => m' = m1) ⟨rfl, rfl⟩ (by omega) fun m1' pre e => ?_
      subst e
      refine es (a := 1 + 7 * l.length) (b := 2) (Q := fun m' _ => Kept m1' m') ?_ rfl fun m2 nx hk2 => ?_
      · rw [if_pos rfl]
        refine es (a := 1) (b := 7 * l.length) (Q := fun m' x => m' = m1' ∧ x = h.next (some a)) ?_ rfl fun m2 x hx => ?_
        · exact ⟨r, 0, by rw [hk a (by rw [hm a (by simp), hr]; simp), hm a (by simp), hr], rfl, rfl, rfl, h2.symm⟩
        · obtain ⟨rfl, rfl⟩ := hx
          refine ih (fun b hb => ?_) (by simp at hl; omega)
          rw [hk b ?_, hm b (by simp [hb])]
          rw [hm b (by simp [hb])]
          obtain ⟨r', hr', -⟩ := mem_get (fwd_size f b hb)
          rw [hr']; simp
      · exact ends_storeTwo (hk.trans hk2) hc (by obtain ⟨r', hr'⟩ := he; exact ⟨r', by rw [hk2 c1 (by rw [hr']; simp), hr']⟩) _ _

/-- `Copy(true)`: seven steps per node, and one more. -/
theorem ends_copy {a : Addr} {l₁ l₂ : List Addr} (f₁ : Bwd h (some a) (a :: l₁)) (f₂ : Fwd h (some a) (a :: l₂)) {fuel : Nat} (hl : l₁.length + l₂.length < fuel) :
    Ends (fun m' x => Kept h.mem m') (Code.copy fuel (some a) true) h.mem (7 * (l₁.length + 1 + l₂.length) + 1) := by
  cases fuel with
  | zero => omega
  | succ fuel =>
    cases f₁ with
    | cons ha f₁ =>
      cases f₂ with
      | cons _ f₂ =>
        simp only [Code.copy, reduceCtorEq, if_false, if_true]
        unfold Code.deepCopy
        rw [show 7 * (l₁.length + 1 + l₂.length) + 1 = (1 + 7 * l₁.length + (1 + 7 * l₂.length + 2)) + 4 by omega]
        refine ends_copyOne ha rfl fun m1 c1 hk hc he => ?_
        obtain ⟨r, hr, h2, h3, -⟩ := mem_get ha
        have ra : m1 a = some r := by rw [hk a (by rw [hr]; simp), hr]
        have old : ∀ m', Kept m1 m' → ∀ b, b < h.size → m' b = h.mem b := fun m' hk' b hb => by
          obtain ⟨r', hr', -⟩ := mem_get hb
          have e1 := hk b (by rw [hr']; simp)
          rw [hk' b (by rw [e1, hr']; simp), e1]
        refine es (a := 1 + 7 * l₁.length) (b := 1 + 7 * l₂.length + 2) (Q := fun m' _ => Kept m1 m') ?_ rfl fun m2 pre hk2 => ?_
        · rw [if_pos rfl]
          refine es (a := 1) (b := 7 * l₁.length) (Q := fun m' x => m' = m1 ∧ x = h.prev (some a)) ?_ rfl fun m2 x hx => ?_
          · exact ⟨r, 0, ra, rfl, rfl, rfl, h3.symm⟩
          · obtain ⟨rfl, rfl⟩ := hx
            exact ends_copyPrev f₁ (fun b hb => old _ (fun _ _ => rfl) b (bwd_size f₁ b hb)) (by omega)
        · refine es (a := 1 + 7 * l₂.length) (b := 2) (Q := fun m' _ => Kept m1 m') ?_ rfl fun m3 nx hk3 => ?_
          · rw [if_pos rfl]
            refine es (a := 1) (b := 7 * l₂.length) (Q := fun m' x => m' = m2 ∧ x = h.next (some a)) ?_ rfl fun m2 x hx => ?_
            · exact ⟨r, 0, by rw [hk2 a (by rw [ra]; simp), ra], rfl, rfl, rfl, h2.symm⟩
            · obtain ⟨rfl, rfl⟩ := hx
              exact ends_mono (fun m' x hk' => hk2.trans hk') _ (ends_copyNext f₂ (fun b hb => old _ hk2 b (fwd_size f₂ b hb)) (by omega))
          · exact ends_storeTwo (hk.trans hk3) hc (by obtain ⟨r', hr'⟩ := he; exact ⟨r', by rw [hk3 c1 (by rw [hr']; simp), hr']⟩) _ _

end Goast
