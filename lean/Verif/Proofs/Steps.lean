import Verif.Spec.Steps

/-! # Proofs: interleaving at single memory accesses -/

set_option linter.unusedSimpArgs false
set_option linter.unusedVariables false

namespace Goast

variable {α : Type}

theorem alone_append (m : Mem) (p : Code α) (cs ds : List Nat) :
    p.alone m (cs ++ ds) = (p.alone m cs).bind fun r => r.2.alone r.1 ds := by
  induction cs generalizing m p with
  | nil => rfl
  | cons c cs ih =>
    simp only [List.cons_append, Code.alone]
    cases p.step m c with
    | none => rfl
    | some r => exact ih r.1 r.2

theorem alone_snoc {m m₁ m₂ : Mem} {p p₁ p₂ : Code α} {cs : List Nat} {c : Nat} (h1 : p.alone m cs = some (m₁, p₁)) (h2 : p₁.step m₁ c = some (m₂, p₂)) :
    p.alone m (cs ++ [c]) = some (m₂, p₂) := by
  rw [alone_append, h1]
  simp [Code.alone, h2]

/-- A step never frees a node. -/
theorem step_mono {m m₁ : Mem} {p p₁ : Code α} {c : Nat} (h : p.step m c = some (m₁, p₁)) (a : Nat) (ha : m a ≠ none) : m₁ a ≠ none := by
  cases p with
  | ret x => simp [Code.step] at h
  | panic => simp [Code.step] at h
  | read b f k =>
    simp only [Code.step, Option.map_eq_some_iff] at h
    obtain ⟨r, _, e⟩ := h
    cases e; exact ha
  | write b f v k =>
    simp only [Code.step, Option.map_eq_some_iff] at h
    obtain ⟨r, _, e⟩ := h
    cases e
    simp only [Mem.set]; split <;> simp_all
  | alloc r k =>
    simp only [Code.step] at h
    split at h
    · cases h; simp only [Mem.set]; split <;> simp_all
    · simp at h

theorem alone_mono {m m₁ : Mem} {p p₁ : Code α} {cs : List Nat} (h : p.alone m cs = some (m₁, p₁)) (a : Nat) (ha : m a ≠ none) : m₁ a ≠ none := by
  induction cs generalizing m p with
  | nil => simp [Code.alone] at h; rw [← h.1]; exact ha
  | cons c cs ih =>
    simp only [Code.alone] at h
    cases e : p.step m c with
    | none => simp [e] at h
    | some r => rw [e] at h; exact ih h (step_mono (show p.step m c = some (r.1, r.2) from e) a ha)

/-- The invariant of an interleaving: `M i` is the memory goroutine `i` would have alone. -/
structure Inter (m : Mem) (ps : Nat → Code α) (R W : Nat → Nat → Prop) (sched : List (Nat × Nat)) (M : Nat → Mem) (m' : Mem) (ps' : Nat → Code α) : Prop where
  alone : ∀ i, (ps i).alone m (offered i sched) = some (M i, ps' i)
  own : ∀ i a, (R i a ∨ W i a ∨ (m a = none ∧ M i a ≠ none)) → m' a = M i a
  apart : ∀ i j a, m a = none → M i a ≠ none → M j a ≠ none → i = j
  rest : ∀ a, m a ≠ none → (∀ i, ¬ W i a) → m' a = m a
  mono : ∀ a, m a ≠ none → m' a ≠ none
  made : ∀ a, m a = none → m' a ≠ none → ∃ i, M i a ≠ none

theorem offered_snoc (i : Nat) (sched : List (Nat × Nat)) (j c : Nat) :
    offered i (sched ++ [(j, c)]) = if j = i then offered i sched ++ [c] else offered i sched := by
  simp only [offered, List.filter_append, List.map_append]
  by_cases h : j = i
  · simp [h]
  · simp [h, List.filter_cons]

theorem inter_step {m : Mem} {ps : Nat → Code α} {R W : Nat → Nat → Prop} (nc : NoConflict m R W) (st : ∀ i, StaysIn m (ps i) (R i) (W i))
    {sched : List (Nat × Nat)} {M : Nat → Mem} {m' : Mem} {ps' : Nat → Code α} (I : Inter m ps R W sched M m' ps') {i c : Nat} {m₂ : Mem} {p₂ : Code α}
    (hs : (ps' i).step m' c = some (m₂, p₂)) :
    ∃ M₂, Inter m ps R W (sched ++ [(i, c)]) M₂ m₂ (fun j => if j = i then p₂ else ps' j) := by
  have foot := st i _ _ _ (I.alone i)
  have sub : ∀ j a, M j a ≠ none → m' a ≠ none := by
    intro j a ha
    by_cases h : m a = none
    · rw [I.own j a (.inr (.inr ⟨h, ha⟩))]; exact ha
    · exact I.mono a h
  -- what all cases need
  have key : ∀ (N : Mem), (ps' i).step (M i) c = some (N, p₂) →
      (∀ a, (R i a ∨ W i a ∨ (m a = none ∧ N a ≠ none)) → m₂ a = N a) →
      (∀ j, j ≠ i → ∀ a, (R j a ∨ W j a ∨ (m a = none ∧ M j a ≠ none)) → m₂ a = m' a) →
      (∀ j, j ≠ i → ∀ a, m a = none → N a ≠ none → M j a ≠ none → False) →
      (∀ a, m a ≠ none → (∀ i, ¬ W i a) → m₂ a = m' a) →
      (∀ a, m a = none → m₂ a ≠ none → m' a ≠ none ∨ N a ≠ none) →
      ∃ M₂, Inter m ps R W (sched ++ [(i, c)]) M₂ m₂ (fun j => if j = i then p₂ else ps' j) := by
    intro N h1 h2 h3 h4 h5 h6
    refine ⟨fun j => if j = i then N else M j, ⟨?_, ?_, ?_, ?_, ?_, ?_⟩⟩
    · intro j
      rw [offered_snoc]
      by_cases hj : j = i
      · subst hj; simp; exact alone_snoc (I.alone j) h1
      · simp [hj, Ne.symm hj, I.alone j]
    · intro j a ha
      by_cases hj : j = i
      · subst hj; simp at ha ⊢; exact h2 a (by simpa using ha)
      · simp [hj] at ha ⊢
        rw [h3 j hj a (by simpa using ha)]
        exact I.own j a (by simpa using ha)
    · intro j k a hn
      by_cases hj : j = i <;> by_cases hk : k = i
      · simp [hj, hk]
      · subst hj; simp only [hk, if_true, if_false]; intro x y; exact (h4 k hk a hn x y).elim
      · subst hk; simp only [hj, if_true, if_false]; intro x y; exact (h4 j hj a hn y x).elim
      · simp [hj, hk]; exact I.apart j k a hn
    · intro a ha hw
      rw [h5 a ha hw]; exact I.rest a ha hw
    · intro a ha
      exact step_mono hs a (I.mono a ha)
    · intro a hn ha
      rcases h6 a hn ha with hm | hm
      · obtain ⟨j, hj⟩ := I.made a hn hm
        refine ⟨j, ?_⟩
        by_cases hji : j = i
        · subst hji; simp; exact step_mono h1 a hj
        · simp [hji]; exact hj
      · exact ⟨i, by simpa using hm⟩
  cases hp : ps' i with
  | ret x => rw [hp] at hs; simp [Code.step] at hs
  | panic => rw [hp] at hs; simp [Code.step] at hs
  | read a f k =>
    rw [hp] at hs foot key
    simp only [Code.step, Option.map_eq_some_iff] at hs
    obtain ⟨r, hr, e⟩ := hs
    cases e
    have hf := foot a false rfl
    have hM : M i a = some r := by
      rw [← hr]
      rcases hf with h | ⟨_, h⟩ | h
      · exact (I.own i a (.inr (.inl h))).symm
      · exact (I.own i a (.inl h)).symm
      · exact (I.own i a (.inr (.inr h))).symm
    refine key (M i) (by simp [Code.step, hM]) (I.own i) (fun _ _ _ _ => rfl) ?_ (fun _ _ _ => rfl) (fun a _ h => .inl h)
    intro j hj a hn x y
    exact hj (I.apart i j a hn x y).symm
  | write a f v k =>
    rw [hp] at hs foot key
    simp only [Code.step, Option.map_eq_some_iff] at hs
    obtain ⟨r, hr, e⟩ := hs
    cases e
    have hf : W i a ∨ (m a = none ∧ M i a ≠ none) := by
      rcases foot a true rfl with h | ⟨h, _⟩ | h
      · exact .inl h
      · cases h
      · exact .inr h
    have hM : M i a = some r := by rw [← hr]; exact (I.own i a (.inr hf)).symm
    refine key ((M i).set a (r.put f v)) (by simp [Code.step, hM]) ?_ ?_ ?_ ?_ ?_
    · intro b hb
      simp only [Mem.set] at hb ⊢
      by_cases hba : b = a
      · simp [hba]
      · simp only [hba, if_false] at hb ⊢; exact I.own i b hb
    · intro j hj b hb
      simp only [Mem.set]
      by_cases hba : b = a
      · subst hba
        exfalso
        rcases hf with hw | ⟨h1, h2⟩
        · rcases hb with h | h | ⟨h, _⟩
          · exact hj (nc.read i j b hw h).symm
          · exact hj (nc.write i j b hw h).symm
          · exact nc.existW i b hw h
        · rcases hb with h | h | ⟨_, h⟩
          · exact nc.existR j b h h1
          · exact nc.existW j b h h1
          · exact hj (I.apart i j b h1 h2 h).symm
      · simp [hba]
    · intro j hj b hn x y
      simp only [Mem.set] at x
      by_cases hba : b = a
      · subst hba
        exact hj (I.apart i j b hn (by rw [hM]; simp) y).symm
      · simp only [hba, if_false] at x; exact hj (I.apart i j b hn x y).symm
    · intro b hb hw
      simp only [Mem.set]
      by_cases hba : b = a
      · subst hba
        rcases hf with h | ⟨h, _⟩
        · exact (hw i h).elim
        · exact (hb h).elim
      · simp [hba]
    · intro b hn hb
      simp only [Mem.set] at hb ⊢
      by_cases hba : b = a
      · exact .inr (by simp [hba])
      · simp only [hba, if_false] at hb; exact .inl hb
  | alloc r k =>
    rw [hp] at hs foot key
    simp only [Code.step] at hs
    split at hs
    case isFalse => simp at hs
    case isTrue hc =>
    cases hs
    have hMc : ∀ j, M j c = none := by
      intro j
      apply Classical.byContradiction
      intro h; exact sub j c h hc
    have hmc : m c = none := by
      apply Classical.byContradiction
      intro h; exact I.mono c h hc
    refine key ((M i).set c r) (by simp [Code.step, hMc i]) ?_ ?_ ?_ ?_ ?_
    · intro b hb
      simp only [Mem.set] at hb ⊢
      by_cases hba : b = c
      · simp [hba]
      · simp only [hba, if_false] at hb ⊢; exact I.own i b hb
    · intro j hj b hb
      simp only [Mem.set]
      by_cases hba : b = c
      · subst hba
        exfalso
        rcases hb with h | h | ⟨_, h⟩
        · exact nc.existR j b h hmc
        · exact nc.existW j b h hmc
        · exact h (hMc j)
      · simp [hba]
    · intro j hj b hn x y
      simp only [Mem.set] at x
      by_cases hba : b = c
      · subst hba; exact y (hMc j)
      · simp only [hba, if_false] at x; exact hj (I.apart i j b hn x y).symm
    · intro b hb hw
      simp only [Mem.set]
      by_cases hba : b = c
      · subst hba; exact (hb hmc).elim
      · simp [hba]
    · intro b hn hb
      simp only [Mem.set] at hb ⊢
      by_cases hba : b = c
      · exact .inr (by simp [hba])
      · simp only [hba, if_false] at hb; exact .inl hb

theorem goTogether_inv {m : Mem} {ps : Nat → Code α} {R W : Nat → Nat → Prop} (nc : NoConflict m R W) (st : ∀ i, StaysIn m (ps i) (R i) (W i)) :
    ∀ (sched done : List (Nat × Nat)) (M : Nat → Mem) (m₁ : Mem) (ps₁ : Nat → Code α), Inter m ps R W done M m₁ ps₁ →
      ∀ m' ps', goTogether m₁ ps₁ sched = some (m', ps') → ∃ M', Inter m ps R W (done ++ sched) M' m' ps'
  | [], done, M, m₁, ps₁, I, m', ps', h => by
    simp [goTogether] at h
    obtain ⟨rfl, rfl⟩ := h
    exact ⟨M, by simpa using I⟩
  | (i, c) :: sched, done, M, m₁, ps₁, I, m', ps', h => by
    simp only [goTogether] at h
    cases e : (ps₁ i).step m₁ c with
    | none => rw [e] at h; simp at h
    | some r =>
      rw [e] at h
      obtain ⟨M₂, I₂⟩ := inter_step nc st I (show (ps₁ i).step m₁ c = some (r.1, r.2) from e)
      have := goTogether_inv nc st sched (done ++ [(i, c)]) M₂ _ _ I₂ m' ps' h
      simpa using this

theorem inter_start (m : Mem) (ps : Nat → Code α) (R W : Nat → Nat → Prop) : Inter m ps R W [] (fun _ => m) m ps :=
  ⟨fun _ => rfl, fun _ _ _ => rfl, fun _ _ _ h h' => (h' h).elim, fun _ _ _ => rfl, fun _ h => h, fun _ h h' => (h' h).elim⟩

end Goast
