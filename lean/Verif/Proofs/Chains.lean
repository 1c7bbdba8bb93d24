import Verif.Proofs.Ops

/-!
# Forward lists, backward lists, chains, acyclicity
-/

namespace Goast

theorem nodup_length_le (n : Nat) : ∀ (l : List Nat), l.Nodup → (∀ a ∈ l, a < n) → l.length ≤ n := by
  induction n with
  | zero =>
    intro l _ h
    cases l with
    | nil => simp
    | cons a l => exact absurd (h a (by simp)) (by omega)
  | succ n ih =>
    intro l hd h
    have h1 := ih (l.erase n) (hd.erase n) (by
      intro a ha
      have h2 := h a (List.mem_of_mem_erase ha)
      have h3 : a ≠ n := by
        rintro rfl
        exact (hd.not_mem_erase) ha
      omega)
    have h2 : l.length ≤ (l.erase n).length + 1 := by
      rw [List.length_erase]; split <;> omega
    omega

/-! ## Forward lists -/

namespace Fwd

theorem det {h : Heap} {p : Ptr} {l l' : List Addr} (a : Fwd h p l) (b : Fwd h p l') : l = l' := by
  induction a generalizing l' with
  | nil => cases b; rfl
  | cons _ _ ih =>
    cases b with
    | cons _ hb => rw [ih hb]

theorem lt {h : Heap} {p : Ptr} {l : List Addr} (f : Fwd h p l) : ∀ a ∈ l, a < h.size := by
  induction f with
  | nil => simp
  | cons ha _ ih => 
    intro x hx
    rcases List.mem_cons.1 hx with rfl | hx
    · exact ha
    · exact ih _ hx

theorem valid {h : Heap} {p : Ptr} {l : List Addr} (f : Fwd h p l) : Valid h p := by
  cases f with
  | nil => exact Valid.none h
  | cons ha _ => intro b hb; cases hb; exact ha

theorem nil_iff {h : Heap} {p : Ptr} : Fwd h p [] ↔ p = none := by
  constructor
  · intro f; cases f; rfl
  · rintro rfl; exact .nil

theorem cons_iff {h : Heap} {p : Ptr} {a : Addr} {l : List Addr} :
    Fwd h p (a :: l) ↔ p = some a ∧ a < h.size ∧ Fwd h (h.next (some a)) l := by
  constructor
  · intro f; cases f with | cons ha f => exact ⟨rfl, ha, f⟩
  · rintro ⟨rfl, ha, f⟩; exact .cons ha f

theorem head_eq {h : Heap} {p : Ptr} {l : List Addr} (f : Fwd h p l) : p = l.head? := by
  cases f <;> rfl

/-- From any position of the list on, the rest of the list is a forward list. -/
theorem drop {h : Heap} {p : Ptr} (l₁ : List Addr) {l₂ : List Addr} (f : Fwd h p (l₁ ++ l₂)) :
    Fwd h l₂.head? l₂ := by
  induction l₁ generalizing p with
  | nil => rw [List.nil_append] at f; rwa [f.head_eq] at f
  | cons a l₁ ih => exact ih (cons_iff.1 f).2.2

theorem mem {h : Heap} {p : Ptr} {l : List Addr} (f : Fwd h p l) {a : Addr} (ha : a ∈ l) :
    ∃ l₁ l₂, l = l₁ ++ a :: l₂ ∧ Fwd h (some a) (a :: l₂) := by
  obtain ⟨l₁, l₂, rfl⟩ := List.append_of_mem ha
  exact ⟨l₁, l₂, rfl, f.drop l₁⟩

theorem next_mem {h : Heap} {p : Ptr} {l : List Addr} (f : Fwd h p l) {a b : Addr} (ha : a ∈ l)
    (hn : h.next (some a) = some b) : ∃ l₁ l₂, l = l₁ ++ a :: b :: l₂ := by
  obtain ⟨l₁, l₂, rfl, f'⟩ := f.mem ha
  have := (cons_iff.1 f').2.2.head_eq
  rw [hn] at this
  cases l₂ with
  | nil => cases this
  | cons c l₂ => cases this; exact ⟨l₁, l₂, rfl⟩

theorem nodup {h : Heap} {p : Ptr} {l : List Addr} (f : Fwd h p l) : l.Nodup := by
  induction f with
  | nil => exact List.nodup_nil
  | @cons a l ha f ih =>
    refine List.nodup_cons.2 ⟨?_, ih⟩
    intro hm
    obtain ⟨l₁, l₂, rfl, f'⟩ := f.mem hm
    have := det (Fwd.cons ha f) f'
    have := congrArg List.length this
    simp at this
    omega

theorem length_le {h : Heap} {p : Ptr} {l : List Addr} (f : Fwd h p l) : l.length ≤ h.size := by
  exact nodup_length_le _ _ f.nodup f.lt

/-- Heaps that agree on the `next` of the visited nodes have the same forward list. -/
theorem congr {h h' : Heap} {p : Ptr} {l : List Addr} (f : Fwd h p l) (hs : ∀ a ∈ l, a < h'.size)
    (hn : ∀ a ∈ l, h'.next (some a) = h.next (some a)) : Fwd h' p l := by
  induction f with
  | nil => exact .nil
  | @cons a l ha f ih =>
    refine .cons (hs a (by simp)) ?_
    rw [hn a (by simp)]
    exact ih (fun x hx => hs x (by simp [hx])) (fun x hx => hn x (by simp [hx]))

/-- Build a forward list from neighbour information. -/
theorem of_links {h : Heap} : ∀ (l : List Addr), (∀ a ∈ l, a < h.size) →
    (∀ a, l.getLast? = some a → h.next (some a) = none) →
    (∀ l₁ a b l₂, l = l₁ ++ a :: b :: l₂ → h.next (some a) = some b) → Fwd h l.head? l := by
  intro l
  induction l with
  | nil => intros; exact .nil
  | cons a l ih =>
    intro h1 h2 h3
    refine .cons (h1 a (by simp)) ?_
    cases l with
    | nil => rw [h2 a rfl]; exact .nil
    | cons b l =>
      rw [h3 [] a b l rfl]
      refine ih (fun x hx => h1 x (by simp [hx])) (fun x hx => h2 x ?_) ?_
      · rw [List.getLast?_cons_cons]; exact hx
      · intro l₁ x y l₂ he
        exact h3 (a :: l₁) x y l₂ (by rw [he]; rfl)

theorem last {h : Heap} {p : Ptr} {l : List Addr} (f : Fwd h p l) {a : Addr}
    (ha : l.getLast? = some a) : h.next (some a) = none := by
  rw [List.getLast?_eq_some_iff] at ha
  obtain ⟨l₁, rfl⟩ := ha
  have := f.drop l₁
  exact nil_iff.1 (cons_iff.1 this).2.2

theorem adj {h : Heap} {p : Ptr} {l l₁ l₂ : List Addr} {a b : Addr} (f : Fwd h p l)
    (he : l = l₁ ++ a :: b :: l₂) : h.next (some a) = some b := by
  subst he
  exact (cons_iff.1 (cons_iff.1 (f.drop l₁)).2.2).1

end Fwd

/-! ## Backward lists are forward lists of the mirrored heap -/

theorem bwd_iff_fwd_mirror {h : Heap} {p : Ptr} {l : List Addr} : Bwd h p l ↔ Fwd h.mirror p l := by
  constructor
  · intro b
    induction b with
    | nil => exact .nil
    | cons ha _ ih => exact .cons (by simpa using ha) (by simpa using ih)
  · intro f
    induction f with
    | nil => exact .nil
    | cons ha _ ih => exact .cons (by simpa using ha) (by simpa using ih)

theorem fwd_iff_bwd_mirror {h : Heap} {p : Ptr} {l : List Addr} : Fwd h p l ↔ Bwd h.mirror p l := by
  rw [bwd_iff_fwd_mirror, Heap.mirror_mirror]

/-! ## Chains -/

theorem Chain.fwd {h : Heap} {l : List Addr} (c : Chain h l) : Fwd h l.head? l :=
  Fwd.of_links l c.1 c.2.2.1 fun l₁ a b l₂ he => (c.2.2.2 l₁ a b l₂ he).1

/-- In a consistently linked heap a forward list whose head has no predecessor is a chain. -/
theorem Fwd.chain {h : Heap} (w : WF h) {l : List Addr} (f : Fwd h l.head? l)
    (hp : h.prev l.head? = none) : Chain h l := by
  refine ⟨f.lt, ?_, fun a ha => f.last ha, ?_⟩
  · intro a ha; rwa [ha] at hp
  · intro l₁ a b l₂ he
    have := f.adj he
    exact ⟨this, (w.inverse a b).1 this⟩

theorem Chain.nodup {h : Heap} {l : List Addr} (c : Chain h l) : l.Nodup := c.fwd.nodup

/-- Chains do not overlap: two chains sharing a node are equal. -/
theorem Chain.eq_of_mem {h : Heap} {l l' : List Addr} (c : Chain h l) (c' : Chain h l') {a : Addr}
    (ha : a ∈ l) (ha' : a ∈ l') : l = l' := by
  obtain ⟨l₁, l₂, rfl⟩ := List.append_of_mem ha
  obtain ⟨m₁, m₂, rfl⟩ := List.append_of_mem ha'
  have e2 : l₂ = m₂ := by
    have f1 := c.fwd.drop l₁
    have f2 := c'.fwd.drop m₁
    have := Fwd.det f1 f2
    simpa using this
  subst e2
  congr 1
  clear ha ha'
  -- compare the parts in front from the back
  have key : ∀ (n : Nat) (l₁ m₁ r : List Addr) (a : Addr), l₁.length ≤ n → Chain h (l₁ ++ a :: r) →
      Chain h (m₁ ++ a :: r) → l₁ = m₁ := by
    intro n
    induction n with
    | zero =>
      intro l₁ m₁ r a hl c c'
      have : l₁ = [] := List.length_eq_zero_iff.1 (by omega)
      subst this
      rcases List.eq_nil_or_concat m₁ with rfl | ⟨m, b, rfl⟩
      · rfl
      · have h1 := c.2.1 a rfl
        have h2 := (c'.2.2.2 m b a r (by simp)).2
        rw [h1] at h2; cases h2
    | succ n ih =>
      intro l₁ m₁ r a hl c c'
      rcases List.eq_nil_or_concat l₁ with rfl | ⟨l, b, rfl⟩
      · rcases List.eq_nil_or_concat m₁ with rfl | ⟨m, b, rfl⟩
        · rfl
        · have h1 := c.2.1 a rfl
          have h2 := (c'.2.2.2 m b a r (by simp)).2
          rw [h1] at h2; cases h2
      · rcases List.eq_nil_or_concat m₁ with rfl | ⟨m, b', rfl⟩
        · have h1 := c'.2.1 a rfl
          have h2 := (c.2.2.2 l b a r (by simp)).2
          rw [h1] at h2; cases h2
        · have h1 := (c.2.2.2 l b a r (by simp)).2
          have h2 := (c'.2.2.2 m b' a r (by simp)).2
          rw [h1] at h2
          cases h2
          have := ih l m (a :: r) b (by simp at hl; omega) (by simpa using c) (by simpa using c')
          rw [this]
  exact key _ l₁ m₁ l₂ a (Nat.le_refl _) c c'

/-! ## Acyclicity by ranks -/

/-- A rank that drops along every link. -/
def Ranked (h : Heap) : Prop := ∃ f : Addr → Nat, ∀ a b, h.next (some a) = some b → f b < f a

theorem Ranked.fwd {h : Heap} (w : WF h) (r : Ranked h) : Acyclic h := by
  obtain ⟨f, hf⟩ := r
  have : ∀ n a, f a ≤ n → a < h.size → ∃ l, Fwd h (some a) l := by
    intro n
    induction n with
    | zero =>
      intro a ha hs
      cases hn : h.next (some a) with
      | none => exact ⟨[a], .cons hs (hn ▸ .nil)⟩
      | some b => have := hf a b hn; omega
    | succ n ih =>
      intro a ha hs
      cases hn : h.next (some a) with
      | none => exact ⟨[a], .cons hs (hn ▸ .nil)⟩
      | some b =>
        have hb := hf a b hn
        obtain ⟨l, hl⟩ := ih b (by omega) (w.valid_next _ _ hn)
        exact ⟨a :: l, .cons hs (hn ▸ hl)⟩
  exact fun a ha => this _ a (Nat.le_refl _) ha

open Classical in
theorem Acyclic.ranked {h : Heap} (w : WF h) (ac : Acyclic h) : Ranked h := by
  refine ⟨fun a => if ha : a < h.size then (Classical.choose (ac a ha)).length else 0, ?_⟩
  intro a b hab
  have ha := Heap.lt_of_next hab
  have hb := w.valid_next _ _ hab
  simp only [ha, hb, dif_pos]
  have fa := Classical.choose_spec (ac a ha)
  have fb := Classical.choose_spec (ac b hb)
  have : Fwd h (some a) (a :: Classical.choose (ac b hb)) := .cons ha (by rw [hab]; exact fb)
  rw [Fwd.det fa this]
  simp

theorem acyclic_iff_ranked {h : Heap} (w : WF h) : Acyclic h ↔ Ranked h :=
  ⟨fun a => a.ranked w, fun r => r.fwd w⟩

/-- On a finite heap, if iterating forward always ends, iterating backward always ends. -/
theorem Acyclic.bwd {h : Heap} (w : WF h) (ac : Acyclic h) : ∀ a, a < h.size → ∃ l, Bwd h (some a) l := by
  have : ∀ n a l, Fwd h (some a) l → h.size - l.length ≤ n → ∃ l, Bwd h (some a) l := by
    intro n
    induction n with
    | zero =>
      intro a l f hn
      have hs := f.valid a rfl
      cases hp : h.prev (some a) with
      | none => exact ⟨[a], .cons hs (hp ▸ .nil)⟩
      | some b =>
        have hba := (w.inverse b a).2 hp
        have : Fwd h (some b) (b :: l) := .cons (Heap.lt_of_next hba) (by rw [hba]; exact f)
        have := this.length_le
        simp at this; omega
    | succ n ih =>
      intro a l f hn
      have hs := f.valid a rfl
      cases hp : h.prev (some a) with
      | none => exact ⟨[a], .cons hs (hp ▸ .nil)⟩
      | some b =>
        have hba := (w.inverse b a).2 hp
        have fb : Fwd h (some b) (b :: l) := .cons (Heap.lt_of_next hba) (by rw [hba]; exact f)
        obtain ⟨m, hm⟩ := ih b _ fb (by simp; omega)
        exact ⟨a :: m, .cons hs (hp ▸ hm)⟩
  intro a ha
  obtain ⟨l, hl⟩ := ac a ha
  exact this _ a l hl (Nat.le_refl _)

theorem Bwd.lt {h : Heap} {p : Ptr} {l : List Addr} (b : Bwd h p l) : ∀ a ∈ l, a < h.size := by
  have := (bwd_iff_fwd_mirror.1 b).lt
  simpa using this

theorem Bwd.det {h : Heap} {p : Ptr} {l l' : List Addr} (a : Bwd h p l) (b : Bwd h p l') : l = l' :=
  Fwd.det (bwd_iff_fwd_mirror.1 a) (bwd_iff_fwd_mirror.1 b)

theorem Bwd.length_le {h : Heap} {p : Ptr} {l : List Addr} (b : Bwd h p l) : l.length ≤ h.size := by
  have := (bwd_iff_fwd_mirror.1 b).length_le
  simpa using this

theorem Bwd.cons_iff {h : Heap} {p : Ptr} {a : Addr} {l : List Addr} :
    Bwd h p (a :: l) ↔ p = some a ∧ a < h.size ∧ Bwd h (h.prev (some a)) l := by
  simp [bwd_iff_fwd_mirror, Fwd.cons_iff]

/-- The chain a node lies on. -/
theorem chain_of_lists {h : Heap} (w : WF h) {a : Addr} {lb lf : List Addr}
    (b : Bwd h (some a) (a :: lb)) (f : Fwd h (some a) (a :: lf)) :
    Chain h (lb.reverse ++ a :: lf) := by
  have gen : ∀ (lb : List Addr) (a : Addr) (lf : List Addr), Bwd h (some a) (a :: lb) →
      Fwd h (some a) (a :: lf) →
      Fwd h (lb.reverse ++ a :: lf).head? (lb.reverse ++ a :: lf) ∧
      h.prev (lb.reverse ++ a :: lf).head? = none := by
    intro lb
    induction lb with
    | nil =>
      intro a lf b f
      refine ⟨f, ?_⟩
      have := (Bwd.cons_iff.1 b).2.2
      cases hp : h.prev (some a) with
      | none => exact hp
      | some c => rw [hp] at this; cases this
    | cons c lb ih =>
      intro a lf b f
      have hb := (Bwd.cons_iff.1 b)
      have hc := Bwd.cons_iff.1 hb.2.2
      have hca := (w.inverse c a).2 hc.1
      have := ih c (a :: lf) (by rw [← hc.1]; exact hb.2.2) (.cons hc.2.1 (by rw [hca]; exact f))
      simpa using this
  have := gen lb a lf b f
  exact Fwd.chain w this.1 this.2

/-- Every node of an acyclic heap lies on a chain. -/
theorem Acyclic.exists_chain {h : Heap} (w : WF h) (ac : Acyclic h) (a : Addr) (ha : a < h.size) :
    ∃ l, Chain h l ∧ a ∈ l := by
  obtain ⟨lf, f⟩ := ac a ha
  obtain ⟨lb, b⟩ := ac.bwd w a ha
  cases f with
  | cons _ f =>
    cases b with
    | cons _ b =>
      rename_i lf lb
      exact ⟨_, chain_of_lists w (.cons ha b) (.cons ha f), by simp⟩

end Goast
