import Verif.Proofs.NewNodes

/-!
# Segments: the list-level view of links
-/

namespace Goast

/-- `l` is linked in both directions; its first node has `Prev` `p`, its last `Next` `q`. -/
def Seg (h : Heap) : Ptr → List Addr → Ptr → Prop
  | _, [], _ => True
  | p, a :: l, q => a < h.size ∧ h.prev (some a) = p ∧ h.next (some a) = l.head?.or q ∧ Seg h (some a) l q

instance Seg.dec (h : Heap) : ∀ (l : List Addr) (p q : Ptr), Decidable (Seg h p l q)
  | [], _, _ => .isTrue trivial
  | a :: l, p, q =>
    have := Seg.dec h l (some a) q
    inferInstanceAs (Decidable (a < h.size ∧ h.prev (some a) = p ∧ h.next (some a) = l.head?.or q ∧ Seg h (some a) l q))

instance (h : Heap) (p q : Ptr) (l : List Addr) : Decidable (Seg h p l q) := Seg.dec h l p q

namespace Seg

theorem append {h : Heap} (l₁ : List Addr) : ∀ {p q : Ptr} {l₂ : List Addr},
    Seg h p (l₁ ++ l₂) q ↔ Seg h p l₁ (l₂.head?.or q) ∧ Seg h (l₁.getLast?.or p) l₂ q := by
  induction l₁ with
  | nil => intro p q l₂; simp [Seg]
  | cons a l₁ ih =>
    intro p q l₂
    simp only [List.cons_append, Seg, ih]
    have e1 : ((l₁ ++ l₂).head?.or q) = (l₁.head?.or (l₂.head?.or q)) := by
      cases l₁ <;> simp
    have e2 : ((a :: l₁).getLast?.or p) = (l₁.getLast?.or (some a)) := by
      cases l₁ with
      | nil => rfl
      | cons b l =>
        rw [List.getLast?_cons_cons]
        rw [List.getLast?_eq_some_getLast (by simp)]
        simp
    rw [e1, e2]
    constructor
    · rintro ⟨a, b, c, d, e⟩; exact ⟨⟨a, b, c, d⟩, e⟩
    · rintro ⟨⟨a, b, c, d⟩, e⟩; exact ⟨a, b, c, d, e⟩

theorem lt {h : Heap} {l : List Addr} : ∀ {p q : Ptr}, Seg h p l q → ∀ a ∈ l, a < h.size := by
  induction l with
  | nil => intro _ _ _ a ha; cases ha
  | cons b l ih =>
    intro p q s a ha
    rcases List.mem_cons.1 ha with rfl | ha
    · exact s.1
    · exact ih s.2.2.2 a ha

/-- Transport a segment to another heap, possibly with new ends. -/
theorem change {h h' : Heap} (hs : h'.size = h.size) {l : List Addr} : ∀ {p q : Ptr} (p' q' : Ptr), Seg h p l q →
    (∀ x ∈ l, q ≠ some x) → (∀ x ∈ l, p ≠ some x) → l.Nodup →
    (∀ x ∈ l, h'.next (some x) = if h.next (some x) = q then q' else h.next (some x)) →
    (∀ x ∈ l, h'.prev (some x) = if h.prev (some x) = p then p' else h.prev (some x)) →
    Seg h' p' l q' := by
  induction l with
  | nil => intros; trivial
  | cons a l ih =>
    intro p q p' q' s hq hp nd hn hpv
    obtain ⟨s1, s2, s3, s4⟩ := s
    refine ⟨by omega, ?_, ?_, ?_⟩
    · rw [hpv a (by simp), if_pos s2]
    · rw [hn a (by simp)]
      cases l with
      | nil => simp only [List.head?_nil, Option.none_or] at s3; simp [s3]
      | cons b l =>
        simp only [List.head?_cons, Option.some_or] at s3 ⊢
        rw [s3, if_neg]
        exact fun hh => hq b (by simp) hh.symm
    · refine ih (some a) q' s4 (fun x hx => hq x (by simp [hx])) ?_ (by simp at nd; exact nd.2)
        (fun x hx => hn x (by simp [hx])) ?_
      · intro x hx hh; cases hh; simp at nd; exact nd.1 hx
      · intro x hx
        rw [hpv x (by simp [hx])]
        -- `prev x` is in `a :: l`, so it is not `p`
        have : h.prev (some x) ≠ p := by
          intro hh
          have : ∀ (l : List Addr) (c : Addr), Seg h (some c) l q → x ∈ l →
              ∃ y, (y = c ∨ y ∈ l) ∧ h.prev (some x) = some y := by
            intro l
            induction l with
            | nil => intro _ _ hx; cases hx
            | cons b l ih =>
              intro c s hx
              rcases List.mem_cons.1 hx with rfl | hx
              · exact ⟨c, .inl rfl, s.2.1⟩
              · obtain ⟨y, hy, e⟩ := ih b s.2.2.2 hx
                refine ⟨y, .inr ?_, e⟩
                rcases hy with rfl | hy <;> simp [*]
          obtain ⟨y, hy, e⟩ := this l a s4 hx
          rw [hh] at e
          exact hp y (by rcases hy with rfl | hy <;> simp [*]) e
        rw [if_neg this]
        split
        · rename_i e; exact e
        · rfl

end Seg

theorem Chain.seg {h : Heap} {l : List Addr} : Chain h l ↔ Seg h none l none := by
  have gen : ∀ (l : List Addr) (p : Ptr), (∀ a ∈ l, a < h.size) →
      (∀ a, l.head? = some a → h.prev (some a) = p) →
      (∀ a, l.getLast? = some a → h.next (some a) = none) →
      (∀ l₁ a b l₂, l = l₁ ++ a :: b :: l₂ → h.next (some a) = some b ∧ h.prev (some b) = some a) →
      Seg h p l none := by
    intro l
    induction l with
    | nil => intros; trivial
    | cons a l ih =>
      intro p h1 h2 h3 h4
      refine ⟨h1 a (by simp), h2 a rfl, ?_, ?_⟩
      · cases l with
        | nil => exact h3 a rfl
        | cons b l => exact (h4 [] a b l rfl).1
      · refine ih (some a) (fun x hx => h1 x (by simp [hx])) ?_ ?_ ?_
        · intro b hb
          cases l with
          | nil => cases hb
          | cons c l => cases hb; exact (h4 [] a _ l rfl).2
        · intro b hb
          cases l with
          | nil => cases hb
          | cons c l => exact h3 b (by rw [List.getLast?_cons_cons]; exact hb)
        · intro l₁ x y l₂ e
          exact h4 (a :: l₁) x y l₂ (by rw [e]; rfl)
  constructor
  · rintro ⟨h1, h2, h3, h4⟩
    exact gen l none h1 h2 h3 h4
  · intro s
    refine ⟨s.lt, ?_, ?_, ?_⟩
    · intro a ha
      cases l with
      | nil => cases ha
      | cons b l => cases ha; exact s.2.1
    · intro a ha
      rcases List.eq_nil_or_concat l with rfl | ⟨l', b, rfl⟩
      · cases ha
      · rw [List.concat_eq_append] at s ha
        rw [List.getLast?_append] at ha
        cases ha
        exact ((Seg.append l').1 s).2.2.2.1
    · rintro l₁ a b l₂ rfl
      have := ((Seg.append l₁).1 s).2
      exact ⟨this.2.2.1, this.2.2.2.2.1⟩

theorem Seg.next_mem {h : Heap} {x : Addr} {l : List Addr} : ∀ {p q : Ptr}, Seg h p l q → x ∈ l →
    h.next (some x) = q ∨ ∃ y ∈ l, h.next (some x) = some y := by
  induction l with
  | nil => intro _ _ _ hx; cases hx
  | cons a l ih =>
    intro p q s hx
    rcases List.mem_cons.1 hx with rfl | hx
    · cases l with
      | nil => exact .inl s.2.2.1
      | cons b l => exact .inr ⟨b, by simp, s.2.2.1⟩
    · rcases ih s.2.2.2 hx with e | ⟨y, hy, e⟩
      · exact .inl e
      · exact .inr ⟨y, by simp [hy], e⟩

theorem Seg.prev_mem {h : Heap} {x : Addr} {l : List Addr} : ∀ {p q : Ptr}, Seg h p l q → x ∈ l →
    h.prev (some x) = p ∨ ∃ y ∈ l, h.prev (some x) = some y := by
  induction l with
  | nil => intro _ _ _ hx; cases hx
  | cons a l ih =>
    intro p q s hx
    rcases List.mem_cons.1 hx with rfl | hx
    · exact .inl s.2.1
    · rcases ih s.2.2.2 hx with e | ⟨y, hy, e⟩
      · exact .inr ⟨a, by simp, e⟩
      · exact .inr ⟨y, by simp [hy], e⟩

/-- Move a segment to the heap after a link operation: `s` the segment, `hs` equality of sizes, `e`, `e'` the
formulas for `next` and `prev` after it. -/
syntax "segmove " ident ident ident ident : tactic
macro_rules
  | `(tactic| segmove $s $hs $e $e') => `(tactic| (
      refine Seg.change $hs _ _ $s ?_ ?_ ?_ ?_ ?_
      · grind
      · grind
      · grind
      · intro x hx; rw [$e:ident x]; have := Seg.next_mem $s hx; grind
      · intro x hx; rw [$e':ident x]; have := Seg.prev_mem $s hx; grind))

theorem valid_some {h : Heap} {a : Addr} (ha : a < h.size) : Valid h (some a) := by
  intro b hb; cases hb; exact ha

end Goast
