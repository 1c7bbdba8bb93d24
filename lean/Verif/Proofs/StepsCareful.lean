import Verif.Proofs.Steps

/-! # Proofs: careful code stays where it may go -/

set_option linter.unusedSimpArgs false
set_option linter.unusedVariables false

namespace Goast

variable {α β : Type}

theorem careful_mono {sh : Nat → Prop} {Q Q' : (Nat → Prop) → α → Prop} (hq : ∀ o x, Q o x → Q' o x) :
    ∀ (p : Code α) (own : Nat → Prop), Careful sh p own Q → Careful sh p own Q'
  | .ret x, own, h => hq _ _ h
  | .panic, _, _ => trivial
  | .read a f k, own, h => by
    rcases h with ⟨h1, h2⟩ | ⟨h1, h2⟩
    · exact .inl ⟨h1, fun v hv => careful_mono hq (k v) own (h2 v hv)⟩
    · exact .inr ⟨h1, fun v hv => careful_mono hq (k v) own (h2 v hv)⟩
  | .write a f v k, own, h => ⟨h.1, h.2.1, careful_mono hq k own h.2.2⟩
  | .alloc r k, own, h => ⟨h.1, h.2.1, fun a ha hb => careful_mono hq (k a) _ (h.2.2 a ha hb)⟩

theorem careful_bind {sh : Nat → Prop} {Q : (Nat → Prop) → β → Prop} (g : α → Code β) :
    ∀ (p : Code α) (own : Nat → Prop), Careful sh p own (fun o x => Careful sh (g x) o Q) → Careful sh (p.bind g) own Q
  | .ret x, own, h => h
  | .panic, _, _ => trivial
  | .read a f k, own, h => by
    rcases h with ⟨h1, h2⟩ | ⟨h1, h2⟩
    · exact .inl ⟨h1, fun v hv => careful_bind g (k v) own (h2 v hv)⟩
    · exact .inr ⟨h1, fun v hv => careful_bind g (k v) own (h2 v hv)⟩
  | .write a f v k, own, h => ⟨h.1, h.2.1, careful_bind g k own h.2.2⟩
  | .alloc r k, own, h => ⟨h.1, h.2.1, fun a ha hb => careful_bind g (k a) _ (h.2.2 a ha hb)⟩

theorem valTo_get {m : Mem} {S : Nat → Prop} (is : Island m S) {a : Nat} {r : NodeRec} (ha : S a) (hr : m a = some r) (f : NodeField) : ValTo S f (r.get f) := by
  cases f <;> simp only [ValTo, NodeRec.get]
  · intro b hb; exact is.prev a r b ha hr hb
  · intro b hb; exact is.next a r b ha hr hb

theorem put_links {r : NodeRec} {f : NodeField} {v : f.Val} {S : Nat → Prop} (hv : ValTo S f v) (hp : PtrTo S r.prev) (hn : PtrTo S r.next) :
    PtrTo S (r.put f v).prev ∧ PtrTo S (r.put f v).next := by
  cases f <;> simp_all [NodeRec.put, ValTo]

theorem careful_step {sh : Nat → Prop} {Q : (Nat → Prop) → α → Prop} {m : Mem} {own : Nat → Prop} (io : Island m own) (is : Island m sh)
    (dj : ∀ a, own a → sh a → False) {p p₁ : Code α} {c : Nat} {m₁ : Mem} (ca : Careful sh p own Q) (e : p.step m c = some (m₁, p₁)) :
    ∃ own₁, (∀ a, own₁ a ↔ own a ∨ (m a = none ∧ m₁ a ≠ none)) ∧ Careful sh p₁ own₁ Q ∧ Island m₁ own₁ ∧ Island m₁ sh ∧ (∀ a, own₁ a → sh a → False) := by
  cases p with
  | ret x => simp [Code.step] at e
  | panic => simp [Code.step] at e
  | read a f k =>
    simp only [Code.step, Option.map_eq_some_iff] at e
    obtain ⟨r, hr, e⟩ := e
    cases e
    refine ⟨own, fun a => ⟨.inl, fun h => h.elim id fun h => (h.2 h.1).elim⟩, ?_, io, is, dj⟩
    rcases ca with ⟨h1, h2⟩ | ⟨h1, h2⟩
    · exact h2 _ (valTo_get io h1 hr f)
    · exact h2 _ (valTo_get is h1 hr f)
  | write a f v k =>
    simp only [Code.step, Option.map_eq_some_iff] at e
    obtain ⟨r, hr, e⟩ := e
    cases e
    obtain ⟨h1, h2, h3⟩ := ca
    have hl := put_links (r := r) h2 (fun b hb => io.prev a r b h1 hr hb) (fun b hb => io.next a r b h1 hr hb)
    refine ⟨own, fun b => ⟨.inl, fun h => h.elim id fun h => ?_⟩, h3, ?_, ?_, dj⟩
    · obtain ⟨x, y⟩ := h
      simp only [Mem.set] at y
      by_cases hb : b = a
      · subst hb; rw [hr] at x; cases x
      · simp [hb, x] at y
    · refine ⟨fun b hb => ?_, fun b q d hb hq hd => ?_, fun b q d hb hq hd => ?_⟩
      · simp only [Mem.set]; split
        · exact ⟨_, rfl⟩
        · exact io.exist b hb
      · simp only [Mem.set] at hq; split at hq
        · cases hq; exact hl.1 d hd
        · exact io.prev b q d hb hq hd
      · simp only [Mem.set] at hq; split at hq
        · cases hq; exact hl.2 d hd
        · exact io.next b q d hb hq hd
    · have hne : ∀ b, sh b → b ≠ a := fun b hb h => dj a h1 (h ▸ hb)
      refine ⟨fun b hb => ?_, fun b q d hb hq hd => ?_, fun b q d hb hq hd => ?_⟩
      · simp only [Mem.set, hne b hb, if_false]; exact is.exist b hb
      · simp only [Mem.set, hne b hb, if_false] at hq; exact is.prev b q d hb hq hd
      · simp only [Mem.set, hne b hb, if_false] at hq; exact is.next b q d hb hq hd
  | alloc r k =>
    simp only [Code.step] at e
    split at e
    case isFalse => simp at e
    case isTrue hc =>
    cases e
    obtain ⟨h1, h2, h3⟩ := ca
    have hno : ¬ own c := fun h => by obtain ⟨r, hr⟩ := io.exist c h; rw [hc] at hr; cases hr
    have hns : ¬ sh c := fun h => by obtain ⟨r, hr⟩ := is.exist c h; rw [hc] at hr; cases hr
    refine ⟨fun b => own b ∨ b = c, fun b => ?_, h3 c hno hns, ?_, ?_, ?_⟩
    · constructor
      · rintro (h | rfl)
        · exact .inl h
        · exact .inr ⟨hc, by simp [Mem.set]⟩
      · rintro (h | ⟨x, y⟩)
        · exact .inl h
        · simp only [Mem.set] at y
          by_cases hb : b = c
          · exact .inr hb
          · simp [hb, x] at y
    · refine ⟨fun b hb => ?_, fun b q d hb hq hd => ?_, fun b q d hb hq hd => ?_⟩
      · simp only [Mem.set]; split
        · exact ⟨_, rfl⟩
        · rename_i hne; exact io.exist b (hb.resolve_right hne)
      · simp only [Mem.set] at hq; split at hq
        · cases hq; exact .inl (h1 d hd)
        · rename_i hne; exact .inl (io.prev b q d (hb.resolve_right hne) hq hd)
      · simp only [Mem.set] at hq; split at hq
        · cases hq; exact .inl (h2 d hd)
        · rename_i hne; exact .inl (io.next b q d (hb.resolve_right hne) hq hd)
    · have hne : ∀ b, sh b → b ≠ c := fun b hb h => hns (h ▸ hb)
      refine ⟨fun b hb => ?_, fun b q d hb hq hd => ?_, fun b q d hb hq hd => ?_⟩
      · simp only [Mem.set, hne b hb, if_false]; exact is.exist b hb
      · simp only [Mem.set, hne b hb, if_false] at hq; exact is.prev b q d hb hq hd
      · simp only [Mem.set, hne b hb, if_false] at hq; exact is.next b q d hb hq hd
    · rintro b (h | rfl) hb
      · exact dj b h hb
      · exact hns hb

theorem careful_alone {sh : Nat → Prop} {Q : (Nat → Prop) → α → Prop} :
    ∀ (cs : List Nat) {m : Mem} {own : Nat → Prop} (io : Island m own) (is : Island m sh) (dj : ∀ a, own a → sh a → False) {p p₁ : Code α} {m₁ : Mem},
      Careful sh p own Q → p.alone m cs = some (m₁, p₁) →
      ∃ own₁, (∀ a, own₁ a ↔ own a ∨ (m a = none ∧ m₁ a ≠ none)) ∧ Careful sh p₁ own₁ Q ∧ Island m₁ own₁ ∧ Island m₁ sh ∧ (∀ a, own₁ a → sh a → False)
  | [], m, own, io, is, dj, p, p₁, m₁, ca, e => by
    simp [Code.alone] at e
    obtain ⟨rfl, rfl⟩ := e
    exact ⟨own, fun a => ⟨.inl, fun h => h.elim id fun h => (h.2 h.1).elim⟩, ca, io, is, dj⟩
  | c :: cs, m, own, io, is, dj, p, p₁, m₁, ca, e => by
    simp only [Code.alone] at e
    cases e1 : p.step m c with
    | none => rw [e1] at e; simp at e
    | some r =>
      rw [e1] at e
      obtain ⟨o1, a1, a2, a3, a4, a5⟩ := careful_step io is dj ca (show p.step m c = some (r.1, r.2) from e1)
      obtain ⟨o2, b1, b2, b3, b4, b5⟩ := careful_alone cs a3 a4 a5 a2 e
      refine ⟨o2, fun a => ?_, b2, b3, b4, b5⟩
      rw [b1, a1]
      have mono1 := step_mono (show p.step m c = some (r.1, r.2) from e1) a
      have mono2 := alone_mono e a
      constructor
      · rintro ((h | ⟨h1, h2⟩) | ⟨h1, h2⟩)
        · exact .inl h
        · exact .inr ⟨h1, mono2 h2⟩
        · refine .inr ⟨?_, h2⟩
          apply Classical.byContradiction
          intro h; exact mono1 h h1
      · rintro (h | ⟨h1, h2⟩)
        · exact .inl (.inl h)
        · by_cases h : r.1 a = none
          · exact .inr ⟨h, h2⟩
          · exact .inl (.inr ⟨h1, h⟩)

theorem careful_stays {sh : Nat → Prop} {Q : (Nat → Prop) → α → Prop} {m : Mem} {own : Nat → Prop} (io : Island m own) (is : Island m sh)
    (dj : ∀ a, own a → sh a → False) {p : Code α} (ca : Careful sh p own Q) : StaysIn m p sh own := by
  intro cs m₁ p₁ e a w ht
  obtain ⟨o, h1, h2, _⟩ := careful_alone cs io is dj ca e
  cases p₁ with
  | ret x => simp [Code.touches] at ht
  | panic => simp [Code.touches] at ht
  | alloc r k => simp [Code.touches] at ht
  | read b f k =>
    simp [Code.touches] at ht
    obtain ⟨rfl, rfl⟩ := ht
    rcases h2 with ⟨h, _⟩ | ⟨h, _⟩
    · rcases (h1 b).1 h with h | h
      · exact .inl h
      · exact .inr (.inr h)
    · exact .inr (.inl ⟨rfl, h⟩)
  | write b f v k =>
    simp [Code.touches] at ht
    obtain ⟨rfl, rfl⟩ := ht
    rcases (h1 b).1 h2.1 with h | h
    · exact .inl h
    · exact .inr (.inr h)

/-! ## The methods are careful -/

/-- The set of own nodes only grows, and the result satisfies `P`. -/
def Grows (own : Nat → Prop) (P : (Nat → Prop) → α → Prop) (o : Nat → Prop) (x : α) : Prop := (∀ a, own a → o a) ∧ P o x

theorem PtrTo.none {S : Nat → Prop} : PtrTo S none := fun _ h => by cases h

theorem PtrTo.mono {S T : Nat → Prop} (h : ∀ a, S a → T a) {n : Ptr} (hn : PtrTo S n) : PtrTo T n := fun a e => h a (hn a e)

/-- No new nodes, and the result satisfies `P`. -/
def NoneMade (own : Nat → Prop) (P : α → Prop) (o : Nat → Prop) (x : α) : Prop := o = own ∧ P x

theorem careful_seqG {sh : Nat → Prop} {own : Nat → Prop} {P : (Nat → Prop) → α → Prop} {P' : (Nat → Prop) → β → Prop} {p : Code α} {g : α → Code β}
    (hp : Careful sh p own (Grows own P)) (hg : ∀ o x, (∀ a, own a → o a) → P o x → Careful sh (g x) o (Grows o P')) :
    Careful sh (p >>= g) own (Grows own P') := by
  refine careful_bind g p own (careful_mono (fun o x h => ?_) p own hp)
  exact careful_mono (fun o' y h' => ⟨fun a ha => h'.1 a (h.1 a ha), h'.2⟩) (g x) o (hg o x h.1 h.2)

variable {sh own : Nat → Prop}

theorem careful_seq {Q : (Nat → Prop) → β → Prop} {P : α → Prop} {p : Code α} {g : α → Code β} (hp : Careful sh p own (NoneMade own P))
    (hg : ∀ x, P x → Careful sh (g x) own Q) : Careful sh (p >>= g) own Q := by
  refine careful_bind g p own (careful_mono (fun o x h => ?_) p own hp)
  obtain ⟨rfl, hx⟩ := h
  exact hg x hx

theorem careful_grow {P : (Nat → Prop) → α → Prop} {P' : α → Prop} {p : Code α} (h : Careful sh p own (NoneMade own P')) (hP : ∀ x, P' x → P own x) :
    Careful sh p own (Grows own P) := by
  refine careful_mono (fun o x h => ?_) p own h
  obtain ⟨rfl, hx⟩ := h
  exact ⟨fun _ h => h, hP x hx⟩

theorem careful_pure {P : α → Prop} {x : α} (h : P x) : Careful sh (pure x : Code α) own (NoneMade own P) := ⟨rfl, h⟩

theorem careful_load {n : Ptr} (hn : PtrTo own n) (f : NodeField) : Careful sh (Code.load n f) own (NoneMade own (ValTo own f)) := by
  cases n with
  | none => trivial
  | some a => exact .inl ⟨hn a rfl, fun v hv => ⟨rfl, hv⟩⟩

theorem careful_loadS {n : Ptr} (hn : PtrTo sh n) (f : NodeField) : Careful sh (Code.load n f) own (NoneMade own (ValTo sh f)) := by
  cases n with
  | none => trivial
  | some a => exact .inr ⟨hn a rfl, fun v hv => ⟨rfl, hv⟩⟩

theorem careful_store {n : Ptr} (hn : PtrTo own n) {f : NodeField} {v : f.Val} (hv : ValTo own f v) :
    Careful sh (Code.store n f v) own (NoneMade own fun _ => True) := by
  cases n with
  | none => trivial
  | some a => exact ⟨hn a rfl, hv, rfl, trivial⟩

theorem careful_alloc {r : NodeRec} (hp : r.prev = none) (hn : r.next = none) :
    Careful sh (Code.alloc r fun a => .ret (some a)) own (Grows own fun o x => PtrTo o x) :=
  ⟨by rw [hp]; exact .none, by rw [hn]; exact .none, fun a _ _ => ⟨fun _ h => .inl h, fun b hb => by cases hb; exact .inr rfl⟩⟩

theorem careful_prev {n : Ptr} (hn : PtrTo own n) : Careful sh (Code.prev n) own (NoneMade own (PtrTo own)) := by
  cases n with
  | none => exact careful_pure .none
  | some a => exact careful_load hn .prev

theorem careful_next {n : Ptr} (hn : PtrTo own n) : Careful sh (Code.next n) own (NoneMade own (PtrTo own)) := by
  cases n with
  | none => exact careful_pure .none
  | some a => exact careful_load hn .next

theorem careful_text {n : Ptr} (hn : PtrTo own n) : Careful sh (Code.text n) own (NoneMade own fun _ => True) := by
  cases n with
  | none => exact careful_pure trivial
  | some a => exact careful_load hn .text

theorem careful_setKind {n : Ptr} (hn : PtrTo own n) (k : Kind) : Careful sh (Code.setKind n k) own (NoneMade own fun _ => True) := by
  cases n with
  | none => exact careful_pure trivial
  | some a => exact careful_store hn trivial

theorem careful_setText {n : Ptr} (hn : PtrTo own n) (k : Bytes) : Careful sh (Code.setText n k) own (NoneMade own fun _ => True) := by
  cases n with
  | none => exact careful_pure trivial
  | some a => exact careful_store hn trivial

theorem careful_setPrev {n nn : Ptr} (hn : PtrTo own n) (hm : PtrTo own nn) : Careful sh (Code.setPrev n nn) own (NoneMade own fun _ => True) := by
  unfold Code.setPrev; split
  · exact careful_pure trivial
  · refine careful_seq (careful_load hn .prev) fun p hp => ?_
    split
    · refine careful_seq (careful_load hn .prev) fun p2 hp2 => ?_
      exact careful_seq (careful_store (f := .next) hp2 .none) fun _ _ => careful_store (f := .prev) hn hm
    · exact careful_store (f := .prev) hn hm

theorem careful_setNext {n nn : Ptr} (hn : PtrTo own n) (hm : PtrTo own nn) : Careful sh (Code.setNext n nn) own (NoneMade own fun _ => True) := by
  unfold Code.setNext; split
  · exact careful_pure trivial
  · refine careful_seq (careful_load hn .next) fun p hp => ?_
    split
    · refine careful_seq (careful_load hn .next) fun p2 hp2 => ?_
      exact careful_seq (careful_store (f := .prev) hp2 .none) fun _ _ => careful_store (f := .next) hn hm
    · exact careful_store (f := .next) hn hm

/-- A pair of pointers into a set of nodes. -/
def PairTo (S : Nat → Prop) (r : Ptr × Ptr) : Prop := PtrTo S r.1 ∧ PtrTo S r.2

theorem careful_insertPrev {n nn : Ptr} (hn : PtrTo own n) (hm : PtrTo own nn) : Careful sh (Code.insertPrev n nn) own (NoneMade own (PairTo own)) := by
  unfold Code.insertPrev; split
  · exact careful_pure ⟨.none, .none⟩
  · refine careful_seq (careful_prev hn) fun p hp => ?_
    split
    · exact careful_pure ⟨.none, .none⟩
    · refine careful_seq (careful_prev hm) fun op hop => ?_
      refine careful_seq (careful_next hm) fun on hon => ?_
      refine careful_seq (careful_prev hn) fun np hnp => ?_
      refine careful_seq (careful_setPrev hn hm) fun _ _ => ?_
      refine careful_seq (careful_setNext hm hn) fun _ _ => ?_
      refine careful_seq (careful_setPrev hm hnp) fun _ _ => ?_
      refine careful_seq (careful_setNext hnp hm) fun _ _ => ?_
      refine careful_seq (careful_setNext hop .none) fun _ _ => ?_
      refine careful_seq (careful_setPrev hon .none) fun _ _ => ?_
      exact careful_pure ⟨hop, hon⟩

theorem careful_insertNext {n nn : Ptr} (hn : PtrTo own n) (hm : PtrTo own nn) : Careful sh (Code.insertNext n nn) own (NoneMade own (PairTo own)) := by
  unfold Code.insertNext; split
  · exact careful_pure ⟨.none, .none⟩
  · refine careful_seq (careful_next hn) fun p hp => ?_
    split
    · exact careful_pure ⟨.none, .none⟩
    · refine careful_seq (careful_prev hm) fun op hop => ?_
      refine careful_seq (careful_next hm) fun on hon => ?_
      refine careful_seq (careful_next hn) fun np hnp => ?_
      refine careful_seq (careful_setNext hn hm) fun _ _ => ?_
      refine careful_seq (careful_setPrev hm hn) fun _ _ => ?_
      refine careful_seq (careful_setNext hm hnp) fun _ _ => ?_
      refine careful_seq (careful_setPrev hnp hm) fun _ _ => ?_
      refine careful_seq (careful_setNext hop .none) fun _ _ => ?_
      refine careful_seq (careful_setPrev hon .none) fun _ _ => ?_
      exact careful_pure ⟨hop, hon⟩

theorem careful_replacePrev {n nn : Ptr} (hn : PtrTo own n) (hm : PtrTo own nn) : Careful sh (Code.replacePrev n nn) own (NoneMade own (PairTo own)) := by
  unfold Code.replacePrev; split
  · exact careful_pure ⟨.none, .none⟩
  · refine careful_seq (careful_prev hn) fun p hp => ?_
    split
    · exact careful_pure ⟨.none, .none⟩
    · refine careful_seq (careful_prev hn) fun op hop => ?_
      refine careful_seq (careful_next hm) fun on hon => ?_
      refine careful_seq (careful_setPrev hn hm) fun _ _ => ?_
      refine careful_seq (careful_setNext hm hn) fun _ _ => ?_
      refine careful_seq (careful_setNext hop .none) fun _ _ => ?_
      refine careful_seq (careful_setPrev hon .none) fun _ _ => ?_
      exact careful_pure ⟨hop, hon⟩

theorem careful_replaceNext {n nn : Ptr} (hn : PtrTo own n) (hm : PtrTo own nn) : Careful sh (Code.replaceNext n nn) own (NoneMade own (PairTo own)) := by
  unfold Code.replaceNext; split
  · exact careful_pure ⟨.none, .none⟩
  · refine careful_seq (careful_next hn) fun p hp => ?_
    split
    · exact careful_pure ⟨.none, .none⟩
    · refine careful_seq (careful_prev hm) fun op hop => ?_
      refine careful_seq (careful_next hn) fun on hon => ?_
      refine careful_seq (careful_setNext hn hm) fun _ _ => ?_
      refine careful_seq (careful_setPrev hm hn) fun _ _ => ?_
      refine careful_seq (careful_setNext hop .none) fun _ _ => ?_
      refine careful_seq (careful_setPrev hon .none) fun _ _ => ?_
      exact careful_pure ⟨hop, hon⟩

theorem careful_takePrev {n : Ptr} (hn : PtrTo own n) : Careful sh (Code.takePrev n) own (NoneMade own (PtrTo own)) := by
  refine careful_seq (careful_prev hn) fun r hr => ?_
  refine careful_seq (careful_prev hr) fun q hq => ?_
  refine careful_seq (careful_setPrev hn hq) fun _ _ => ?_
  refine careful_seq (careful_setNext hq hn) fun _ _ => ?_
  refine careful_seq (careful_setNext hr .none) fun _ _ => ?_
  exact careful_seq (careful_setPrev hr .none) fun _ _ => careful_pure hr

theorem careful_takeNext {n : Ptr} (hn : PtrTo own n) : Careful sh (Code.takeNext n) own (NoneMade own (PtrTo own)) := by
  refine careful_seq (careful_next hn) fun r hr => ?_
  refine careful_seq (careful_next hr) fun q hq => ?_
  refine careful_seq (careful_setNext hn hq) fun _ _ => ?_
  refine careful_seq (careful_setPrev hq hn) fun _ _ => ?_
  refine careful_seq (careful_setNext hr .none) fun _ _ => ?_
  exact careful_seq (careful_setPrev hr .none) fun _ _ => careful_pure hr

theorem careful_removePrev {n : Ptr} (hn : PtrTo own n) : Careful sh (Code.removePrev n) own (NoneMade own (PtrTo own)) := by
  refine careful_seq (careful_prev hn) fun r hr => ?_
  refine careful_seq (careful_setPrev hn .none) fun _ _ => ?_
  exact careful_seq (careful_setNext hr .none) fun _ _ => careful_pure hr

theorem careful_removeNext {n : Ptr} (hn : PtrTo own n) : Careful sh (Code.removeNext n) own (NoneMade own (PtrTo own)) := by
  refine careful_seq (careful_next hn) fun r hr => ?_
  refine careful_seq (careful_setNext hn .none) fun _ _ => ?_
  exact careful_seq (careful_setPrev hr .none) fun _ _ => careful_pure hr

theorem careful_isolate {n : Ptr} (hn : PtrTo own n) : Careful sh (Code.isolate n) own (NoneMade own fun _ => True) := by
  refine careful_seq (careful_prev hn) fun p hp => ?_
  refine careful_seq (careful_setNext hp .none) fun _ _ => ?_
  refine careful_seq (careful_next hn) fun q hq => ?_
  refine careful_seq (careful_setPrev hq .none) fun _ _ => ?_
  exact careful_seq (careful_setPrev hn .none) fun _ _ => careful_setNext hn .none

theorem careful_combineLoop {n : Ptr} : ∀ (nns : List Ptr) (buf : List Bytes), (∀ m ∈ nns, PtrTo own m) →
    Careful sh (Code.combineLoop n nns buf) own (NoneMade own fun _ => True)
  | [], buf, _ => careful_pure trivial
  | nn :: nns, buf, h => by
    unfold Code.combineLoop; split
    · exact careful_combineLoop nns buf fun m hm => h m (by simp [hm])
    · refine careful_seq (careful_text (h nn (by simp))) fun t _ => ?_
      exact careful_seq (careful_isolate (h nn (by simp))) fun _ _ => careful_combineLoop nns _ fun m hm => h m (by simp [hm])

theorem careful_combineNext {n : Ptr} (hn : PtrTo own n) (k : Kind) {nns : List Ptr} (h : ∀ m ∈ nns, PtrTo own m) :
    Careful sh (Code.combineNext n k nns) own (NoneMade own (PtrTo own)) := by
  refine careful_seq (careful_setKind hn k) fun _ _ => ?_
  cases nns with
  | nil => exact careful_pure hn
  | cons nn0 rest =>
    have h1 : PtrTo own (if n = none then (nn0, rest) else (n, nn0 :: rest)).1 := by
      split
      · exact h nn0 (by simp)
      · exact hn
    have h2 : ∀ m ∈ (if n = none then (nn0, rest) else (n, nn0 :: rest)).2, PtrTo own m := by
      split
      · intro m hm; exact h m (by simp [show m ∈ rest from hm])
      · exact h
    refine careful_seq (careful_text h1) fun t _ => ?_
    refine careful_seq (careful_combineLoop _ _ h2) fun buf _ => ?_
    exact careful_seq (careful_store (f := .text) h1 trivial) fun _ _ => careful_pure h1

theorem careful_combinePrev {n : Ptr} (hn : PtrTo own n) (k : Kind) {nns : List Ptr} (h : ∀ m ∈ nns, PtrTo own m) :
    Careful sh (Code.combinePrev n k nns) own (NoneMade own (PtrTo own)) := by
  refine careful_seq (careful_setKind hn k) fun _ _ => ?_
  cases nns with
  | nil => exact careful_pure hn
  | cons nn0 rest =>
    have h1 : PtrTo own (if n = none then (nn0, rest) else (n, nn0 :: rest)).1 := by
      split
      · exact h nn0 (by simp)
      · exact hn
    have h2 : ∀ m ∈ (if n = none then (nn0, rest) else (n, nn0 :: rest)).2, PtrTo own m := by
      split
      · intro m hm; exact h m (by simp [show m ∈ rest from hm])
      · exact h
    refine careful_seq (careful_text h1) fun t _ => ?_
    refine careful_seq (careful_combineLoop _ _ h2) fun buf _ => ?_
    exact careful_seq (careful_store (f := .text) h1 trivial) fun _ _ => careful_pure h1

theorem careful_newNode (line : Int) (text : Bytes) (kinds : List Kind) : Careful sh (Code.newNode line text kinds) own (Grows own fun o x => PtrTo o x) := by
  unfold Code.newNode; split <;> exact careful_alloc rfl rfl

theorem careful_newNodesLoop : ∀ (ts : List Bytes) (own : Nat → Prop) (cur : Ptr) (startLine : Int), PtrTo own cur →
    Careful sh (Code.newNodesLoop cur startLine ts) own (Grows own fun _ _ => True)
  | [], own, cur, startLine, h => ⟨fun _ h => h, trivial⟩
  | t :: ts, own, cur, startLine, h => by
    refine careful_seqG (careful_newNode startLine t []) fun o x ho hx => ?_
    refine careful_seq (careful_insertNext (h.mono ho) hx) fun _ _ => ?_
    refine careful_seq (careful_next (h.mono ho)) fun c hc => ?_
    exact careful_newNodesLoop ts o c _ hc

theorem careful_newNodes (startLine : Int) (ts : List Bytes) : Careful sh (Code.newNodes startLine ts) own (Grows own fun o x => PtrTo o x) := by
  cases ts with
  | nil => exact ⟨fun _ h => h, .none⟩
  | cons t ts =>
    refine careful_seqG (careful_newNode startLine t []) fun o x ho hx => ?_
    refine careful_seqG (careful_newNodesLoop ts o x startLine hx) fun o2 _ ho2 _ => ?_
    exact ⟨fun _ h => h, hx.mono ho2⟩

/-- A pointer to own or to shared nodes. -/
def MayRead (sh own : Nat → Prop) (n : Ptr) : Prop := PtrTo own n ∨ PtrTo sh n

theorem MayRead.none : MayRead sh own none := .inl .none

theorem MayRead.mono {T : Nat → Prop} (h : ∀ a, own a → T a) {n : Ptr} (hn : MayRead sh own n) : MayRead sh T n := hn.imp (·.mono h) id

theorem careful_loadB {n : Ptr} (hn : MayRead sh own n) (f : NodeField) : Careful sh (Code.load n f) own (NoneMade own fun v => ValTo own f v ∨ ValTo sh f v) := by
  rcases hn with h | h
  · exact careful_mono (fun o x h => ⟨h.1, .inl h.2⟩) _ _ (careful_load h f)
  · exact careful_mono (fun o x h => ⟨h.1, .inr h.2⟩) _ _ (careful_loadS h f)

theorem careful_prevB {n : Ptr} (hn : MayRead sh own n) : Careful sh (Code.prev n) own (NoneMade own (MayRead sh own)) := by
  cases n with
  | none => exact careful_pure .none
  | some a => exact careful_loadB hn .prev

theorem careful_nextB {n : Ptr} (hn : MayRead sh own n) : Careful sh (Code.next n) own (NoneMade own (MayRead sh own)) := by
  cases n with
  | none => exact careful_pure .none
  | some a => exact careful_loadB hn .next

theorem careful_textB {n : Ptr} (hn : MayRead sh own n) : Careful sh (Code.text n) own (NoneMade own fun _ => True) := by
  cases n with
  | none => exact careful_pure trivial
  | some a => exact careful_mono (fun o x h => ⟨h.1, trivial⟩) _ _ (careful_loadB hn .text)

theorem careful_kindB {n : Ptr} (hn : MayRead sh own n) : Careful sh (Code.kind n) own (NoneMade own fun _ => True) := by
  cases n with
  | none => exact careful_pure trivial
  | some a => exact careful_mono (fun o x h => ⟨h.1, trivial⟩) _ _ (careful_loadB hn .kind)

theorem careful_lineB {n : Ptr} (hn : MayRead sh own n) : Careful sh (Code.line n) own (NoneMade own fun _ => True) := by
  cases n with
  | none => exact careful_pure trivial
  | some a => exact careful_mono (fun o x h => ⟨h.1, trivial⟩) _ _ (careful_loadB hn .line)

/-- Copying reads its nodes, which may be own or shared ones, and writes new nodes only. -/
theorem careful_deepCopy : ∀ (fuel : Nat) (own : Nat → Prop) (n pre nxt : Ptr), MayRead sh own n → PtrTo own pre → PtrTo own nxt →
    Careful sh (Code.deepCopy fuel n pre nxt) own (Grows own fun o x => PtrTo o x)
  | _, own, none, pre, nxt, _, _, _ => by unfold Code.deepCopy; exact ⟨fun _ h => h, .none⟩
  | 0, own, some a, pre, nxt, _, _, _ => trivial
  | fuel + 1, own, some a, pre, nxt, hn, hp, hx => by
    unfold Code.deepCopy
    refine careful_seq (careful_loadB hn .line) fun l _ => ?_
    refine careful_seq (careful_loadB hn .kind) fun k _ => ?_
    refine careful_seq (careful_loadB hn .text) fun t _ => ?_
    refine careful_seqG (careful_alloc rfl rfl) fun o nn ho hnn => ?_
    refine careful_seqG (P := fun o x => PtrTo o x) (?_ : Careful sh _ o _) fun o2 pre2 ho2 hp2 => ?_
    · split
      · refine careful_seq (careful_prevB (hn.mono ho)) fun p hp => ?_
        exact careful_deepCopy fuel o p none nn hp .none hnn
      · exact careful_grow (careful_pure (P := PtrTo o) (hp.mono ho)) fun _ h => h
    · refine careful_seqG (P := fun o x => PtrTo o x) (?_ : Careful sh _ o2 _) fun o3 nxt3 ho3 hx3 => ?_
      · split
        · refine careful_seq (careful_nextB ((hn.mono ho).mono ho2)) fun q hq => ?_
          exact careful_deepCopy fuel o2 q nn none hq (hnn.mono ho2) .none
        · exact careful_grow (careful_pure (P := PtrTo o2) ((hx.mono ho).mono ho2)) fun _ h => h
      · have hnn3 := (hnn.mono ho2).mono ho3
        refine careful_seq (careful_store (f := .prev) hnn3 (hp2.mono ho3)) fun _ _ => ?_
        refine careful_seq (careful_store (f := .next) hnn3 hx3) fun _ _ => ?_
        exact ⟨fun _ h => h, hnn3⟩

theorem careful_copy (fuel : Nat) {n : Ptr} (hn : MayRead sh own n) (b : Bool) : Careful sh (Code.copy fuel n b) own (Grows own fun o x => PtrTo o x) := by
  unfold Code.copy; split
  · exact ⟨fun _ h => h, .none⟩
  · split
    · exact careful_deepCopy fuel own n none none hn .none .none
    · refine careful_seq (careful_loadB hn .line) fun l _ => ?_
      refine careful_seq (careful_loadB hn .kind) fun k _ => ?_
      refine careful_seq (careful_loadB hn .text) fun t _ => ?_
      exact careful_alloc rfl rfl

theorem careful_loop {σ : Type} {iter : Ptr → Code Ptr} {fn : σ → Ptr → Code (σ × Bool)}
    (hi : ∀ n, MayRead sh own n → Careful sh (iter n) own (NoneMade own (MayRead sh own)))
    (hf : ∀ s n, MayRead sh own n → Careful sh (fn s n) own (NoneMade own fun _ => True)) :
    ∀ (fuel : Nat) (s : σ) (n : Ptr), MayRead sh own n → Careful sh (Code.loop iter fn fuel s n) own (NoneMade own fun r => MayRead sh own r.2)
  | _, s, none, h => by unfold Code.loop; exact careful_pure .none
  | 0, s, some a, h => trivial
  | fuel + 1, s, some a, h => by
    unfold Code.loop
    refine careful_seq (hf s _ h) fun r _ => ?_
    obtain ⟨s', go⟩ := r
    cases go with
    | false => exact careful_pure h
    | true =>
      refine careful_seq (hi _ h) fun nn hnn => ?_
      exact careful_loop hi hf fuel s' nn hnn

theorem careful_iterNext {σ : Type} {fn : σ → Ptr → Code (σ × Bool)} (hf : ∀ s n, MayRead sh own n → Careful sh (fn s n) own (NoneMade own fun _ => True))
    (fuel : Nat) (s : σ) {n : Ptr} (hn : MayRead sh own n) : Careful sh (Code.iterNext fuel fn s n) own (NoneMade own fun r => MayRead sh own r.2) :=
  careful_loop (fun _ h => careful_nextB h) hf fuel s n hn

theorem careful_iterPrev {σ : Type} {fn : σ → Ptr → Code (σ × Bool)} (hf : ∀ s n, MayRead sh own n → Careful sh (fn s n) own (NoneMade own fun _ => True))
    (fuel : Nat) (s : σ) {n : Ptr} (hn : MayRead sh own n) : Careful sh (Code.iterPrev fuel fn s n) own (NoneMade own fun r => MayRead sh own r.2) :=
  careful_loop (fun _ h => careful_prevB h) hf fuel s n hn

theorem careful_first (fuel : Nat) {n : Ptr} (hn : MayRead sh own n) : Careful sh (Code.first fuel n) own (NoneMade own (MayRead sh own)) :=
  careful_seq (careful_iterPrev (fun _ _ h => careful_seq (careful_prevB h) fun _ _ => careful_pure trivial) fuel () hn) fun _ h => careful_pure h

theorem careful_last (fuel : Nat) {n : Ptr} (hn : MayRead sh own n) : Careful sh (Code.last fuel n) own (NoneMade own (MayRead sh own)) :=
  careful_seq (careful_iterNext (fun _ _ h => careful_seq (careful_nextB h) fun _ _ => careful_pure trivial) fuel () hn) fun _ h => careful_pure h

theorem careful_describe {n : Ptr} (hn : MayRead sh own n) : Careful sh (Code.describe n) own (NoneMade own fun _ => True) := by
  unfold Code.describe; split
  · exact careful_pure trivial
  · exact careful_seq (careful_lineB hn) fun _ _ => careful_seq (careful_textB hn) fun _ _ => careful_seq (careful_kindB hn) fun _ _ => careful_pure trivial

theorem careful_findKindName (fuel : Nat) {n : Ptr} (hn : MayRead sh own n) (k : Kind) : Careful sh (Code.findKindName fuel n k) own (NoneMade own fun _ => True) :=
  careful_seq (careful_iterNext (fun _ _ h => careful_seq (careful_kindB h) fun _ _ => careful_seq (careful_textB h) fun _ _ => careful_pure trivial) fuel _ hn)
    fun _ _ => careful_pure trivial

theorem careful_hasKind (fuel : Nat) {n : Ptr} (hn : MayRead sh own n) (k : Kind) : Careful sh (Code.hasKind fuel n k) own (NoneMade own fun _ => True) :=
  careful_seq (careful_iterNext (fun _ _ h => careful_seq (careful_kindB h) fun _ _ => careful_pure trivial) fuel _ hn) fun _ _ => careful_pure trivial

theorem careful_getFuncName (fuel : Nat) {d : ScopeRec} (hn : MayRead sh own d.node) : Careful sh (Code.getFuncName fuel d) own (NoneMade own fun _ => True) := by
  unfold Code.getFuncName; split
  · exact careful_pure trivial
  · refine careful_seq (careful_iterNext (fun s n h => careful_seq (careful_kindB h) fun k _ => ?_) fuel _ hn) fun _ _ => careful_pure trivial
    split
    · exact careful_seq (careful_textB h) fun _ _ => careful_pure trivial
    · exact careful_pure trivial

theorem careful_getTypeName (fuel : Nat) {d : ScopeRec} (hn : MayRead sh own d.node) : Careful sh (Code.getTypeName fuel d) own (NoneMade own fun _ => True) := by
  unfold Code.getTypeName; split
  · exact careful_pure trivial
  · exact careful_findKindName fuel hn _

theorem careful_getStructName (fuel : Nat) {d : ScopeRec} (hn : MayRead sh own d.node) : Careful sh (Code.getStructName fuel d) own (NoneMade own fun _ => True) := by
  unfold Code.getStructName; split
  · exact careful_pure trivial
  · exact careful_seq (careful_hasKind fuel hn _) fun _ _ => careful_seq (careful_getTypeName fuel hn) fun _ _ => careful_pure trivial

theorem careful_getInterfaceName (fuel : Nat) {d : ScopeRec} (hn : MayRead sh own d.node) :
    Careful sh (Code.getInterfaceName fuel d) own (NoneMade own fun _ => True) := by
  unfold Code.getInterfaceName; split
  · exact careful_pure trivial
  · exact careful_seq (careful_hasKind fuel hn _) fun _ _ => careful_seq (careful_getTypeName fuel hn) fun _ _ => careful_pure trivial

theorem careful_getMethodReceiver (fuel : Nat) {d : ScopeRec} (hn : MayRead sh own d.node) :
    Careful sh (Code.getMethodReceiver fuel d) own (NoneMade own fun _ => True) := by
  unfold Code.getMethodReceiver; split
  · exact careful_pure trivial
  · exact careful_findKindName fuel hn _

theorem careful_getMethodName (fuel : Nat) {d : ScopeRec} (hn : MayRead sh own d.node) :
    Careful sh (Code.getMethodName fuel d) own (NoneMade own fun _ => True) := by
  unfold Code.getMethodName; split
  · exact careful_pure trivial
  · refine careful_seq (careful_getMethodReceiver fuel hn) fun r _ => ?_
    split
    · exact careful_findKindName fuel hn _
    · exact careful_pure trivial

end Goast
