import Verif.Model.ParseSteps
import Verif.Spec.Steps

/-!
# Proofs: code that does not depend on addresses

Two pieces of code are alike when they take the same steps on nodes that correspond to each other.  `ParseScope` is alike to itself, whatever
addresses the allocator gives; the bounds of the second may be larger.
-/

set_option linter.unusedSimpArgs false
set_option linter.unusedVariables false

namespace Goast

variable {α β γ δ : Type}

/-- Which nodes correspond to each other: at most one to each. -/
structure Corr where
  rel : Nat → Nat → Prop
  inj : ∀ a a' b, rel a b → rel a' b → a = a'
  fn : ∀ a b b', rel a b → rel a b' → b = b'

def Corr.le (ρ ρ' : Corr) : Prop := ∀ a b, ρ.rel a b → ρ'.rel a b

theorem Corr.le_refl (ρ : Corr) : ρ.le ρ := fun _ _ h => h

theorem Corr.le_trans {ρ ρ' ρ'' : Corr} (h : ρ.le ρ') (h' : ρ'.le ρ'') : ρ.le ρ'' := fun a b e => h' a b (h a b e)

/-- One more pair of nodes. -/
def Corr.add (ρ : Corr) (a b : Nat) (ha : ∀ b', ¬ ρ.rel a b') (hb : ∀ a', ¬ ρ.rel a' b) : Corr where
  rel x y := ρ.rel x y ∨ (x = a ∧ y = b)
  inj := by
    rintro x x' y (h | ⟨rfl, rfl⟩) (h' | ⟨rfl, h'⟩)
    · exact ρ.inj _ _ _ h h'
    · subst h'; exact absurd h (hb _)
    · exact absurd h' (hb _)
    · rfl
  fn := by
    rintro x y y' (h | ⟨rfl, rfl⟩) (h' | ⟨h', rfl⟩)
    · exact ρ.fn _ _ _ h h'
    · subst h'; exact absurd h (ha _)
    · exact absurd h' (ha _)
    · rfl

theorem Corr.le_add (ρ : Corr) {a b : Nat} {ha : ∀ b', ¬ ρ.rel a b'} {hb : ∀ a', ¬ ρ.rel a' b} : ρ.le (ρ.add a b ha hb) := fun _ _ h => Or.inl h

/-- Pointers to nodes that correspond, or both nil. -/
def PtrRel (ρ : Corr) : Ptr → Ptr → Prop
  | none, none => True
  | some a, some b => ρ.rel a b
  | _, _ => False

theorem PtrRel.nil {ρ : Corr} : PtrRel ρ none none := trivial

theorem PtrRel.mono {ρ ρ' : Corr} (h : ρ.le ρ') {p q : Ptr} (e : PtrRel ρ p q) : PtrRel ρ' p q := by
  cases p <;> cases q <;> simp_all [PtrRel]
  exact h _ _ e

theorem PtrRel.eq_iff {ρ : Corr} {p q p' q' : Ptr} (h : PtrRel ρ p q) (h' : PtrRel ρ p' q') : p = p' ↔ q = q' := by
  cases p <;> cases q <;> cases p' <;> cases q' <;> simp_all [PtrRel]
  exact ⟨fun e => ρ.fn _ _ _ h (e ▸ h'), fun e => ρ.inj _ _ _ h (e ▸ h')⟩

theorem PtrRel.none_iff {ρ : Corr} {p q : Ptr} (h : PtrRel ρ p q) : p = none ↔ q = none := by
  cases p <;> cases q <;> simp_all [PtrRel]

/-- Values of a field that correspond. -/
def ValRel (ρ : Corr) : (f : NodeField) → f.Val → f.Val → Prop
  | .line, v, w => v = w
  | .kind, v, w => v = w
  | .text, v, w => v = w
  | .prev, v, w => PtrRel ρ v w
  | .next, v, w => PtrRel ρ v w

/-- Lists of pointers that correspond one by one. -/
def PtrsRel (ρ : Corr) : List Ptr → List Ptr → Prop
  | [], [] => True
  | p :: ps, q :: qs => PtrRel ρ p q ∧ PtrsRel ρ ps qs
  | _, _ => False

theorem PtrsRel.append {ρ : Corr} : ∀ {ps qs ps' qs' : List Ptr}, PtrsRel ρ ps qs → PtrsRel ρ ps' qs' → PtrsRel ρ (ps ++ ps') (qs ++ qs')
  | [], [], _, _, _, h' => h'
  | [], _ :: _, _, _, h, _ => h.elim
  | _ :: _, [], _, _, h, _ => h.elim
  | _ :: _, _ :: _, _, _, h, h' => ⟨h.1, PtrsRel.append h.2 h'⟩

theorem PtrsRel.getLast? {ρ : Corr} : ∀ {ps qs : List Ptr}, PtrsRel ρ ps qs →
    (ps.getLast? = none ∧ qs.getLast? = none) ∨ ∃ p q, ps.getLast? = some p ∧ qs.getLast? = some q ∧ PtrRel ρ p q
  | [], [], _ => Or.inl ⟨rfl, rfl⟩
  | [], _ :: _, h => h.elim
  | _ :: _, [], h => h.elim
  | [p], [q], h => Or.inr ⟨p, q, rfl, rfl, h.1⟩
  | [_], _ :: _ :: _, h => h.2.elim
  | _ :: _ :: _, [_], h => h.2.elim
  | p :: p' :: ps, q :: q' :: qs, h => by
    have := PtrsRel.getLast? (ps := p' :: ps) (qs := q' :: qs) h.2
    simpa [List.getLast?_cons_cons] using this

theorem PtrsRel.appendUnrepeatable {ρ : Corr} {ps qs : List Ptr} (h : PtrsRel ρ ps qs) {n n' : Ptr} (hn : PtrRel ρ n n') :
    PtrsRel ρ (appendUnrepeatable ps [n]) (appendUnrepeatable qs [n']) := by
  unfold Goast.appendUnrepeatable
  rcases PtrsRel.getLast? h with ⟨e, e'⟩ | ⟨p, q, e, e', hpq⟩
  · simp only [e, e']
    exact ⟨hn, trivial⟩
  · simp only [e, e']
    have := PtrRel.eq_iff hpq hn
    by_cases c : p = n
    · simp only [c, this.1 c, if_true]
      simpa using h
    · have c' : ¬ q = n' := fun x => c (this.2 x)
      simp only [c, c', if_false]
      exact h.append ⟨hn, trivial⟩

/-- Code that takes the same steps on corresponding nodes; `Q` is what is demanded of the results.  The first may also give up. -/
inductive Alike (Q : Corr → α → β → Prop) : Corr → Code α → Code β → Prop
  | panic {ρ : Corr} (q : Code β) : Alike Q ρ .panic q
  | ret {ρ : Corr} {x : α} {y : β} (h : Q ρ x y) : Alike Q ρ (.ret x) (.ret y)
  | read {ρ : Corr} {a b : Nat} {f : NodeField} {k : f.Val → Code α} {k' : f.Val → Code β} (h : ρ.rel a b)
      (hk : ∀ v w, ValRel ρ f v w → Alike Q ρ (k v) (k' w)) : Alike Q ρ (.read a f k) (.read b f k')
  | write {ρ : Corr} {a b : Nat} {f : NodeField} {v w : f.Val} {k : Code α} {k' : Code β} (h : ρ.rel a b) (hv : ValRel ρ f v w)
      (hk : Alike Q ρ k k') : Alike Q ρ (.write a f v k) (.write b f w k')
  | alloc {ρ : Corr} {r r' : NodeRec} {k : Nat → Code α} {k' : Nat → Code β} (hr : ∀ f, ValRel ρ f (r.get f) (r'.get f))
      (hk : ∀ a b ha hb, Alike Q (ρ.add a b ha hb) (k a) (k' b)) : Alike Q ρ (.alloc r k) (.alloc r' k')

theorem Alike.bind {Q : Corr → α → β → Prop} {R : Corr → γ → δ → Prop} {f : α → Code γ} {g : β → Code δ} {ρ : Corr} {p : Code α} {q : Code β}
    (h : Alike Q ρ p q) (hk : ∀ ρ' x y, ρ.le ρ' → Q ρ' x y → Alike R ρ' (f x) (g y)) : Alike R ρ (p >>= f) (q >>= g) := by
  show Alike R ρ (p.bind f) (q.bind g)
  induction h with
  | panic q => exact Alike.panic _
  | ret h => exact hk _ _ _ (Corr.le_refl _) h
  | read h _ ih => exact Alike.read h fun v w e => ih v w e hk
  | write h hv _ ih => exact Alike.write h hv (ih hk)
  | alloc hr _ ih => exact Alike.alloc hr fun a b ha hb => ih a b ha hb fun ρ' x y l => hk ρ' x y (Corr.le_trans (Corr.le_add _) l)

theorem Alike.mono {Q Q' : Corr → α → β → Prop} {ρ : Corr} {p : Code α} {q : Code β}
    (h : Alike Q ρ p q) (hk : ∀ ρ' x y, ρ.le ρ' → Q ρ' x y → Q' ρ' x y) : Alike Q' ρ p q := by
  induction h with
  | panic q => exact Alike.panic _
  | ret h => exact Alike.ret (hk _ _ _ (Corr.le_refl _) h)
  | read h _ ih => exact Alike.read h fun v w e => ih v w e hk
  | write h hv _ ih => exact Alike.write h hv (ih hk)
  | alloc hr _ ih => exact Alike.alloc hr fun a b ha hb => ih a b ha hb fun ρ' x y l => hk ρ' x y (Corr.le_trans (Corr.le_add _) l)

/-- Code that makes no nodes. -/
def Same (ρ : Corr) (p : Code α) (q : Code β) (V : α → β → Prop) : Prop := Alike (fun ρ' x y => ρ' = ρ ∧ V x y) ρ p q

variable {ρ : Corr}

theorem Same.bind {V : α → β → Prop} {R : Corr → γ → δ → Prop} {f : α → Code γ} {g : β → Code δ} {p : Code α} {q : Code β} (h : Same ρ p q V)
    (hk : ∀ x y, V x y → Alike R ρ (f x) (g y)) : Alike R ρ (p >>= f) (q >>= g) :=
  Alike.bind h (by rintro ρ' x y - ⟨rfl, e⟩; exact hk x y e)

theorem Same.then {V : α → β → Prop} {W : γ → δ → Prop} {f : α → Code γ} {g : β → Code δ} {p : Code α} {q : Code β} (h : Same ρ p q V)
    (hk : ∀ x y, V x y → Same ρ (f x) (g y) W) : Same ρ (p >>= f) (q >>= g) W := Same.bind h hk

theorem Same.pure {V : α → β → Prop} {x : α} {y : β} (h : V x y) : Same ρ (Pure.pure x : Code α) (Pure.pure y : Code β) V := Alike.ret ⟨rfl, h⟩

theorem Same.weaken {V V' : α → β → Prop} {p : Code α} {q : Code β} (h : Same ρ p q V) (hv : ∀ x y, V x y → V' x y) : Same ρ p q V' :=
  Alike.mono h (by rintro ρ' x y - ⟨e, v⟩; exact ⟨e, hv x y v⟩)

theorem Alike.ite {Q : Corr → α → β → Prop} {c c' : Prop} [Decidable c] [Decidable c'] {p p' : Code α} {q q' : Code β} (hc : c ↔ c')
    (h : c → Alike Q ρ p q) (h' : ¬ c → Alike Q ρ p' q') : Alike Q ρ (if c then p else p') (if c' then q else q') := by
  by_cases e : c
  · simp only [e, hc.1 e, if_true]; exact h e
  · have e' : ¬ c' := fun x => e (hc.2 x)
    simp only [e, e', if_false]; exact h' e

theorem Same.ite {V : α → β → Prop} {c c' : Prop} [Decidable c] [Decidable c'] {p p' : Code α} {q q' : Code β} (hc : c ↔ c')
    (h : c → Same ρ p q V) (h' : ¬ c → Same ρ p' q' V) : Same ρ (if c then p else p') (if c' then q else q') V := Alike.ite hc h h'

theorem same_load {n m : Ptr} (h : PtrRel ρ n m) (f : NodeField) : Same ρ (Code.load n f) (Code.load m f) (ValRel ρ f) := by
  cases n with
  | none => exact Alike.panic _
  | some a =>
    cases m with
    | none => exact h.elim
    | some b => exact Alike.read h fun v w e => Alike.ret ⟨rfl, e⟩

theorem same_store {n m : Ptr} (h : PtrRel ρ n m) {f : NodeField} {v w : f.Val} (e : ValRel ρ f v w) :
    Same ρ (Code.store n f v) (Code.store m f w) (fun _ _ => True) := by
  cases n with
  | none => exact Alike.panic _
  | some a =>
    cases m with
    | none => exact h.elim
    | some b => exact Alike.write h e (Alike.ret ⟨rfl, trivial⟩)

theorem same_prev {n m : Ptr} (h : PtrRel ρ n m) : Same ρ (Code.prev n) (Code.prev m) (PtrRel ρ) :=
  Same.ite h.none_iff (fun _ => Same.pure trivial) (fun _ => same_load h .prev)

theorem same_next {n m : Ptr} (h : PtrRel ρ n m) : Same ρ (Code.next n) (Code.next m) (PtrRel ρ) :=
  Same.ite h.none_iff (fun _ => Same.pure trivial) (fun _ => same_load h .next)

theorem same_line {n m : Ptr} (h : PtrRel ρ n m) : Same ρ (Code.line n) (Code.line m) (fun x y => x = y) :=
  Same.ite h.none_iff (fun _ => Same.pure rfl) (fun _ => same_load h .line)

theorem same_kind {n m : Ptr} (h : PtrRel ρ n m) : Same ρ (Code.kind n) (Code.kind m) (fun x y => x = y) :=
  Same.ite h.none_iff (fun _ => Same.pure rfl) (fun _ => same_load h .kind)

theorem same_text {n m : Ptr} (h : PtrRel ρ n m) : Same ρ (Code.text n) (Code.text m) (fun x y => x = y) :=
  Same.ite h.none_iff (fun _ => Same.pure rfl) (fun _ => same_load h .text)

theorem same_setKind {n m : Ptr} (h : PtrRel ρ n m) (k : Kind) : Same ρ (Code.setKind n k) (Code.setKind m k) (fun _ _ => True) :=
  Same.ite h.none_iff (fun _ => Same.pure trivial) (fun _ => same_store (f := .kind) h rfl)

theorem same_setPrev {n m n' m' : Ptr} (h : PtrRel ρ n m) (h' : PtrRel ρ n' m') :
    Same ρ (Code.setPrev n n') (Code.setPrev m m') (fun _ _ => True) := by
  refine Same.ite (by rw [h.eq_iff h', h.none_iff]) (fun _ => Same.pure trivial) (fun _ => ?_)
  refine Same.then (same_load h .prev) (fun x y e => ?_)
  refine Same.ite (by rw [ne_eq, ne_eq, PtrRel.none_iff e]) (fun _ => ?_) (fun _ => same_store (f := .prev) h h')
  refine Same.then (same_load h .prev) (fun x y e => ?_)
  exact Same.then (same_store (f := .next) (v := (none : Ptr)) (w := (none : Ptr)) e (PtrRel.nil (ρ := ρ))) (fun _ _ _ => same_store (f := .prev) h h')

theorem same_setNext {n m n' m' : Ptr} (h : PtrRel ρ n m) (h' : PtrRel ρ n' m') :
    Same ρ (Code.setNext n n') (Code.setNext m m') (fun _ _ => True) := by
  refine Same.ite (by rw [h.eq_iff h', h.none_iff]) (fun _ => Same.pure trivial) (fun _ => ?_)
  refine Same.then (same_load h .next) (fun x y e => ?_)
  refine Same.ite (by rw [ne_eq, ne_eq, PtrRel.none_iff e]) (fun _ => ?_) (fun _ => same_store (f := .next) h h')
  refine Same.then (same_load h .next) (fun x y e => ?_)
  exact Same.then (same_store (f := .prev) (v := (none : Ptr)) (w := (none : Ptr)) e (PtrRel.nil (ρ := ρ))) (fun _ _ _ => same_store (f := .next) h h')

theorem same_replaceNext {n m n' m' : Ptr} (h : PtrRel ρ n m) (h' : PtrRel ρ n' m') :
    Same ρ (Code.replaceNext n n') (Code.replaceNext m m') (fun x y => PtrRel ρ x.1 y.1 ∧ PtrRel ρ x.2 y.2) := by
  refine Same.ite (h.eq_iff h') (fun _ => Same.pure ⟨trivial, trivial⟩) (fun _ => ?_)
  refine Same.then (same_next h) (fun x y e => ?_)
  refine Same.ite (PtrRel.eq_iff e h') (fun _ => Same.pure ⟨trivial, trivial⟩) (fun _ => ?_)
  refine Same.then (same_prev h') (fun o o' ho => Same.then (same_next h) (fun p p' hp => ?_))
  refine Same.then (same_setNext h h') (fun _ _ _ => Same.then (same_setPrev h' h) (fun _ _ _ => ?_))
  exact Same.then (same_setNext ho PtrRel.nil) (fun _ _ _ => Same.then (same_setPrev hp PtrRel.nil) (fun _ _ _ => Same.pure ⟨ho, hp⟩))

theorem same_removePrev {n m : Ptr} (h : PtrRel ρ n m) : Same ρ (Code.removePrev n) (Code.removePrev m) (PtrRel ρ) := by
  refine Same.then (same_prev h) (fun x y e => ?_)
  exact Same.then (same_setPrev h PtrRel.nil) (fun _ _ _ => Same.then (same_setNext e PtrRel.nil) (fun _ _ _ => Same.pure e))

theorem same_isolate {n m : Ptr} (h : PtrRel ρ n m) : Same ρ (Code.isolate n) (Code.isolate m) (fun _ _ => True) := by
  refine Same.then (same_prev h) (fun x y e => Same.then (same_setNext e PtrRel.nil) (fun _ _ _ => ?_))
  refine Same.then (same_next h) (fun x y e => Same.then (same_setPrev e PtrRel.nil) (fun _ _ _ => ?_))
  exact Same.then (same_setPrev h PtrRel.nil) (fun _ _ _ => same_setNext h PtrRel.nil)

theorem same_combineLoop {n m : Ptr} (h : PtrRel ρ n m) : ∀ {ns ms : List Ptr} (buf : List Bytes), PtrsRel ρ ns ms →
    Same ρ (Code.combineLoop n ns buf) (Code.combineLoop m ms buf) (fun x y => x = y)
  | [], [], buf, _ => Same.pure rfl
  | [], _ :: _, _, h => h.elim
  | _ :: _, [], _, h => h.elim
  | n' :: ns, m' :: ms, buf, hs => by
    refine Same.ite (by rw [hs.1.none_iff, h.eq_iff hs.1]) (fun _ => same_combineLoop h buf hs.2) (fun _ => ?_)
    refine Same.then (same_text hs.1) ?_
    rintro x _ rfl
    exact Same.then (same_isolate hs.1) (fun _ _ _ => same_combineLoop h _ hs.2)

theorem same_combineNext {n m : Ptr} (h : PtrRel ρ n m) (k : Kind) {ns ms : List Ptr} (hs : PtrsRel ρ ns ms) :
    Same ρ (Code.combineNext n k ns) (Code.combineNext m k ms) (PtrRel ρ) := by
  refine Same.then (same_setKind h k) (fun _ _ _ => ?_)
  have main : ∀ {n m : Ptr} {ns ms : List Ptr}, PtrRel ρ n m → PtrsRel ρ ns ms → Same ρ (do
      let t ← Code.text n
      let buf ← Code.combineLoop n ns [t]
      Code.store n .text buf.flatten
      pure n) (do
      let t ← Code.text m
      let buf ← Code.combineLoop m ms [t]
      Code.store m .text buf.flatten
      pure m) (PtrRel ρ) := by
    intro n m ns ms h hs
    refine Same.then (same_text h) ?_
    rintro x _ rfl
    refine Same.then (same_combineLoop h _ hs) ?_
    rintro y _ rfl
    exact Same.then (same_store (f := .text) h rfl) (fun _ _ _ => Same.pure h)
  match ns, ms, hs with
  | [], [], _ => exact Same.pure h
  | n' :: ns, m' :: ms, hs =>
    by_cases e : n = none
    · have e' := h.none_iff.1 e
      subst e e'
      exact main hs.1 hs.2
    · have e' : ¬ m = none := fun x => e (h.none_iff.2 x)
      simp only [e, e', if_false]
      exact main h hs

theorem same_loop {σ τ : Type} {iter : Ptr → Code Ptr} {fn : σ → Ptr → Code (σ × Bool)} {gn : τ → Ptr → Code (τ × Bool)} {S : σ → τ → Prop}
    (hi : ∀ n m, PtrRel ρ n m → Same ρ (iter n) (iter m) (PtrRel ρ))
    (hf : ∀ s t n m, S s t → PtrRel ρ n m → Same ρ (fn s n) (gn t m) (fun x y => S x.1 y.1 ∧ x.2 = y.2)) :
    ∀ (fuel fuel' : Nat) (s : σ) (t : τ) (n m : Ptr), fuel ≤ fuel' → S s t → PtrRel ρ n m →
      Same ρ (Code.loop iter fn fuel s n) (Code.loop iter gn fuel' t m) (fun x y => S x.1 y.1 ∧ PtrRel ρ x.2 y.2)
  | fuel, fuel', s, t, none, none, _, hs, _ => by
    cases fuel <;> cases fuel' <;> exact Same.pure ⟨hs, trivial⟩
  | _, _, _, _, none, some _, _, _, h => h.elim
  | _, _, _, _, some _, none, _, _, h => h.elim
  | 0, _, _, _, some _, some _, _, _, _ => Alike.panic _
  | fuel + 1, 0, _, _, some _, some _, h, _, _ => absurd h (by omega)
  | fuel + 1, fuel' + 1, s, t, some a, some b, hl, hs, hn => by
    unfold Code.loop
    refine Same.then (hf s t _ _ hs hn) ?_
    rintro ⟨s', go⟩ ⟨t', go'⟩ ⟨hs', rfl⟩
    refine Same.ite Iff.rfl (fun _ => ?_) (fun _ => Same.pure ⟨hs', hn⟩)
    exact Same.then (hi _ _ hn) (fun n' m' h' => same_loop hi hf fuel fuel' s' t' n' m' (by omega) hs' h')

theorem same_last {F F' : Nat} (hF : F ≤ F') {n m : Ptr} (h : PtrRel ρ n m) : Same ρ (Code.last F n) (Code.last F' m) (PtrRel ρ) := by
  refine Same.then (same_loop (S := fun _ _ => True) (fun _ _ => same_next) ?_ F F' () () n m hF trivial h) (fun x y e => Same.pure e.2)
  rintro ⟨⟩ ⟨⟩ n m - h
  refine Same.then (same_next h) (fun x y e => Same.pure ⟨trivial, ?_⟩)
  simp only [ne_eq, PtrRel.none_iff e]

end Goast
