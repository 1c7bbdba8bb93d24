import Verif.Spec.Relocate
import Verif.Model.Resetter

/-!
# The resetters see nothing but links, kinds and texts

`Like φ h H`: the nodes of `h` are also in `H`, node `a` at address `φ a`, with the same kinds, texts and links;
lines may differ, and `H` may hold other nodes.  (`φ` takes every address that is not in `h` to one that is not in `H`.)
-/

set_option linter.unusedSimpArgs false
set_option linter.unusedVariables false

namespace Goast
open Heap

/-- A node without its line. -/
abbrev core (r : NodeRec) : Kind × Bytes × Ptr × Ptr := (r.kind, r.text, r.prev, r.next)

/-- A node without its line, at its new place. -/
abbrev coreAt (φ : Addr → Addr) (r : NodeRec) : Kind × Bytes × Ptr × Ptr := (r.kind, r.text, r.prev.map φ, r.next.map φ)

/-- The nodes of `h` are in `H`, at the addresses `φ`. -/
structure Like (φ : Addr → Addr) (h H : Heap) : Prop where
  inj : ∀ a b, φ a = φ b → a = b
  cell : ∀ a, (H.cells[φ a]?).map core = (h.cells[a]?).map (coreAt φ)
  size : h.size ≤ H.size

namespace Like

variable {φ : Addr → Addr} {h H : Heap}

theorem mapInj (L : Like φ h H) {p q : Ptr} : p.map φ = q.map φ ↔ p = q := by
  cases p <;> cases q <;> simp
  exact ⟨L.inj _ _, fun e => by rw [e]⟩

theorem cases (L : Like φ h H) (a : Addr) : (h.cells[a]? = none ∧ H.cells[φ a]? = none) ∨
    ∃ r r', h.cells[a]? = some r ∧ H.cells[φ a]? = some r' ∧ core r' = coreAt φ r := by
  have := L.cell a
  cases h1 : h.cells[a]? <;> cases h2 : H.cells[φ a]? <;> simp [h1, h2] at this ⊢
  exact this

theorem next (L : Like φ h H) (p : Ptr) : H.next (p.map φ) = (h.next p).map φ := by
  cases p with
  | none => rfl
  | some a =>
    rcases L.cases a with ⟨h1, h2⟩ | ⟨r, r', h1, h2, h3⟩ <;> simp [Heap.next, h1, h2]
    simp at h3; simp [h3]

theorem prev (L : Like φ h H) (p : Ptr) : H.prev (p.map φ) = (h.prev p).map φ := by
  cases p with
  | none => rfl
  | some a =>
    rcases L.cases a with ⟨h1, h2⟩ | ⟨r, r', h1, h2, h3⟩ <;> simp [Heap.prev, h1, h2]
    simp at h3; simp [h3]

theorem kind (L : Like φ h H) (p : Ptr) : H.kind (p.map φ) = h.kind p := by
  cases p with
  | none => rfl
  | some a =>
    rcases L.cases a with ⟨h1, h2⟩ | ⟨r, r', h1, h2, h3⟩ <;> simp [Heap.kind, h1, h2]
    simp at h3; simp [h3]

theorem text (L : Like φ h H) (p : Ptr) : H.text (p.map φ) = h.text p := by
  cases p with
  | none => rfl
  | some a =>
    rcases L.cases a with ⟨h1, h2⟩ | ⟨r, r', h1, h2, h3⟩ <;> simp [Heap.text, h1, h2]
    simp at h3; simp [h3]

theorem modify (L : Like φ h H) (a : Addr) {f g : NodeRec → NodeRec} (hg : ∀ r r', core r' = coreAt φ r → core (g r') = coreAt φ (f r)) :
    Like φ (h.modify a f) (H.modify (φ a) g) := by
  refine ⟨L.inj, fun b => ?_, by simpa [Heap.modify, Heap.size] using L.size⟩
  simp only [Heap.modify, List.getElem?_modify]
  by_cases hb : a = b
  · subst hb
    rcases L.cases a with ⟨h1, h2⟩ | ⟨r, r', h1, h2, h3⟩
    · simp [h1, h2]
    · simpa [h1, h2] using hg r r' h3
  · have : φ a ≠ φ b := fun e => hb (L.inj _ _ e)
    simpa [hb, this] using L.cell b

theorem setKind (L : Like φ h H) (p : Ptr) (k : Kind) : Like φ (h.setKind p k) (H.setKind (p.map φ) k) := by
  cases p with
  | none => exact L
  | some a => exact L.modify a (fun r r' e => by simp at e ⊢; simp [e])

theorem setText (L : Like φ h H) (p : Ptr) (t : Bytes) : Like φ (h.setText p t) (H.setText (p.map φ) t) := by
  cases p with
  | none => exact L
  | some a => exact L.modify a (fun r r' e => by simp at e ⊢; simp [e])

theorem setPrev (L : Like φ h H) (p q : Ptr) : Like φ (h.setPrev p q) (H.setPrev (p.map φ) (q.map φ)) := by
  cases p with
  | none => exact L
  | some a =>
    simp only [Heap.setPrev, Option.map_some]
    rw [show some (φ a) = (some a : Ptr).map φ from rfl]
    simp only [L.mapInj, L.prev]
    split
    · exact L
    · have L1 : Like φ (match h.prev (some a) with | none => h | some p => h.modify p ({ · with next := none }))
          (match (h.prev (some a)).map φ with | none => H | some p => H.modify p ({ · with next := none })) := by
        cases h.prev (some a) with
        | none => exact L
        | some b => exact L.modify b (fun r r' e => by simp at e ⊢; simp [e])
      exact L1.modify a (fun r r' e => by simp at e ⊢; simp [e])

theorem setNext (L : Like φ h H) (p q : Ptr) : Like φ (h.setNext p q) (H.setNext (p.map φ) (q.map φ)) := by
  cases p with
  | none => exact L
  | some a =>
    simp only [Heap.setNext, Option.map_some]
    rw [show some (φ a) = (some a : Ptr).map φ from rfl]
    simp only [L.mapInj, L.next]
    split
    · exact L
    · have L1 : Like φ (match h.next (some a) with | none => h | some p => h.modify p ({ · with prev := none }))
          (match (h.next (some a)).map φ with | none => H | some p => H.modify p ({ · with prev := none })) := by
        cases h.next (some a) with
        | none => exact L
        | some b => exact L.modify b (fun r r' e => by simp at e ⊢; simp [e])
      exact L1.modify a (fun r r' e => by simp at e ⊢; simp [e])

theorem setPrev0 (L : Like φ h H) (p : Ptr) : Like φ (h.setPrev p none) (H.setPrev (p.map φ) none) := L.setPrev p none
theorem setNext0 (L : Like φ h H) (p : Ptr) : Like φ (h.setNext p none) (H.setNext (p.map φ) none) := L.setNext p none

theorem replaceNext (L : Like φ h H) (p q : Ptr) : Like φ (h.replaceNext p q).1 (H.replaceNext (p.map φ) (q.map φ)).1 := by
  simp only [Heap.replaceNext, L.mapInj, L.next, L.prev]
  split
  · exact L
  · exact (((L.setNext _ _).setPrev _ _).setNext0 _).setPrev0 _

theorem isolate (L : Like φ h H) (p : Ptr) : Like φ (h.isolate p) (H.isolate (p.map φ)) := by
  simp only [Heap.isolate]
  have L1 := L.setNext0 (h.prev p)
  have L2 := L1.setPrev0 ((h.setNext (h.prev p) none).next p)
  have L3 := (L2.setPrev0 p).setNext0 p
  rw [L.prev, L1.next]
  exact L3

theorem combineLoop (p : Ptr) : ∀ (ps : List Ptr) {h H : Heap} (L : Like φ h H) (buf : List Bytes),
    Like φ (Heap.combineLoop p h ps buf).1 (Heap.combineLoop (p.map φ) H (ps.map (Option.map φ)) buf).1 ∧
      (Heap.combineLoop (p.map φ) H (ps.map (Option.map φ)) buf).2 = (Heap.combineLoop p h ps buf).2
  | [], _, _, L, buf => ⟨L, rfl⟩
  | q :: ps, h, H, L, buf => by
    simp only [List.map_cons, Heap.combineLoop, L.mapInj, Option.map_eq_none_iff, L.text]
    split
    · exact combineLoop p ps L buf
    · exact combineLoop p ps (L.isolate q) _

theorem combineNext (L : Like φ h H) (p : Ptr) (k : Kind) (ps : List Ptr) :
    (h.combineNext p k ps = none ∧ H.combineNext (p.map φ) k (ps.map (Option.map φ)) = none) ∨
    ∃ h1 q H1, h.combineNext p k ps = some (h1, q) ∧ H.combineNext (p.map φ) k (ps.map (Option.map φ)) = some (H1, q.map φ) ∧ Like φ h1 H1 := by
  have L1 := L.setKind p k
  cases ps with
  | nil => exact Or.inr ⟨_, _, _, rfl, rfl, L1⟩
  | cons q ps =>
    cases p with
    | none =>
      cases q with
      | none => exact Or.inl ⟨rfl, rfl⟩
      | some b =>
        obtain ⟨c1, c2⟩ := combineLoop (some b) ps L1 [h.text (some b)]
        have t := L.text (some b)
        simp only [Option.map_some] at c1 c2 t
        refine Or.inr ⟨_, _, _, rfl, ?_, c1.setText (some b) _⟩
        simp only [Heap.combineNext, Heap.setKind, List.map_cons, Option.map_none, Option.map_some, t] at c2 ⊢
        rw [c2]
    | some a =>
      obtain ⟨c1, c2⟩ := combineLoop (some a) (q :: ps) L1 [(h.setKind (some a) k).text (some a)]
      have t := L1.text (some a)
      simp only [Option.map_some] at c1 c2 t
      refine Or.inr ⟨_, _, _, rfl, ?_, c1.setText (some a) _⟩
      simp only [Heap.combineNext, List.map_cons, Option.map_some, t] at c2 ⊢
      rw [c2]

end Like

/-! ## Worlds -/

/-- `Like` for the world of the resetters. -/
structure WLike (φ : Addr → Addr) (w W : World) : Prop where
  heap : Like φ w.heap W.heap
  buf : W.buf = w.buf.map (Option.map φ)

/-- The second result is that of the first, at the other place. -/
def Res (φ : Addr → Addr) (r r' : Option (World × Ptr)) : Prop :=
  ∀ w q, r = some (w, q) → ∃ W, r' = some (W, q.map φ) ∧ WLike φ w W

/-- A decision, at the other place. -/
def ctlAt (φ : Addr → Addr) : Ctl → Ctl
  | .stop => .stop
  | .cont => .cont
  | .jump p => .jump (p.map φ)

/-- The same for the body of a callback. -/
def BRes {σ : Type} (φ : Addr → Addr) (r r' : Option (World × σ × Ctl)) : Prop :=
  ∀ w s c, r = some (w, s, c) → ∃ W, r' = some (W, s, ctlAt φ c) ∧ WLike φ w W

/-- The same for a callback whose state has no pointers. -/
def IRes {σ : Type} (φ : Addr → Addr) (r r' : Option ((World × σ) × Bool)) : Prop :=
  ∀ w s b, r = some ((w, s), b) → ∃ W, r' = some ((W, s), b) ∧ WLike φ w W

section
variable {φ : Addr → Addr}

theorem Res.ret {w W : World} {p : Ptr} (L : WLike φ w W) : Res φ (some (w, p)) (some (W, p.map φ)) := by
  rintro _ _ ⟨⟩; exact ⟨W, rfl, L⟩

theorem Res.none {r' : Option (World × Ptr)} : Res φ none r' := by rintro _ _ ⟨⟩

theorem BRes.none {σ : Type} {r' : Option (World × σ × Ctl)} : BRes φ none r' := by rintro _ _ _ ⟨⟩

theorem BRes.ret {σ : Type} {w W : World} {s : σ} {c c' : Ctl} (L : WLike φ w W) (hc : c' = ctlAt φ c) : BRes φ (some (w, s, c)) (some (W, s, c')) := by
  rintro _ _ _ ⟨⟩; exact ⟨W, by rw [hc], L⟩

theorem IRes.ret {σ : Type} {w W : World} {s : σ} {b : Bool} (L : WLike φ w W) : IRes φ (some ((w, s), b)) (some ((W, s), b)) := by
  rintro _ _ _ ⟨⟩; exact ⟨W, rfl, L⟩

theorem BRes.toJump {σ : Type} {r r' : Option (World × Ptr)} {s : σ} (R : Res φ r r') : BRes φ (Goast.toJump r s) (Goast.toJump r' s) := by
  intro w s' c e
  unfold Goast.toJump at e
  split at e
  · cases e
  · rename_i w1 q1
    simp only [Option.some.injEq, Prod.mk.injEq] at e
    obtain ⟨rfl, rfl, rfl⟩ := e
    obtain ⟨W, e1, L⟩ := R w1 q1 rfl
    exact ⟨W, by rw [e1]; rfl, L⟩

theorem BRes.ite {σ : Type} {P : Prop} [Decidable P] {a a' b b' : Option (World × σ × Ctl)} (h1 : P → BRes φ a a') (h2 : ¬ P → BRes φ b b') :
    BRes φ (if P then a else b) (if P then a' else b') := by
  split
  · rename_i h; exact h1 h
  · rename_i h; exact h2 h

theorem Res.ite {P : Prop} [Decidable P] {a a' b b' : Option (World × Ptr)} (h1 : P → Res φ a a') (h2 : ¬ P → Res φ b b') :
    Res φ (if P then a else b) (if P then a' else b') := by
  split
  · rename_i h; exact h1 h
  · rename_i h; exact h2 h

namespace WLike
variable {w W : World}

theorem kind (L : WLike φ w W) (p : Ptr) : W.heap.kind (p.map φ) = w.heap.kind p := L.heap.kind p
theorem kindA (L : WLike φ w W) (a : Addr) : W.heap.kind (some (φ a)) = w.heap.kind (some a) := L.heap.kind (some a)
theorem next (L : WLike φ w W) (p : Ptr) : W.heap.next (p.map φ) = (w.heap.next p).map φ := L.heap.next p

theorem setKind (L : WLike φ w W) (p : Ptr) (k : Kind) :
    WLike φ { w with heap := w.heap.setKind p k } { W with heap := W.heap.setKind (p.map φ) k } := ⟨L.heap.setKind p k, L.buf⟩

theorem setKindA (L : WLike φ w W) (a : Addr) (k : Kind) :
    WLike φ { w with heap := w.heap.setKind (some a) k } { W with heap := W.heap.setKind (some (φ a)) k } := L.setKind (some a) k

theorem _root_.Goast.appendUnrep_map (L : Like φ h H) (buf : List Ptr) (p : Ptr) :
    appendUnrepeatable (buf.map (Option.map φ)) [p.map φ] = (appendUnrepeatable buf [p]).map (Option.map φ) := by
  simp only [appendUnrepeatable]
  cases h : buf.getLast? with
  | none =>
    simp only [List.getLast?_eq_none_iff] at h
    subst h
    simp
  | some x =>
    simp only [List.getLast?_map, h, Option.map_some, L.mapInj]
    split <;> simp

theorem append (L : WLike φ w W) (p : Ptr) :
    WLike φ { w with buf := appendUnrepeatable w.buf [p] } { W with buf := appendUnrepeatable W.buf [p.map φ] } :=
  ⟨L.heap, by rw [L.buf]; exact appendUnrep_map L.heap _ _⟩

theorem hook (L : WLike φ w W) (p : Ptr) (k : Hook) : WLike φ (runHook w p k) (runHook W (p.map φ) k) := by
  cases k with
  | appendBuf => exact L.append p
  | rawToParamType =>
    simp only [runHook, L.kind]
    split
    · exact L.setKind p _
    · exact L

theorem hooks (p : Ptr) : ∀ (ks : List Hook) {w W : World}, WLike φ w W → WLike φ (handleHook w p ks) (handleHook W (p.map φ) ks)
  | [], _, _, L => L
  | k :: ks, w, W, L => hooks p ks (L.hook p k)

theorem hooksA (L : WLike φ w W) (a : Addr) (ks : List Hook) : WLike φ (handleHook w (some a) ks) (handleHook W (some (φ a)) ks) :=
  hooks (some a) ks L

end WLike

/-- Loops, for any relation between the two states. -/
theorem loop_rel {ω ω' : Type} {R : ω → ω' → Prop} {iter : ω → Addr → Ptr} {iter' : ω' → Addr → Ptr}
    {fn : ω → Addr → Option (ω × Bool)} {fn' : ω' → Addr → Option (ω' × Bool)}
    (hi : ∀ w W a, R w W → iter' W (φ a) = (iter w a).map φ)
    (hf : ∀ w W a w' b, R w W → fn w a = some (w', b) → ∃ W', fn' W (φ a) = some (W', b) ∧ R w' W') :
    ∀ (fuel fuel' : Nat) (w : ω) (W : ω') (p : Ptr) (w' : ω) (q : Ptr), fuel ≤ fuel' → R w W → loop iter fn fuel w p = some (w', q) →
      ∃ W', loop iter' fn' fuel' W (p.map φ) = some (W', q.map φ) ∧ R w' W' := by
  intro fuel
  induction fuel with
  | zero =>
    intro fuel' w W p w' q _ r e
    cases p with
    | none =>
      simp only [loop, Option.some.injEq, Prod.mk.injEq] at e
      obtain ⟨rfl, rfl⟩ := e
      exact ⟨W, by cases fuel' <;> rfl, r⟩
    | some a => simp [loop] at e
  | succ fuel ih =>
    intro fuel' w W p w' q hle r e
    cases p with
    | none =>
      simp only [loop, Option.some.injEq, Prod.mk.injEq] at e
      obtain ⟨rfl, rfl⟩ := e
      exact ⟨W, by cases fuel' <;> rfl, r⟩
    | some a =>
      obtain ⟨fuel', rfl⟩ : ∃ k, fuel' = k + 1 := ⟨fuel' - 1, by omega⟩
      rw [loop] at e
      rw [Option.map_some, loop]
      cases hx : fn w a with
      | none => rw [hx] at e; cases e
      | some x =>
        obtain ⟨w1, b⟩ := x
        obtain ⟨W1, e1, r1⟩ := hf w W a w1 b r hx
        rw [e1]
        rw [hx] at e
        cases b with
        | true =>
          simp only at e ⊢
          rw [hi w1 W1 a r1]
          exact ih fuel' w1 W1 _ w' q (by omega) r1 e
        | false =>
          simp only [Option.some.injEq, Prod.mk.injEq] at e ⊢
          obtain ⟨rfl, rfl⟩ := e
          exact ⟨W1, ⟨rfl, rfl⟩, r1⟩

/-- Loops whose state holds no pointers. -/
theorem iterW_like {σ : Type} {fn fn' : World × σ → Addr → Option ((World × σ) × Bool)}
    (hf : ∀ w W s a, WLike φ w W → IRes φ (fn (w, s) a) (fn' (W, s) (φ a)))
    {w W w' : World} (L : WLike φ w W) {s s' : σ} {p q : Ptr} (e : iterW fn w s p = some ((w', s'), q)) :
    ∃ W', iterW fn' W s (p.map φ) = some ((W', s'), q.map φ) ∧ WLike φ w' W' := by
  obtain ⟨⟨W', t⟩, e1, r1, r2⟩ := loop_rel (φ := φ) (R := fun (x : World × σ) (X : World × σ) => WLike φ x.1 X.1 ∧ X.2 = x.2)
    (iter := fun ws a => ws.1.heap.next (some a)) (iter' := fun ws a => ws.1.heap.next (some a)) (fn := fn) (fn' := fn')
    (fun x X a r => r.1.next (some a)) (fun x X a y b r e => by
      obtain ⟨x1, x2⟩ := x
      obtain ⟨X1, X2⟩ := X
      obtain ⟨r1, r2⟩ := r
      simp only at r1 r2
      subst r2
      obtain ⟨Y, e1, L1⟩ := hf _ _ _ _ r1 y.1 y.2 b e
      exact ⟨_, e1, L1, rfl⟩)
    _ (W.heap.size + 1) (w, s) (W, s) p (w', s') q (by have := L.heap.size; omega) ⟨L, rfl⟩ e
  simp only at r1 r2
  subst r2
  exact ⟨W', e1, r1⟩

/-- Loops whose state is a list of nodes. -/
theorem iterWL_like {fn fn' : World × List Ptr → Addr → Option ((World × List Ptr) × Bool)}
    (hf : ∀ w W s a, WLike φ w W → ∀ w' s' b, fn (w, s) a = some ((w', s'), b) →
      ∃ W', fn' (W, s.map (Option.map φ)) (φ a) = some ((W', s'.map (Option.map φ)), b) ∧ WLike φ w' W')
    {w W w' : World} (L : WLike φ w W) {s' : List Ptr} {p q : Ptr} (e : iterW fn w [] p = some ((w', s'), q)) :
    ∃ W', iterW fn' W [] (p.map φ) = some ((W', s'.map (Option.map φ)), q.map φ) ∧ WLike φ w' W' := by
  obtain ⟨⟨W', t⟩, e1, r1, r2⟩ := loop_rel (φ := φ) (R := fun (x : World × List Ptr) (X : World × List Ptr) => WLike φ x.1 X.1 ∧ X.2 = x.2.map (Option.map φ))
    (iter := fun ws a => ws.1.heap.next (some a)) (iter' := fun ws a => ws.1.heap.next (some a)) (fn := fn) (fn' := fn')
    (fun x X a r => r.1.next (some a)) (fun x X a y b r e => by
      obtain ⟨x1, x2⟩ := x
      obtain ⟨X1, X2⟩ := X
      obtain ⟨r1, r2⟩ := r
      simp only at r1 r2
      subst r2
      obtain ⟨Y, e1, L1⟩ := hf _ _ _ _ r1 y.1 y.2 b e
      exact ⟨_, e1, L1, rfl⟩)
    _ (W.heap.size + 1) (w, []) (W, []) p (w', s') q (by have := L.heap.size; omega) ⟨L, rfl⟩ e
  simp only at r1 r2
  subst r2
  exact ⟨W', e1, r1⟩

theorem findNext_like {w W : World} (L : WLike φ w W) (p : Ptr) (target : List Kind) (opt : FindOpt) (ks : List Hook) :
    Res φ (findNext w p target opt ks) (findNext W (p.map φ) target opt ks) := by
  intro w' q e
  obtain ⟨⟨⟨w1, c⟩, q1⟩, e1, e2⟩ := Option.map_eq_some_iff.1 e
  simp only [Prod.mk.injEq] at e2
  obtain ⟨rfl, rfl⟩ := e2
  obtain ⟨W', e3, L'⟩ := iterW_like (fn' := fun ws a =>
      let w := handleHook ws.1 (some a) ks
      let k := w.heap.kind (some a)
      let c := ws.2.step k
      some ((w, c), findCont target opt c k)) (fun w W s a L => by
        have L2 := L.hooksA a ks
        simp only [L2.kindA]
        exact IRes.ret L2) L e1
  exact ⟨W', by unfold findNext; rw [e3]; rfl, L'⟩

theorem skipNestNext_like {w W : World} (L : WLike φ w W) (p : Ptr) (l r : Kind) (ks : List Hook) :
    Res φ (skipNestNext w p l r ks) (skipNestNext W (p.map φ) l r ks) := by
  have key : ∀ {w1 W1 : World} (p1 : Ptr), WLike φ w1 W1 → Res φ ((iterW (fun (ws : World × Int) a =>
        let w := handleHook ws.1 (some a) ks
        let k := w.heap.kind (some a)
        if k = l then some ((w, ws.2 + 1), true)
        else if k = r then some ((w, ws.2 - 1), decide (ws.2 - 1 ≠ 0))
        else some ((w, ws.2), true)) w1 (1 : Int) p1).map (fun r => (r.1.1, r.2)))
      ((iterW (fun (ws : World × Int) a =>
        let w := handleHook ws.1 (some a) ks
        let k := w.heap.kind (some a)
        if k = l then some ((w, ws.2 + 1), true)
        else if k = r then some ((w, ws.2 - 1), decide (ws.2 - 1 ≠ 0))
        else some ((w, ws.2), true)) W1 (1 : Int) (p1.map φ)).map (fun r => (r.1.1, r.2))) := by
    intro w1 W1 p1 L1 w' q e
    obtain ⟨⟨⟨w2, c⟩, q1⟩, e1, e2⟩ := Option.map_eq_some_iff.1 e
    simp only [Prod.mk.injEq] at e2
    obtain ⟨rfl, rfl⟩ := e2
    obtain ⟨W', e3, L'⟩ := iterW_like (fn' := fun (ws : World × Int) a =>
        let w := handleHook ws.1 (some a) ks
        let k := w.heap.kind (some a)
        if k = l then some ((w, ws.2 + 1), true)
        else if k = r then some ((w, ws.2 - 1), decide (ws.2 - 1 ≠ 0))
        else some ((w, ws.2), true)) (fun w W s a L => by
          have L2 := L.hooksA a ks
          simp only [L2.kindA]
          split
          · exact IRes.ret L2
          · split
            · exact IRes.ret L2
            · exact IRes.ret L2) L1 e1
    exact ⟨W', by rw [e3]; rfl, L'⟩
  unfold skipNestNext
  simp only [L.kind]
  by_cases hk : w.heap.kind p = l
  · simp only [hk, if_true]
    cases hf : findNext (handleHook w p ks) p [l] {} ks with
    | none => exact Res.none
    | some x =>
      obtain ⟨w2, f⟩ := x
      obtain ⟨W2, e2, L2⟩ := findNext_like (WLike.hooks p ks L) p [l] {} ks w2 f hf
      rw [e2]
      simp only [L2.next]
      exact key _ L2
  · simp only [hk, if_false]
    exact key _ L

theorem jumpLoop_like {σ : Type} {consume : Bool} {ks : List Hook} {body body' : World → σ → Addr → Option (World × σ × Ctl)}
    (hb : ∀ w W s a, WLike φ w W → BRes φ (body w s a) (body' W s (φ a)))
    {w W : World} (L : WLike φ w W) (s : σ) (p : Ptr) : Res φ (jumpLoop consume ks body w s p) (jumpLoop consume ks body' W s (p.map φ)) := by
  intro w' q e
  obtain ⟨⟨⟨w1, j⟩, q1⟩, e1, e2⟩ := Option.map_eq_some_iff.1 e
  simp only [Prod.mk.injEq] at e2
  obtain ⟨rfl, rfl⟩ := e2
  obtain ⟨⟨W', J'⟩, e3, r3, _⟩ := loop_rel (φ := φ) (R := fun (x X : World × JState σ) => WLike φ x.1 X.1 ∧ X.2 = ⟨x.2.skipAll, x.2.jumpTo.map φ, x.2.s⟩)
    (iter := fun ws a => ws.1.heap.next (some a)) (iter' := fun ws a => ws.1.heap.next (some a))
    (fn := jumpStep consume ks body) (fn' := jumpStep consume ks body') (fun x X a r => r.1.next (some a)) (fun x X a y b r e => by
      obtain ⟨xw, ⟨sk, jt, s⟩⟩ := x
      obtain ⟨Xw, XJ⟩ := X
      obtain ⟨r1, r2⟩ := r
      simp only at r1 r2
      subst r2
      have L2 := r1.hooksA a ks
      have ha : ∀ {p : Ptr}, p.map φ = some (φ a) ↔ p = some a := fun {p} => r1.heap.mapInj (p := p) (q := some a)
      unfold jumpStep at e ⊢
      simp only [ne_eq, Option.map_eq_none_iff, ha] at e ⊢
      split at e
      · rename_i h1
        rw [if_pos h1]
        cases e
        exact ⟨_, rfl, L2, rfl⟩
      · rename_i h1
        rw [if_neg h1]
        split at e
        · rename_i h2
          rw [if_pos h2]
          cases e
          exact ⟨_, rfl, L2, rfl⟩
        · rename_i h2
          rw [if_neg h2]
          split at e
          · rename_i h3
            rw [if_pos h3]
            cases e
            exact ⟨_, rfl, L2, rfl⟩
          · rename_i h3
            rw [if_neg h3]
            split at e
            · cases e
            · rename_i w2 s2 c2 hc
              obtain ⟨W3, e3, L3⟩ := hb _ _ _ _ L2 _ _ _ hc
              rw [e3]
              cases c2 with
              | stop => cases e; exact ⟨_, rfl, L3, rfl⟩
              | cont => cases e; exact ⟨_, rfl, L3, rfl⟩
              | jump r => cases e; exact ⟨_, rfl, L3, by simp⟩)
    _ (W.heap.size + 1) (w, ⟨false, none, s⟩) (W, ⟨false, none, s⟩) p _ _ (by have := L.heap.size; omega) ⟨L, rfl⟩ e1
  refine ⟨W', ?_, r3⟩
  unfold jumpLoop iterW
  rw [e3]
  rfl

theorem deferCombine_like {h H : Heap} (L : Like φ h H) (buf : List Ptr) (k : Kind) {h' : Heap} (e : deferCombine h buf k = some h') :
    ∃ H', deferCombine H (buf.map (Option.map φ)) k = some H' ∧ Like φ h' H' := by
  cases buf with
  | nil =>
    simp only [deferCombine, Option.some.injEq] at e
    subst e; exact ⟨H, rfl, L⟩
  | cons n rest =>
    simp only [deferCombine, List.map_cons] at e ⊢
    rcases L.combineNext n k rest with ⟨e1, _⟩ | ⟨h1, q, H1, e1, e2, L1⟩
    · rw [e1] at e; cases e
    · rw [e1] at e
      cases e
      rw [e2]
      have hl : (n.map φ :: rest.map (Option.map φ)).getLast (by simp) = ((n :: rest).getLast (by simp)).map φ := by
        exact List.getLast_map (f := Option.map φ) (l := n :: rest) (by simp)
      simp only [hl, L.next]
      exact ⟨_, rfl, L1.replaceNext _ _⟩

end

end Goast
