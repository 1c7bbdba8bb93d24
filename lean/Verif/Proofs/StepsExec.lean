import Verif.Proofs.StepsCareful
import Verif.Proofs.Links

/-! # Proofs: the single steps of a call, one after the other, are the call of `Verif/Model/Heap.lean` -/

set_option linter.unusedSimpArgs false
set_option linter.unusedVariables false

namespace Goast

variable {α β : Type}

theorem exec_bind (p : Code α) (g : α → Code β) (h : Heap) : (p >>= g).exec h = (p.exec h).bind fun r => (g r.2).exec r.1 := by
  show (p.bind g).exec h = _
  induction p generalizing h with
  | ret x => rfl
  | panic => rfl
  | read a f k ih =>
    simp only [Code.bind, Code.exec]
    cases h.cells[a]? with
    | none => rfl
    | some r => exact ih _ h
  | write a f v k ih =>
    simp only [Code.bind, Code.exec]
    split
    · exact ih _
    · rfl
  | alloc r k ih => exact ih _ _

/-- Heaps of `s` nodes whose links point to existing nodes. -/
structure SoundLinks (s : Nat) (h : Heap) : Prop where
  size : h.size = s
  prev : ∀ a b, h.prev (some a) = some b → b < s
  next : ∀ a b, h.next (some a) = some b → b < s

def PIn (s : Nat) (n : Ptr) : Prop := PtrTo (· < s) n

theorem SoundLinks.cell {s : Nat} {h : Heap} (g : SoundLinks s h) {a : Nat} (ha : a < s) : ∃ r, h.cells[a]? = some r :=
  ⟨_, List.getElem?_eq_getElem (by rw [← g.size] at ha; exact ha)⟩

theorem SoundLinks.pPrev {s : Nat} {h : Heap} (g : SoundLinks s h) (n : Ptr) : PIn s (h.prev n) := by
  intro b hb
  cases n with
  | none => simp [Heap.prev] at hb
  | some a => exact g.prev a b hb

theorem SoundLinks.pNext {s : Nat} {h : Heap} (g : SoundLinks s h) (n : Ptr) : PIn s (h.next n) := by
  intro b hb
  cases n with
  | none => simp [Heap.next] at hb
  | some a => exact g.next a b hb

/-- The code runs from one heap to the other with this result, and the links stay sound. -/
structure Does (s : Nat) (h : Heap) (p : Code α) (h' : Heap) (x : α) : Prop where
  exec : p.exec h = some (h', x)
  good : SoundLinks s h'

theorem Does.bind {s : Nat} {h h₁ h₂ : Heap} {p : Code α} {g : α → Code β} {x : α} {y : β} (d : Does s h p h₁ x) (e : Does s h₁ (g x) h₂ y) :
    Does s h (p >>= g) h₂ y :=
  ⟨by rw [exec_bind, d.exec]; exact e.exec, e.good⟩

theorem does_pure {s : Nat} {h : Heap} (g : SoundLinks s h) (x : α) : Does s h (pure x) h x := ⟨rfl, g⟩

variable {s : Nat} {h : Heap}

theorem exec_load (g : SoundLinks s h) {a : Nat} (ha : a < s) (f : NodeField) {r : NodeRec} (hr : h.cells[a]? = some r) :
    Does s h (Code.load (some a) f) h (r.get f) := ⟨by simp [Code.load, Code.exec, hr], g⟩

theorem does_prev (g : SoundLinks s h) {n : Ptr} (hn : PIn s n) : Does s h (Code.prev n) h (h.prev n) := by
  cases n with
  | none => exact does_pure g none
  | some a =>
    obtain ⟨r, hr⟩ := g.cell (hn a rfl)
    have := exec_load g (hn a rfl) .prev hr
    rw [show h.prev (some a) = r.get .prev by simp [Heap.prev, hr, NodeRec.get]]
    exact this

theorem does_next (g : SoundLinks s h) {n : Ptr} (hn : PIn s n) : Does s h (Code.next n) h (h.next n) := by
  cases n with
  | none => exact does_pure g none
  | some a =>
    obtain ⟨r, hr⟩ := g.cell (hn a rfl)
    have := exec_load g (hn a rfl) .next hr
    rw [show h.next (some a) = r.get .next by simp [Heap.next, hr, NodeRec.get]]
    exact this

theorem does_line (g : SoundLinks s h) {n : Ptr} (hn : PIn s n) : Does s h (Code.line n) h (h.line n) := by
  cases n with
  | none => exact does_pure g _
  | some a =>
    obtain ⟨r, hr⟩ := g.cell (hn a rfl)
    have := exec_load g (hn a rfl) .line hr
    rw [show h.line (some a) = r.get .line by simp [Heap.line, hr, NodeRec.get]]
    exact this

theorem does_kind (g : SoundLinks s h) {n : Ptr} (hn : PIn s n) : Does s h (Code.kind n) h (h.kind n) := by
  cases n with
  | none => exact does_pure g _
  | some a =>
    obtain ⟨r, hr⟩ := g.cell (hn a rfl)
    have := exec_load g (hn a rfl) .kind hr
    rw [show h.kind (some a) = r.get .kind by simp [Heap.kind, hr, NodeRec.get]]
    exact this

theorem does_text (g : SoundLinks s h) {n : Ptr} (hn : PIn s n) : Does s h (Code.text n) h (h.text n) := by
  cases n with
  | none => exact does_pure g _
  | some a =>
    obtain ⟨r, hr⟩ := g.cell (hn a rfl)
    have := exec_load g (hn a rfl) .text hr
    rw [show h.text (some a) = r.get .text by simp [Heap.text, hr, NodeRec.get]]
    exact this

theorem good_modify (g : SoundLinks s h) {a : Nat} {f : NodeField} {v : f.Val} (hv : ValTo (· < s) f v) : SoundLinks s (h.modify a (·.put f v)) := by
  refine ⟨by rw [Heap.size_modify]; exact g.size, fun x b hb => ?_, fun x b hb => ?_⟩
  · simp only [Heap.prev, Heap.modify, List.getElem?_modify] at hb
    cases e : h.cells[x]? with
    | none => rw [e] at hb; simp at hb
    | some r =>
      have old : ∀ b, r.prev = some b → b < s := fun b h' => g.prev x b (by simp [Heap.prev, e, h'])
      rw [e] at hb
      by_cases hx : a = x
      · simp only [hx, if_true, Option.map_some, Option.bind_some] at hb
        cases f <;> simp only [NodeRec.put] at hb
        case prev => exact hv b hb
        all_goals exact old b hb
      · simp only [hx, if_false, Option.map_some, Option.bind_some] at hb
        exact old b hb
  · simp only [Heap.next, Heap.modify, List.getElem?_modify] at hb
    cases e : h.cells[x]? with
    | none => rw [e] at hb; simp at hb
    | some r =>
      have old : ∀ b, r.next = some b → b < s := fun b h' => g.next x b (by simp [Heap.next, e, h'])
      rw [e] at hb
      by_cases hx : a = x
      · simp only [hx, if_true, Option.map_some, Option.bind_some] at hb
        cases f <;> simp only [NodeRec.put] at hb
        case next => exact hv b hb
        all_goals exact old b hb
      · simp only [hx, if_false, Option.map_some, Option.bind_some] at hb
        exact old b hb

theorem does_store (g : SoundLinks s h) {a : Nat} (ha : a < s) {f : NodeField} {v : f.Val} (hv : ValTo (· < s) f v) :
    Does s h (Code.store (some a) f v) (h.modify a (·.put f v)) () :=
  ⟨by simp [Code.store, Code.exec, g.size, ha], good_modify g hv⟩

theorem does_setKind (g : SoundLinks s h) {n : Ptr} (hn : PIn s n) (k : Kind) : Does s h (Code.setKind n k) (h.setKind n k) () := by
  cases n with
  | none => exact does_pure g _
  | some a => exact does_store (f := .kind) g (hn a rfl) trivial

theorem does_setText (g : SoundLinks s h) {n : Ptr} (hn : PIn s n) (t : Bytes) : Does s h (Code.setText n t) (h.setText n t) () := by
  cases n with
  | none => exact does_pure g _
  | some a => exact does_store (f := .text) g (hn a rfl) trivial

theorem does_setPrev (g : SoundLinks s h) {n nn : Ptr} (hn : PIn s n) (hm : PIn s nn) : Does s h (Code.setPrev n nn) (h.setPrev n nn) () := by
  unfold Code.setPrev Heap.setPrev
  cases n with
  | none => simp; exact does_pure g ()
  | some a =>
    by_cases hnn : some a = nn
    · simp [hnn]; exact does_pure g ()
    · have ha := hn a rfl
      obtain ⟨r, hr⟩ := g.cell ha
      have hp : h.prev (some a) = r.prev := by simp [Heap.prev, hr]
      simp only [hnn, false_or, if_false, reduceCtorEq]
      refine Does.bind (exec_load g ha .prev hr) ?_
      simp only [hp]
      cases e : r.prev with
      | none =>
        simp only [NodeRec.get, e, ne_eq, not_true_eq_false, if_false]
        exact does_store (f := .prev) g ha hm
      | some q =>
        simp only [NodeRec.get, e, ne_eq, reduceCtorEq, not_false_eq_true, if_true]
        refine Does.bind (exec_load g ha .prev hr) ?_
        have hq : q < s := g.prev a q (by rw [hp, e])
        simp only [NodeRec.get, e]
        refine Does.bind (does_store (f := .next) g hq (v := (none : Ptr)) .none) ?_
        exact does_store (f := .prev) (good_modify g (f := .next) (v := (none : Ptr)) .none) ha hm

theorem does_setNext (g : SoundLinks s h) {n nn : Ptr} (hn : PIn s n) (hm : PIn s nn) : Does s h (Code.setNext n nn) (h.setNext n nn) () := by
  unfold Code.setNext Heap.setNext
  cases n with
  | none => simp; exact does_pure g ()
  | some a =>
    by_cases hnn : some a = nn
    · simp [hnn]; exact does_pure g ()
    · have ha := hn a rfl
      obtain ⟨r, hr⟩ := g.cell ha
      have hp : h.next (some a) = r.next := by simp [Heap.next, hr]
      simp only [hnn, false_or, if_false, reduceCtorEq]
      refine Does.bind (exec_load g ha .next hr) ?_
      simp only [hp]
      cases e : r.next with
      | none =>
        simp only [NodeRec.get, e, ne_eq, not_true_eq_false, if_false]
        exact does_store (f := .next) g ha hm
      | some q =>
        simp only [NodeRec.get, e, ne_eq, reduceCtorEq, not_false_eq_true, if_true]
        refine Does.bind (exec_load g ha .next hr) ?_
        have hq : q < s := g.next a q (by rw [hp, e])
        simp only [NodeRec.get, e]
        refine Does.bind (does_store (f := .prev) g hq (v := (none : Ptr)) .none) ?_
        exact does_store (f := .next) (good_modify g (f := .prev) (v := (none : Ptr)) .none) ha hm

theorem pnone : PIn s none := PtrTo.none

theorem does_insertPrev (g : SoundLinks s h) {n nn : Ptr} (hn : PIn s n) (hm : PIn s nn) :
    Does s h (Code.insertPrev n nn) (h.insertPrev n nn).1 (h.insertPrev n nn).2 := by
  unfold Code.insertPrev Heap.insertPrev
  by_cases h1 : n = nn
  · simp only [h1, true_or, if_true]; exact does_pure g _
  simp only [h1, false_or, if_false]
  refine Does.bind (does_prev g hn) ?_
  by_cases h2 : h.prev n = nn
  · simp only [h2, if_true]; exact does_pure g _
  simp only [h2, if_false]
  refine Does.bind (does_prev g hm) (Does.bind (does_next g hm) (Does.bind (does_prev g hn) ?_))
  have a1 := does_setPrev g hn hm
  have a2 := does_setNext a1.good hm hn
  have a3 := does_setPrev a2.good hm (g.pPrev n)
  have a4 := does_setNext a3.good (g.pPrev n) hm
  have a5 := does_setNext a4.good (g.pPrev nn) pnone
  have a6 := does_setPrev a5.good (g.pNext nn) pnone
  exact a1.bind (a2.bind (a3.bind (a4.bind (a5.bind (a6.bind (does_pure a6.good _))))))

theorem does_insertNext (g : SoundLinks s h) {n nn : Ptr} (hn : PIn s n) (hm : PIn s nn) :
    Does s h (Code.insertNext n nn) (h.insertNext n nn).1 (h.insertNext n nn).2 := by
  unfold Code.insertNext Heap.insertNext
  by_cases h1 : n = nn
  · simp only [h1, true_or, if_true]; exact does_pure g _
  simp only [h1, false_or, if_false]
  refine Does.bind (does_next g hn) ?_
  by_cases h2 : h.next n = nn
  · simp only [h2, if_true]; exact does_pure g _
  simp only [h2, if_false]
  refine Does.bind (does_prev g hm) (Does.bind (does_next g hm) (Does.bind (does_next g hn) ?_))
  have a1 := does_setNext g hn hm
  have a2 := does_setPrev a1.good hm hn
  have a3 := does_setNext a2.good hm (g.pNext n)
  have a4 := does_setPrev a3.good (g.pNext n) hm
  have a5 := does_setNext a4.good (g.pPrev nn) pnone
  have a6 := does_setPrev a5.good (g.pNext nn) pnone
  exact a1.bind (a2.bind (a3.bind (a4.bind (a5.bind (a6.bind (does_pure a6.good _))))))

theorem does_replacePrev (g : SoundLinks s h) {n nn : Ptr} (hn : PIn s n) (hm : PIn s nn) :
    Does s h (Code.replacePrev n nn) (h.replacePrev n nn).1 (h.replacePrev n nn).2 := by
  unfold Code.replacePrev Heap.replacePrev
  by_cases h1 : n = nn
  · simp only [h1, true_or, if_true]; exact does_pure g _
  simp only [h1, false_or, if_false]
  refine Does.bind (does_prev g hn) ?_
  by_cases h2 : h.prev n = nn
  · simp only [h2, if_true]; exact does_pure g _
  simp only [h2, if_false]
  refine Does.bind (does_prev g hn) (Does.bind (does_next g hm) ?_)
  have a1 := does_setPrev g hn hm
  have a2 := does_setNext a1.good hm hn
  have a5 := does_setNext a2.good (g.pPrev n) pnone
  have a6 := does_setPrev a5.good (g.pNext nn) pnone
  exact a1.bind (a2.bind (a5.bind (a6.bind (does_pure a6.good _))))

theorem does_replaceNext (g : SoundLinks s h) {n nn : Ptr} (hn : PIn s n) (hm : PIn s nn) :
    Does s h (Code.replaceNext n nn) (h.replaceNext n nn).1 (h.replaceNext n nn).2 := by
  unfold Code.replaceNext Heap.replaceNext
  by_cases h1 : n = nn
  · simp only [h1, true_or, if_true]; exact does_pure g _
  simp only [h1, false_or, if_false]
  refine Does.bind (does_next g hn) ?_
  by_cases h2 : h.next n = nn
  · simp only [h2, if_true]; exact does_pure g _
  simp only [h2, if_false]
  refine Does.bind (does_prev g hm) (Does.bind (does_next g hn) ?_)
  have a1 := does_setNext g hn hm
  have a2 := does_setPrev a1.good hm hn
  have a5 := does_setNext a2.good (g.pPrev nn) pnone
  have a6 := does_setPrev a5.good (g.pNext n) pnone
  exact a1.bind (a2.bind (a5.bind (a6.bind (does_pure a6.good _))))

theorem does_takePrev (g : SoundLinks s h) {n : Ptr} (hn : PIn s n) : Does s h (Code.takePrev n) (h.takePrev n).1 (h.takePrev n).2 := by
  have a1 := does_setPrev g hn (g.pPrev (h.prev n))
  have a2 := does_setNext a1.good (g.pPrev (h.prev n)) hn
  have a3 := does_setNext a2.good (g.pPrev n) pnone
  have a4 := does_setPrev a3.good (g.pPrev n) pnone
  exact (does_prev g hn).bind ((does_prev g (g.pPrev n)).bind (a1.bind (a2.bind (a3.bind (a4.bind (does_pure a4.good _))))))

theorem does_takeNext (g : SoundLinks s h) {n : Ptr} (hn : PIn s n) : Does s h (Code.takeNext n) (h.takeNext n).1 (h.takeNext n).2 := by
  have a1 := does_setNext g hn (g.pNext (h.next n))
  have a2 := does_setPrev a1.good (g.pNext (h.next n)) hn
  have a3 := does_setNext a2.good (g.pNext n) pnone
  have a4 := does_setPrev a3.good (g.pNext n) pnone
  exact (does_next g hn).bind ((does_next g (g.pNext n)).bind (a1.bind (a2.bind (a3.bind (a4.bind (does_pure a4.good _))))))

theorem does_removePrev (g : SoundLinks s h) {n : Ptr} (hn : PIn s n) : Does s h (Code.removePrev n) (h.removePrev n).1 (h.removePrev n).2 := by
  have a1 := does_setPrev g hn pnone
  have a2 := does_setNext a1.good (g.pPrev n) pnone
  exact (does_prev g hn).bind (a1.bind (a2.bind (does_pure a2.good _)))

theorem does_removeNext (g : SoundLinks s h) {n : Ptr} (hn : PIn s n) : Does s h (Code.removeNext n) (h.removeNext n).1 (h.removeNext n).2 := by
  have a1 := does_setNext g hn pnone
  have a2 := does_setPrev a1.good (g.pNext n) pnone
  exact (does_next g hn).bind (a1.bind (a2.bind (does_pure a2.good _)))

theorem does_isolate (g : SoundLinks s h) {n : Ptr} (hn : PIn s n) : Does s h (Code.isolate n) (h.isolate n) () := by
  have a1 := does_setNext g (g.pPrev n) pnone
  have a2 := does_setPrev a1.good (a1.good.pNext n) pnone
  have a3 := does_setPrev a2.good hn pnone
  have a4 := does_setNext a3.good hn pnone
  exact (does_prev g hn).bind (a1.bind ((does_next a1.good hn).bind (a2.bind (a3.bind a4))))

theorem does_combineLoop {n : Ptr} : ∀ (nns : List Ptr) {h : Heap} (g : SoundLinks s h) (buf : List Bytes), (∀ m ∈ nns, PIn s m) →
    Does s h (Code.combineLoop n nns buf) (Heap.combineLoop n h nns buf).1 (Heap.combineLoop n h nns buf).2
  | [], h, g, buf, _ => does_pure g _
  | nn :: nns, h, g, buf, hm => by
    unfold Code.combineLoop Heap.combineLoop
    by_cases hc : nn = none ∨ n = nn
    · simp only [hc, if_true]
      exact does_combineLoop nns g buf fun m h => hm m (by simp [h])
    · simp only [hc, if_false]
      have h0 := hm nn (by simp)
      have a1 := does_isolate g h0
      exact (does_text g h0).bind (a1.bind (does_combineLoop nns a1.good _ fun m h => hm m (by simp [h])))

theorem does_combineNext (g : SoundLinks s h) {n : Ptr} (hn : PIn s n) (k : Kind) {nns : List Ptr} (hm : ∀ m ∈ nns, PIn s m) {r : Heap × Ptr}
    (e : h.combineNext n k nns = some r) : Does s h (Code.combineNext n k nns) r.1 r.2 := by
  have a0 := does_setKind g hn k
  unfold Heap.combineNext at e
  refine a0.bind ?_
  cases nns with
  | nil => simp at e; subst e; exact does_pure a0.good _
  | cons nn0 rest =>
    cases n with
    | none =>
      simp only at e
      cases nn0 with
      | none => simp at e
      | some b =>
        simp at e; subst e
        have hb : PIn s (some b) := hm _ (by simp)
        have a1 := does_combineLoop rest a0.good [(h.setKind none k).text (some b)] (n := some b) fun m h => hm m (by simp [h])
        exact (does_text a0.good hb).bind (a1.bind ((does_store (f := .text) a1.good (hb b rfl) trivial).bind (does_pure (good_modify a1.good (f := .text) trivial) _)))
    | some b =>
      simp at e; subst e
      have a1 := does_combineLoop (nn0 :: rest) a0.good [(h.setKind (some b) k).text (some b)] (n := some b) hm
      exact (does_text a0.good hn).bind (a1.bind ((does_store (f := .text) a1.good (hn b rfl) trivial).bind (does_pure (good_modify a1.good (f := .text) trivial) _)))

theorem does_combinePrev (g : SoundLinks s h) {n : Ptr} (hn : PIn s n) (k : Kind) {nns : List Ptr} (hm : ∀ m ∈ nns, PIn s m) {r : Heap × Ptr}
    (e : h.combinePrev n k nns = some r) : Does s h (Code.combinePrev n k nns) r.1 r.2 := by
  have a0 := does_setKind g hn k
  unfold Heap.combinePrev at e
  refine a0.bind ?_
  cases nns with
  | nil => simp at e; subst e; exact does_pure a0.good _
  | cons nn0 rest =>
    cases n with
    | none =>
      simp only at e
      cases nn0 with
      | none => simp at e
      | some b =>
        simp at e; subst e
        have hb : PIn s (some b) := hm _ (by simp)
        have a1 := does_combineLoop rest a0.good [(h.setKind none k).text (some b)] (n := some b) fun m h => hm m (by simp [h])
        exact (does_text a0.good hb).bind (a1.bind ((does_store (f := .text) a1.good (hb b rfl) trivial).bind (does_pure (good_modify a1.good (f := .text) trivial) _)))
    | some b =>
      simp at e; subst e
      have a1 := does_combineLoop (nn0 :: rest) a0.good [(h.setKind (some b) k).text (some b)] (n := some b) hm
      exact (does_text a0.good hn).bind (a1.bind ((does_store (f := .text) a1.good (hn b rfl) trivial).bind (does_pure (good_modify a1.good (f := .text) trivial) _)))

end Goast
