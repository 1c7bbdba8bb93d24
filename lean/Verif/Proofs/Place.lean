import Verif.Proofs.RelocateView
import Verif.Spec.Goroutines

/-!
# Calls on nodes that lie elsewhere in a larger heap
-/

set_option linter.unusedSimpArgs false
set_option linter.unusedVariables false

namespace Goast
open Heap

/-- A node whose neighbours lie elsewhere. -/
def NodeRec.at (g : Addr → Addr) (r : NodeRec) : NodeRec := { r with prev := r.prev.map g, next := r.next.map g }

/-- Nil or a node of `D`. -/
def In (D : Addr → Prop) (p : Ptr) : Prop := ∀ a, p = some a → D a

@[simp] theorem In.none {D : Addr → Prop} : In D none := by simp [In]
@[simp] theorem In.some {D : Addr → Prop} {a : Addr} : In D (some a) ↔ D a := by simp [In]

/-- The nodes `D` of `h` are those of `k` at the addresses `g`. -/
structure Pl (g : Addr → Addr) (D : Addr → Prop) (h k : Heap) : Prop where
  le : h.size ≤ k.size
  lt : ∀ {a}, D a → a < h.size
  inj : ∀ {a b}, D a → D b → g a = g b → a = b
  cell : ∀ {a}, D a → k.cells[g a]? = (h.cells[a]?).map (NodeRec.at g)
  nextC : ∀ {a r}, D a → h.cells[a]? = some r → In D r.next
  prevC : ∀ {a r}, D a → h.cells[a]? = some r → In D r.prev

/-- Only nodes at the addresses `g` of `D` differ, and new ones. -/
structure Fr (g : Addr → Addr) (D : Addr → Prop) (k k' : Heap) : Prop where
  size : k.size ≤ k'.size
  frame : ∀ b, b < k.size → (∀ a, D a → g a ≠ b) → k'.cells[b]? = k.cells[b]?

theorem Fr.refl {g : Addr → Addr} {D : Addr → Prop} {k : Heap} : Fr g D k k := ⟨Nat.le_refl _, fun _ _ _ => rfl⟩

theorem Fr.trans {g : Addr → Addr} {D : Addr → Prop} {k k' k'' : Heap} (a : Fr g D k k') (b : Fr g D k' k'') : Fr g D k k'' :=
  ⟨Nat.le_trans a.size b.size, fun x hx hd => (b.frame x (Nat.lt_of_lt_of_le hx a.size) hd).trans (a.frame x hx hd)⟩

namespace Pl

variable {g : Addr → Addr} {D : Addr → Prop} {h k : Heap}

theorem lt' (P : Pl g D h k) {a : Addr} (ha : D a) : g a < k.size := by
  have := P.cell ha
  rw [List.getElem?_eq_getElem (P.lt ha)] at this
  exact (List.getElem?_eq_some_iff.1 this).1

theorem next (P : Pl g D h k) {p : Ptr} (hp : In D p) : k.next (p.map g) = (h.next p).map g := by
  cases p with
  | none => rfl
  | some a =>
    simp only [Option.map_some, Heap.next, P.cell (hp a rfl)]
    cases h.cells[a]? <;> rfl

theorem prev (P : Pl g D h k) {p : Ptr} (hp : In D p) : k.prev (p.map g) = (h.prev p).map g := by
  cases p with
  | none => rfl
  | some a =>
    simp only [Option.map_some, Heap.prev, P.cell (hp a rfl)]
    cases h.cells[a]? <;> rfl

theorem kind (P : Pl g D h k) {p : Ptr} (hp : In D p) : k.kind (p.map g) = h.kind p := by
  cases p with
  | none => rfl
  | some a =>
    simp only [Option.map_some, Heap.kind, P.cell (hp a rfl)]
    cases h.cells[a]? <;> rfl

theorem text (P : Pl g D h k) {p : Ptr} (hp : In D p) : k.text (p.map g) = h.text p := by
  cases p with
  | none => rfl
  | some a =>
    simp only [Option.map_some, Heap.text, P.cell (hp a rfl)]
    cases h.cells[a]? <;> rfl

theorem line (P : Pl g D h k) {p : Ptr} (hp : In D p) : k.line (p.map g) = h.line p := by
  cases p with
  | none => rfl
  | some a =>
    simp only [Option.map_some, Heap.line, P.cell (hp a rfl)]
    cases h.cells[a]? <;> rfl

theorem in_next (P : Pl g D h k) {p : Ptr} (hp : In D p) : In D (h.next p) := by
  cases p with
  | none => simp [Heap.next]
  | some a =>
    have ha := hp a rfl
    simp only [Heap.next]
    cases e : h.cells[a]? with
    | none => simp
    | some r => exact P.nextC ha e

theorem in_prev (P : Pl g D h k) {p : Ptr} (hp : In D p) : In D (h.prev p) := by
  cases p with
  | none => simp [Heap.prev]
  | some a =>
    have ha := hp a rfl
    simp only [Heap.prev]
    cases e : h.cells[a]? with
    | none => simp
    | some r => exact P.prevC ha e

theorem ptr_eq (P : Pl g D h k) {p q : Ptr} (hp : In D p) (hq : In D q) : p.map g = q.map g ↔ p = q := by
  cases p with
  | none => cases q <;> simp
  | some a =>
    cases q with
    | none => simp
    | some b =>
      simp only [Option.map_some, Option.some.injEq]
      exact ⟨P.inj (hp a rfl) (hq b rfl), fun e => by rw [e]⟩

theorem emb (P : Pl g D h k) : Emb g D h k where
  nextC {a b} ha hb := P.in_next (p := some a) (by simpa using ha) b hb
  prevC {a b} ha hb := P.in_prev (p := some a) (by simpa using ha) b hb
  size ha _ := P.lt' ha
  next {a} ha := P.next (p := some a) (by simpa using ha)
  prev {a} ha := P.prev (p := some a) (by simpa using ha)
  kind {a} ha := P.kind (p := some a) (by simpa using ha)
  text {a} ha := P.text (p := some a) (by simpa using ha)
  line {a} ha := P.line (p := some a) (by simpa using ha)

/-- One node is changed. -/
theorem modify (P : Pl g D h k) {a : Addr} (ha : D a) {f f' : NodeRec → NodeRec} (hf : ∀ r, f' (r.at g) = (f r).at g)
    (hn : ∀ r, In D r.next → In D (f r).next) (hp : ∀ r, In D r.prev → In D (f r).prev) :
    Pl g D (h.modify a f) (k.modify (g a) f') ∧ Fr g D k (k.modify (g a) f') := by
  have sz : ∀ (x : Heap) (b : Addr) (f : NodeRec → NodeRec), (x.modify b f).size = x.size := by
    intro x b f; simp [Heap.modify, Heap.size]
  refine ⟨⟨by rw [sz, sz]; exact P.le, fun hb => by rw [sz]; exact P.lt hb, P.inj, ?_, ?_, ?_⟩, ⟨by rw [sz]; exact Nat.le_refl _, ?_⟩⟩
  · intro b hb
    simp only [Heap.modify, List.getElem?_modify, P.cell hb]
    by_cases e : a = b
    · subst e
      cases h.cells[a]? <;> simp [hf]
    · have : g a ≠ g b := fun e' => e (P.inj ha hb e')
      cases h.cells[b]? <;> simp [e, this]
  · intro b r hb e
    simp only [Heap.modify, List.getElem?_modify] at e
    cases e1 : h.cells[b]? with
    | none => rw [e1] at e; simp at e
    | some r1 =>
      have hr := P.nextC hb e1
      rw [e1] at e
      simp only [Option.map_eq_map, Option.map_some, Option.some.injEq] at e
      subst e
      split
      · exact hn _ hr
      · exact hr
  · intro b r hb e
    simp only [Heap.modify, List.getElem?_modify] at e
    cases e1 : h.cells[b]? with
    | none => rw [e1] at e; simp at e
    | some r1 =>
      have hr := P.prevC hb e1
      rw [e1] at e
      simp only [Option.map_eq_map, Option.map_some, Option.some.injEq] at e
      subst e
      split
      · exact hp _ hr
      · exact hr
  · intro b _ hd
    have := hd a ha
    simp only [Heap.modify, List.getElem?_modify, this, if_false]
    cases k.cells[b]? <;> rfl

/-- What a call needs and gives while no node is made: the same nodes at the same addresses. -/
def Keeps (g : Addr → Addr) (D : Addr → Prop) (k0 h k : Heap) : Prop := Pl g D h k ∧ Fr g D k0 k

theorem Keeps.of {k0 h' k' : Heap} (fr : Fr g D k0 k) (x : Pl g D h' k' ∧ Fr g D k k') : Keeps g D k0 h' k' := ⟨x.1, fr.trans x.2⟩

theorem setKind {k0 : Heap} (K : Keeps g D k0 h k) {p : Ptr} (hp : In D p) (kd : Kind) : Keeps g D k0 (h.setKind p kd) (k.setKind (p.map g) kd) := by
  cases p with
  | none => exact K
  | some a => exact .of K.2 (K.1.modify (hp a rfl) (fun _ => rfl) (fun _ => id) (fun _ => id))

theorem setText {k0 : Heap} (K : Keeps g D k0 h k) {p : Ptr} (hp : In D p) (t : Bytes) : Keeps g D k0 (h.setText p t) (k.setText (p.map g) t) := by
  cases p with
  | none => exact K
  | some a => exact .of K.2 (K.1.modify (hp a rfl) (fun _ => rfl) (fun _ => id) (fun _ => id))

theorem setNext {k0 : Heap} (K : Keeps g D k0 h k) {p q : Ptr} (hp : In D p) (hq : In D q) : Keeps g D k0 (h.setNext p q) (k.setNext (p.map g) (q.map g)) := by
  cases p with
  | none => exact K
  | some a =>
    have e := K.1.ptr_eq hp hq
    have n := K.1.next hp
    have i := K.1.in_next hp
    simp only [Option.map_some] at e n
    simp only [Heap.setNext, Option.map_some, e, n]
    split
    · exact K
    · have K1 : Keeps g D k0 (match h.next (some a) with
          | none => h
          | some p => h.modify p ({ · with prev := none })) (match (h.next (some a)).map g with
          | none => k
          | some p => k.modify p ({ · with prev := none })) := by
        cases e1 : h.next (some a) with
        | none => exact K
        | some b => exact .of K.2 (K.1.modify (i b e1) (fun _ => rfl) (fun _ => id) (fun _ _ => by simp))
      exact .of K1.2 (K1.1.modify (hp a rfl) (fun _ => rfl) (fun _ _ => hq) (fun _ => id))

theorem setPrev {k0 : Heap} (K : Keeps g D k0 h k) {p q : Ptr} (hp : In D p) (hq : In D q) : Keeps g D k0 (h.setPrev p q) (k.setPrev (p.map g) (q.map g)) := by
  cases p with
  | none => exact K
  | some a =>
    have e := K.1.ptr_eq hp hq
    have n := K.1.prev hp
    have i := K.1.in_prev hp
    simp only [Option.map_some] at e n
    simp only [Heap.setPrev, Option.map_some, e, n]
    split
    · exact K
    · have K1 : Keeps g D k0 (match h.prev (some a) with
          | none => h
          | some p => h.modify p ({ · with next := none })) (match (h.prev (some a)).map g with
          | none => k
          | some p => k.modify p ({ · with next := none })) := by
        cases e1 : h.prev (some a) with
        | none => exact K
        | some b => exact .of K.2 (K.1.modify (i b e1) (fun _ => rfl) (fun _ _ => by simp) (fun _ => id))
      exact .of K1.2 (K1.1.modify (hp a rfl) (fun _ => rfl) (fun _ => id) (fun _ _ => hq))

theorem setNext_nil {k0 : Heap} (K : Keeps g D k0 h k) {p : Ptr} (hp : In D p) : Keeps g D k0 (h.setNext p none) (k.setNext (p.map g) none) :=
  setNext K hp In.none

theorem setPrev_nil {k0 : Heap} (K : Keeps g D k0 h k) {p : Ptr} (hp : In D p) : Keeps g D k0 (h.setPrev p none) (k.setPrev (p.map g) none) :=
  setPrev K hp In.none

theorem insertNext {k0 : Heap} (K : Keeps g D k0 h k) {n m : Ptr} (hn : In D n) (hm : In D m) :
    Keeps g D k0 (h.insertNext n m).1 (k.insertNext (n.map g) (m.map g)).1 ∧
    (k.insertNext (n.map g) (m.map g)).2 = ((h.insertNext n m).2.1.map g, (h.insertNext n m).2.2.map g) ∧
    In D (h.insertNext n m).2.1 ∧ In D (h.insertNext n m).2.2 := by
  have a1 := K.1.in_prev hm
  have a2 := K.1.in_next hm
  have a3 := K.1.in_next hn
  unfold Heap.insertNext
  rw [K.1.next hn, K.1.prev hm, K.1.next hm]
  have c : (n.map g = m.map g ∨ (h.next n).map g = m.map g) ↔ (n = m ∨ h.next n = m) := by rw [K.1.ptr_eq hn hm, K.1.ptr_eq a3 hm]
  by_cases hc : n = m ∨ h.next n = m
  · rw [if_pos hc, if_pos (c.2 hc)]
    exact ⟨K, rfl, by simp, by simp⟩
  · rw [if_neg hc, if_neg (fun x => hc (c.1 x))]
    exact ⟨setPrev_nil (setNext_nil (setPrev (setNext (setPrev (setNext K hn hm) hm hn) hm a3) a3 hm) a1) a2, rfl, a1, a2⟩

theorem insertPrev {k0 : Heap} (K : Keeps g D k0 h k) {n m : Ptr} (hn : In D n) (hm : In D m) :
    Keeps g D k0 (h.insertPrev n m).1 (k.insertPrev (n.map g) (m.map g)).1 ∧
    (k.insertPrev (n.map g) (m.map g)).2 = ((h.insertPrev n m).2.1.map g, (h.insertPrev n m).2.2.map g) ∧
    In D (h.insertPrev n m).2.1 ∧ In D (h.insertPrev n m).2.2 := by
  have a1 := K.1.in_prev hm
  have a2 := K.1.in_next hm
  have a3 := K.1.in_prev hn
  unfold Heap.insertPrev
  rw [K.1.prev hn, K.1.prev hm, K.1.next hm]
  have c : (n.map g = m.map g ∨ (h.prev n).map g = m.map g) ↔ (n = m ∨ h.prev n = m) := by rw [K.1.ptr_eq hn hm, K.1.ptr_eq a3 hm]
  by_cases hc : n = m ∨ h.prev n = m
  · rw [if_pos hc, if_pos (c.2 hc)]
    exact ⟨K, rfl, by simp, by simp⟩
  · rw [if_neg hc, if_neg (fun x => hc (c.1 x))]
    exact ⟨setPrev_nil (setNext_nil (setNext (setPrev (setNext (setPrev K hn hm) hm hn) hm a3) a3 hm) a1) a2, rfl, a1, a2⟩

theorem replaceNext {k0 : Heap} (K : Keeps g D k0 h k) {n m : Ptr} (hn : In D n) (hm : In D m) :
    Keeps g D k0 (h.replaceNext n m).1 (k.replaceNext (n.map g) (m.map g)).1 ∧
    (k.replaceNext (n.map g) (m.map g)).2 = ((h.replaceNext n m).2.1.map g, (h.replaceNext n m).2.2.map g) ∧
    In D (h.replaceNext n m).2.1 ∧ In D (h.replaceNext n m).2.2 := by
  have a1 := K.1.in_prev hm
  have a3 := K.1.in_next hn
  unfold Heap.replaceNext
  rw [K.1.next hn, K.1.prev hm]
  have c : (n.map g = m.map g ∨ (h.next n).map g = m.map g) ↔ (n = m ∨ h.next n = m) := by rw [K.1.ptr_eq hn hm, K.1.ptr_eq a3 hm]
  by_cases hc : n = m ∨ h.next n = m
  · rw [if_pos hc, if_pos (c.2 hc)]
    exact ⟨K, rfl, by simp, by simp⟩
  · rw [if_neg hc, if_neg (fun x => hc (c.1 x))]
    exact ⟨setPrev_nil (setNext_nil (setPrev (setNext K hn hm) hm hn) a1) a3, rfl, a1, a3⟩

theorem replacePrev {k0 : Heap} (K : Keeps g D k0 h k) {n m : Ptr} (hn : In D n) (hm : In D m) :
    Keeps g D k0 (h.replacePrev n m).1 (k.replacePrev (n.map g) (m.map g)).1 ∧
    (k.replacePrev (n.map g) (m.map g)).2 = ((h.replacePrev n m).2.1.map g, (h.replacePrev n m).2.2.map g) ∧
    In D (h.replacePrev n m).2.1 ∧ In D (h.replacePrev n m).2.2 := by
  have a1 := K.1.in_next hm
  have a3 := K.1.in_prev hn
  unfold Heap.replacePrev
  rw [K.1.prev hn, K.1.next hm]
  have c : (n.map g = m.map g ∨ (h.prev n).map g = m.map g) ↔ (n = m ∨ h.prev n = m) := by rw [K.1.ptr_eq hn hm, K.1.ptr_eq a3 hm]
  by_cases hc : n = m ∨ h.prev n = m
  · rw [if_pos hc, if_pos (c.2 hc)]
    exact ⟨K, rfl, by simp, by simp⟩
  · rw [if_neg hc, if_neg (fun x => hc (c.1 x))]
    exact ⟨setPrev_nil (setNext_nil (setNext (setPrev K hn hm) hm hn) a3) a1, rfl, a3, a1⟩

theorem takeNext {k0 : Heap} (K : Keeps g D k0 h k) {n : Ptr} (hn : In D n) :
    Keeps g D k0 (h.takeNext n).1 (k.takeNext (n.map g)).1 ∧ (k.takeNext (n.map g)).2 = (h.takeNext n).2.map g ∧ In D (h.takeNext n).2 := by
  have a1 := K.1.in_next hn
  have a2 := K.1.in_next a1
  unfold Heap.takeNext
  simp only [K.1.next hn, K.1.next a1]
  exact ⟨setPrev_nil (setNext_nil (setPrev (setNext K hn a2) a2 hn) a1) a1, trivial, a1⟩

theorem takePrev {k0 : Heap} (K : Keeps g D k0 h k) {n : Ptr} (hn : In D n) :
    Keeps g D k0 (h.takePrev n).1 (k.takePrev (n.map g)).1 ∧ (k.takePrev (n.map g)).2 = (h.takePrev n).2.map g ∧ In D (h.takePrev n).2 := by
  have a1 := K.1.in_prev hn
  have a2 := K.1.in_prev a1
  unfold Heap.takePrev
  simp only [K.1.prev hn, K.1.prev a1]
  exact ⟨setPrev_nil (setNext_nil (setNext (setPrev K hn a2) a2 hn) a1) a1, trivial, a1⟩

theorem removeNext {k0 : Heap} (K : Keeps g D k0 h k) {n : Ptr} (hn : In D n) :
    Keeps g D k0 (h.removeNext n).1 (k.removeNext (n.map g)).1 ∧ (k.removeNext (n.map g)).2 = (h.removeNext n).2.map g ∧ In D (h.removeNext n).2 := by
  have a1 := K.1.in_next hn
  unfold Heap.removeNext
  rw [K.1.next hn]
  exact ⟨setPrev_nil (setNext_nil K hn) a1, rfl, a1⟩

theorem removePrev {k0 : Heap} (K : Keeps g D k0 h k) {n : Ptr} (hn : In D n) :
    Keeps g D k0 (h.removePrev n).1 (k.removePrev (n.map g)).1 ∧ (k.removePrev (n.map g)).2 = (h.removePrev n).2.map g ∧ In D (h.removePrev n).2 := by
  have a1 := K.1.in_prev hn
  unfold Heap.removePrev
  rw [K.1.prev hn]
  exact ⟨setNext_nil (setPrev_nil K hn) a1, rfl, a1⟩

theorem isolate {k0 : Heap} (K : Keeps g D k0 h k) {n : Ptr} (hn : In D n) : Keeps g D k0 (h.isolate n) (k.isolate (n.map g)) := by
  have a1 := K.1.in_prev hn
  unfold Heap.isolate
  rw [K.1.prev hn]
  have K1 := setNext_nil K a1
  have a2 := K1.1.in_next hn
  simp only
  rw [K1.1.next hn]
  exact setNext_nil (setPrev_nil (setPrev_nil K1 a2) hn) hn

theorem combineLoop {k0 : Heap} {n : Ptr} (hn : In D n) : ∀ {ms : List Ptr} {h k : Heap} (K : Keeps g D k0 h k) (hm : ∀ m ∈ ms, In D m) (buf : List Bytes),
    Keeps g D k0 (Heap.combineLoop n h ms buf).1 (Heap.combineLoop (n.map g) k (ms.map (Option.map g)) buf).1 ∧
    (Heap.combineLoop (n.map g) k (ms.map (Option.map g)) buf).2 = (Heap.combineLoop n h ms buf).2
  | [], h, k, K, _, buf => ⟨K, rfl⟩
  | m :: ms, h, k, K, hm, buf => by
    have h1 := hm m (by simp)
    have h2 : ∀ m ∈ ms, In D m := fun m h => hm m (by simp [h])
    simp only [List.map_cons, Heap.combineLoop, Option.map_eq_none_iff, K.1.ptr_eq hn h1, K.1.text h1]
    split
    · exact combineLoop hn K h2 buf
    · exact combineLoop hn (isolate K h1) h2 _

theorem combineNext {k0 : Heap} (K : Keeps g D k0 h k) {n : Ptr} {ms : List Ptr} (hn : In D n) (hm : ∀ m ∈ ms, In D m) (kd : Kind) {h' : Heap} {r : Ptr}
    (e : h.combineNext n kd ms = some (h', r)) :
    ∃ k', k.combineNext (n.map g) kd (ms.map (Option.map g)) = some (k', r.map g) ∧ Keeps g D k0 h' k' ∧ In D r := by
  have K1 := setKind K hn kd
  unfold Heap.combineNext at e ⊢
  rcases ms with _ | ⟨m, ms⟩
  · simp only [Option.some.injEq, Prod.mk.injEq] at e
    obtain ⟨rfl, rfl⟩ := e
    exact ⟨_, rfl, K1, hn⟩
  · rcases n with _ | a
    · rcases m with _ | b
      · cases e
      · have hb := hm (some b) (by simp)
        obtain ⟨K2, e2⟩ := combineLoop (D := D) hb (ms := ms) K1 (fun m h => hm m (by simp [h])) [(h.setKind none kd).text (some b)]
        simp only [Option.some.injEq, Prod.mk.injEq] at e
        obtain ⟨rfl, rfl⟩ := e
        have t := K1.1.text hb
        simp only [Option.map_some, Option.map_none] at t e2 K2
        simp only [List.map_cons, Option.map_none, Option.map_some, t, e2]
        exact ⟨_, rfl, setText K2 hb _, hb⟩
    · obtain ⟨K2, e2⟩ := combineLoop (D := D) hn (ms := m :: ms) K1 hm [(h.setKind (some a) kd).text (some a)]
      simp only [Option.some.injEq, Prod.mk.injEq] at e
      obtain ⟨rfl, rfl⟩ := e
      have t := K1.1.text hn
      simp only [Option.map_some, List.map_cons] at t e2 K2
      simp only [List.map_cons, Option.map_some, t, e2]
      exact ⟨_, rfl, setText K2 hn _, hn⟩

theorem combinePrev {k0 : Heap} (K : Keeps g D k0 h k) {n : Ptr} {ms : List Ptr} (hn : In D n) (hm : ∀ m ∈ ms, In D m) (kd : Kind) {h' : Heap} {r : Ptr}
    (e : h.combinePrev n kd ms = some (h', r)) :
    ∃ k', k.combinePrev (n.map g) kd (ms.map (Option.map g)) = some (k', r.map g) ∧ Keeps g D k0 h' k' ∧ In D r := by
  have K1 := setKind K hn kd
  unfold Heap.combinePrev at e ⊢
  rcases ms with _ | ⟨m, ms⟩
  · simp only [Option.some.injEq, Prod.mk.injEq] at e
    obtain ⟨rfl, rfl⟩ := e
    exact ⟨_, rfl, K1, hn⟩
  · rcases n with _ | a
    · rcases m with _ | b
      · cases e
      · have hb := hm (some b) (by simp)
        obtain ⟨K2, e2⟩ := combineLoop (D := D) hb (ms := ms) K1 (fun m h => hm m (by simp [h])) [(h.setKind none kd).text (some b)]
        simp only [Option.some.injEq, Prod.mk.injEq] at e
        obtain ⟨rfl, rfl⟩ := e
        have t := K1.1.text hb
        simp only [Option.map_some, Option.map_none] at t e2 K2
        simp only [List.map_cons, Option.map_none, Option.map_some, t, e2]
        exact ⟨_, rfl, setText K2 hb _, hb⟩
    · obtain ⟨K2, e2⟩ := combineLoop (D := D) hn (ms := m :: ms) K1 hm [(h.setKind (some a) kd).text (some a)]
      simp only [Option.some.injEq, Prod.mk.injEq] at e
      obtain ⟨rfl, rfl⟩ := e
      have t := K1.1.text hn
      simp only [Option.map_some, List.map_cons] at t e2 K2
      simp only [List.map_cons, Option.map_some, t, e2]
      exact ⟨_, rfl, setText K2 hn _, hn⟩

end Pl

end Goast
