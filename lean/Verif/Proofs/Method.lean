import Verif.Proofs.Ends

/-!
# Method declarations
-/

set_option linter.unusedSimpArgs false
set_option linter.unusedVariables false

namespace Goast
open Heap

/-- Each node points to the next one of the list. -/
def Steps (h : Heap) : List Addr → Prop
  | a :: b :: l => h.next (some a) = some b ∧ Steps h (b :: l)
  | _ => True

theorem Steps.congr {h h' : Heap} : ∀ {l : List Addr}, Steps h l → (∀ x ∈ l, h'.next (some x) = h.next (some x)) → Steps h' l
  | [], _, _ => trivial
  | [_], _, _ => trivial
  | a :: b :: l, s, e => ⟨(e a (by simp)).trans s.1, Steps.congr s.2 fun x hx => e x (List.mem_cons_of_mem _ hx)⟩

theorem Steps.front {h : Heap} : ∀ {a : Addr} {r l : List Addr}, Steps h (a :: r) → Fwd h (some a) l → ∃ l', l = a :: r ++ l'
  | a, [], l, _, f => by cases f; exact ⟨_, rfl⟩
  | a, b :: r, l, s, f => by
    cases f with
    | @cons _ m _ f =>
      rw [s.1] at f
      obtain ⟨l', e⟩ := s.2.front f
      exact ⟨l', by rw [e]; rfl⟩

/-- `func (r T) NAME`: what resetting does to these nodes. -/
theorem resetKind_named {h h' : Heap} {z : Ptr} (w : WF h) (ac : Acyclic h) {a b p r b' t q s n : Addr} {l : List Addr}
    (ch : Chain h (a :: b :: p :: r :: b' :: t :: q :: s :: n :: l)) (ka : h.kind (some a) = .func_) (kb : h.kind (some b) = .space)
    (kp : h.kind (some p) = .parenL) (kr : h.kind (some r) = .raw) (kb' : h.kind (some b') = .space) (kt : h.kind (some t) = .raw)
    (kq : h.kind (some q) = .parenR) (ks : h.kind (some s) = .space) (kn : h.kind (some n) = .raw)
    (hc : ¬ CalledAtOnce (kindsOf h (a :: b :: p :: r :: b' :: t :: q :: s :: n :: l)))
    (e : resetKind h (some a) = some (h', z)) :
    Steps h' [a, b, p, r, b', t, q, s, n] ∧
    [a, b, p, r, b', t, q, s, n].map (fun x => h'.kind (some x)) = [.func_, .space, .parenL, .methodReceiverName, .space,
      .methodReceiverType, .parenR, .space, .funcName] ∧
    h'.text (some t) = h.text (some t) ∧ h'.text (some n) = h.text (some n) := by
  have nd := ch.nodup
  simp only [List.nodup_cons, List.mem_cons, not_or] at nd
  obtain ⟨na, nb, np, nr, nb', nt, nq, ns, nn, _⟩ := nd
  have adj : ∀ (pre : List Addr) (x y : Addr) (suf : List Addr), a :: b :: p :: r :: b' :: t :: q :: s :: n :: l = pre ++ x :: y :: suf →
      h.next (some x) = some y := fun pre x y suf e => (ch.2.2.2 pre x y suf e).1
  have n1 := adj [] a b _ rfl
  have n2 := adj [a] b p _ rfl
  have n3 := adj [a, b] p r _ rfl
  have n4 := adj [a, b, p] r b' _ rfl
  have n5 := adj [a, b, p, r] b' t _ rfl
  have n6 := adj [a, b, p, r, b'] t q _ rfl
  have n7 := adj [a, b, p, r, b', t] q s _ rfl
  have n8 := adj [a, b, p, r, b', t, q] s n _ rfl
  have lr := ch.1 r (by simp)
  have lt := ch.1 t (by simp)
  have ln := ch.1 n (by simp)
  have o := ok_true ac ch
  have g := good_start w ac ch (X := fun _ => True) trivial
  have hF : ∀ x ∈ a :: b :: p :: r :: b' :: t :: q :: s :: n :: l, behind h ac x ≤ h.size :=
    fun x hx => Nat.le_of_lt (behind_lt ac (ch.1 x hx))
  have kk1 : ∀ x, (h.setKind (some r) .methodReceiverName).kind x = if x = some r then .methodReceiverName else h.kind x :=
    fun x => kind_setKind _ _ _ _ lr
  have kk2 : ∀ x, ((h.setKind (some r) .methodReceiverName).setKind (some t) .methodReceiverType).kind x =
      if x = some t then .methodReceiverType else if x = some r then .methodReceiverName else h.kind x := by
    intro x; rw [kind_setKind _ _ _ _ (by simpa using lt), kk1]
  have rt : r ≠ t := nr.2.1
  have g1 := g.setKind o (a := r) (k := .methodReceiverName) (by simp [rctx]) (hF r (by simp)) (by rw [kr]; decide) (by decide)
  have g2 := g1.setKind o (a := t) (k := .methodReceiverType) (by simp [rctx]) (hF t (by simp)) (by rw [kk1, if_neg (by simp [Ne.symm rt]), kt]; decide) (by decide)
  have keep := resetKind_method (mid := [r, b', t]) (h1 := (h.setKind (some r) .methodReceiverName).setKind (some t) .methodReceiverType)
    w ac ch ka kb kp kq ks kn hc
    (fun d w z e => paren_first_named n3 n4 n5 n6 (Ne.symm nb'.2.1) (Ne.symm nt.1) nr.1 nr.2.1 (Ne.symm nr.2.2.1) (Ne.symm nb'.1) np.1 np.2.2.1 lr lt kp kr kb' kt kq e)
    (fun d w z e => paren_again_named (by simpa using n3) (by simpa using n4) (by simpa using n5) (by simpa using n6)
      (Ne.symm nr.2.2.1) (Ne.symm nb'.2.1) (Ne.symm nt.1)
      (by rw [kk2, if_neg (by simp [np]), if_neg (by simp [np]), kp]) (by rw [kk2, if_neg (by simp [rt]), if_pos rfl])
      (by rw [kk2, if_neg (by simp [nb']), if_neg (by simp [Ne.symm nr.1]), kb']) (by rw [kk2, if_pos rfl])
      (by rw [kk2, if_neg (by simp [Ne.symm nt.1]), if_neg (by simp [Ne.symm nr.2.2.1]), kq]) e)
    g2 (by simp) (by
      intro x hx
      simp only [List.mem_cons, List.not_mem_nil, or_false, not_or] at hx
      rw [kk2, if_neg (by simp [hx]), if_neg (by simp [hx])]) e
  have b1 := behind_next w ac _ _ n1
  have b2 := behind_next w ac _ _ n2
  have b3 := behind_next w ac _ _ n3
  have b4 := behind_next w ac _ _ n4
  have b5 := behind_next w ac _ _ n5
  have b6 := behind_next w ac _ _ n6
  have b7 := behind_next w ac _ _ n7
  have b8 := behind_next w ac _ _ n8
  have kk3 : ∀ x, (((h.setKind (some r) .methodReceiverName).setKind (some t) .methodReceiverType).setKind (some n) .funcName).kind x =
      if x = some n then .funcName else if x = some t then .methodReceiverType else if x = some r then .methodReceiverName else h.kind x := by
    intro x; rw [kind_setKind _ _ _ _ (by simpa using ln), kk2]
  have ka' := keep a (by omega)
  have kb1 := keep b (by omega)
  have kp' := keep p (by omega)
  have kr' := keep r (by omega)
  have kb2 := keep b' (by omega)
  have kt' := keep t (by omega)
  have kq' := keep q (by omega)
  have ks' := keep s (by omega)
  have kn' := keep n (by omega)
  have m1 := ka'.2.2 b (by omega) (by simpa using n1)
  have m2 := kb1.2.2 p (by omega) (by simpa using n2)
  have m3 := kp'.2.2 r (by omega) (by simpa using n3)
  have m4 := kr'.2.2 b' (by omega) (by simpa using n4)
  have m5 := kb2.2.2 t (by omega) (by simpa using n5)
  have m6 := kt'.2.2 q (by omega) (by simpa using n6)
  have m7 := kq'.2.2 s (by omega) (by simpa using n7)
  have m8 := ks'.2.2 n (by omega) (by simpa using n8)
  refine ⟨?_, ?_, ?_, ?_⟩
  · simp [Steps, *]
  · simp only [List.map_cons, List.map_nil, ka'.1, kb1.1, kp'.1, kr'.1, kb2.1, kt'.1, kq'.1, ks'.1, kn'.1, kk3]
    simp only [Option.some.injEq]
    simp [na, nb, np, nr, nb', nt, nq, ns, Ne.symm nr.1, Ne.symm nr.2.1, Ne.symm nt.1, Ne.symm nr.2.2.1, Ne.symm nt.2.1, Ne.symm nr.2.2.2.1, ka, kb, kp, kb', kq, ks]
  · rw [kt'.2.1]; simp
  · rw [kn'.2.1]; simp

/-- `func (T) NAME`: what resetting does to these nodes. -/
theorem resetKind_single {h h' : Heap} {z : Ptr} (w : WF h) (ac : Acyclic h) {a b p t q s n : Addr} {l : List Addr}
    (ch : Chain h (a :: b :: p :: t :: q :: s :: n :: l)) (ka : h.kind (some a) = .func_) (kb : h.kind (some b) = .space)
    (kp : h.kind (some p) = .parenL) (kt : h.kind (some t) = .raw)
    (kq : h.kind (some q) = .parenR) (ks : h.kind (some s) = .space) (kn : h.kind (some n) = .raw)
    (hc : ¬ CalledAtOnce (kindsOf h (a :: b :: p :: t :: q :: s :: n :: l)))
    (e : resetKind h (some a) = some (h', z)) :
    Steps h' [a, b, p, t, q, s, n] ∧
    [a, b, p, t, q, s, n].map (fun x => h'.kind (some x)) = [.func_, .space, .parenL,
      .methodReceiverType, .parenR, .space, .funcName] ∧
    h'.text (some t) = h.text (some t) ∧ h'.text (some n) = h.text (some n) := by
  have nd := ch.nodup
  simp only [List.nodup_cons, List.mem_cons, not_or] at nd
  obtain ⟨na, nb, np, nt, nq, ns, nn, _⟩ := nd
  have adj : ∀ (pre : List Addr) (x y : Addr) (suf : List Addr), a :: b :: p :: t :: q :: s :: n :: l = pre ++ x :: y :: suf →
      h.next (some x) = some y := fun pre x y suf e => (ch.2.2.2 pre x y suf e).1
  have n1 := adj [] a b _ rfl
  have n2 := adj [a] b p _ rfl
  have n3 := adj [a, b] p t _ rfl
  have n6 := adj [a, b, p] t q _ rfl
  have n7 := adj [a, b, p, t] q s _ rfl
  have n8 := adj [a, b, p, t, q] s n _ rfl
  have lt := ch.1 t (by simp)
  have ln := ch.1 n (by simp)
  have o := ok_true ac ch
  have g := good_start w ac ch (X := fun _ => True) trivial
  have hF : ∀ x ∈ a :: b :: p :: t :: q :: s :: n :: l, behind h ac x ≤ h.size :=
    fun x hx => Nat.le_of_lt (behind_lt ac (ch.1 x hx))
  have kk2 : ∀ x, (h.setKind (some t) .methodReceiverType).kind x = if x = some t then .methodReceiverType else h.kind x :=
    fun x => kind_setKind _ _ _ _ lt
  have g2 := g.setKind o (a := t) (k := .methodReceiverType) (by simp [rctx]) (hF t (by simp)) (by rw [kt]; decide) (by decide)
  have keep := resetKind_method (mid := [t]) (h1 := h.setKind (some t) .methodReceiverType)
    w ac ch ka kb kp kq ks kn hc
    (fun d w z e => paren_first_single n3 n6 (Ne.symm nt.1) lt kp kt kq e)
    (fun d w z e => paren_again_single (by simpa using n3) (by simpa using n6) (Ne.symm nt.1)
      (by rw [kk2, if_neg (by simp [np]), kp]) (by rw [kk2, if_pos rfl])
      (by rw [kk2, if_neg (by simp [Ne.symm nt.1]), kq]) e)
    g2 (by simp) (by
      intro x hx
      simp only [List.mem_cons, List.not_mem_nil, or_false, not_or] at hx
      rw [kk2, if_neg (by simp [hx])]) e
  have b1 := behind_next w ac _ _ n1
  have b2 := behind_next w ac _ _ n2
  have b3 := behind_next w ac _ _ n3
  have b6 := behind_next w ac _ _ n6
  have b7 := behind_next w ac _ _ n7
  have b8 := behind_next w ac _ _ n8
  have kk3 : ∀ x, ((h.setKind (some t) .methodReceiverType).setKind (some n) .funcName).kind x =
      if x = some n then .funcName else if x = some t then .methodReceiverType else h.kind x := by
    intro x; rw [kind_setKind _ _ _ _ (by simpa using ln), kk2]
  have ka' := keep a (by omega)
  have kb1 := keep b (by omega)
  have kp' := keep p (by omega)
  have kt' := keep t (by omega)
  have kq' := keep q (by omega)
  have ks' := keep s (by omega)
  have kn' := keep n (by omega)
  have m1 := ka'.2.2 b (by omega) (by simpa using n1)
  have m2 := kb1.2.2 p (by omega) (by simpa using n2)
  have m3 := kp'.2.2 t (by omega) (by simpa using n3)
  have m6 := kt'.2.2 q (by omega) (by simpa using n6)
  have m7 := kq'.2.2 s (by omega) (by simpa using n7)
  have m8 := ks'.2.2 n (by omega) (by simpa using n8)
  refine ⟨?_, ?_, ?_, ?_⟩
  · simp [Steps, *]
  · simp only [List.map_cons, List.map_nil, ka'.1, kb1.1, kp'.1, kt'.1, kq'.1, ks'.1, kn'.1, kk3]
    simp only [Option.some.injEq]
    simp [na, nb, np, nt, nq, ns, Ne.symm nt.1, Ne.symm nt.2.1, ka, kb, kp, kq, ks]
  · rw [kt'.2.1]; simp
  · rw [kn'.2.1]; simp

end Goast
