import Verif.Proofs.Names
import Verif.Spec.Brackets

/-!
# Where the searches for a statement end stop
-/

set_option linter.unusedSimpArgs false
set_option linter.unusedVariables false

namespace Goast
open Heap

theorem counts_step (c : Counts) (k : Kind) : c.step k =
    ⟨c.paren + delta .parenL .parenR k, c.curly + delta .curlyL .curlyR k, c.square + delta .squareL .squareR k⟩ := by
  cases k <;> simp [Counts.step, delta] <;> rfl

/-- The options of the searches for a statement end. -/
abbrev outside : FindOpt :=
  { isOutsideParenthesis := true, isOutsideCurlyBracket := true, isOutsideSquareBracket := true }

theorem findCont_outside (c : Counts) (k : Kind) : findCont [.newLine, .curlyR] outside c k =
    !decide (c.paren = 0 ∧ c.curly = 0 ∧ c.square = 0 ∧ (k = .newLine ∨ k = .curlyR)) := by
  have hk : (CharSet.new [Kind.newLine, .curlyR]).contain k = decide (k = .newLine ∨ k = .curlyR) := by cases k <;> rfl
  unfold findCont
  simp only [outside, hk]
  by_cases h1 : c.paren = 0 <;> by_cases h2 : c.curly = 0 <;> by_cases h3 : c.square = 0 <;> simp [h1, h2, h3]
  all_goals (by_cases h4 : k = .newLine <;> by_cases h5 : k = .curlyR <;> simp [h4, h5])

/-- `findNext` for a line end or `}` outside all brackets. -/
theorem findEnd_loop {h : Heap} (buf : List Ptr) : ∀ (l : List Addr) (p : Ptr) (fuel : Nat) (c : Counts), Fwd h p l → l.length < fuel →
    ∃ c' r l₁ l₂, loop (fun (ws : World × Counts) a => ws.1.heap.next (some a)) (fun ws a =>
        let w := handleHook ws.1 (some a) []
        let k := w.heap.kind (some a)
        let c := ws.2.step k
        some ((w, c), findCont [.newLine, .curlyR] outside c k)) fuel (⟨h, buf⟩, c) p = some ((⟨h, buf⟩, c'), r) ∧
      l = l₁ ++ l₂ ∧ Fwd h r l₂ ∧ kindsOf h l₂ = stmtEnd c.paren c.curly c.square (kindsOf h l) := by
  intro l
  induction l with
  | nil =>
    intro p fuel c f hf
    cases Fwd.nil_iff.1 f
    exact ⟨c, none, [], [], by cases fuel <;> rfl, rfl, f, rfl⟩
  | cons a l ih =>
    intro p fuel c f hf
    obtain ⟨rfl, ha, f'⟩ := Fwd.cons_iff.1 f
    cases fuel with
    | zero => simp at hf
    | succ fuel =>
      simp only [loop, handleHook, List.foldl_nil, findCont_outside]
      by_cases hc : (c.step (h.kind (some a))).paren = 0 ∧ (c.step (h.kind (some a))).curly = 0 ∧
          (c.step (h.kind (some a))).square = 0 ∧ (h.kind (some a) = .newLine ∨ h.kind (some a) = .curlyR)
      · refine ⟨c.step (h.kind (some a)), some a, [], a :: l, by simp [hc], rfl, f, ?_⟩
        rw [counts_step] at hc
        simp only [kindsOf, List.map_cons, stmtEnd]
        rw [if_pos hc]
      · obtain ⟨c', r, l₁, l₂, e, h1, h2, h3⟩ := ih (h.next (some a)) fuel (c.step (h.kind (some a))) f' (by simpa using hf)
        refine ⟨c', r, a :: l₁, l₂, ?_, by rw [h1]; rfl, h2, ?_⟩
        · simp only [hc, decide_false, Bool.not_false]
          simp only [handleHook, List.foldl_nil, findCont_outside] at e
          exact e
        · rw [h3, counts_step]
          rw [counts_step] at hc
          simp only [kindsOf, List.map_cons, stmtEnd]
          rw [if_neg hc]

theorem findEnd {h : Heap} (buf : List Ptr) {l : List Addr} {p : Ptr} (f : Fwd h p l) :
    ∃ r l₁ l₂, findNext ⟨h, buf⟩ p [.newLine, .curlyR] outside [] = some (⟨h, buf⟩, r) ∧
      l = l₁ ++ l₂ ∧ Fwd h r l₂ ∧ kindsOf h l₂ = stmtEnd 0 0 0 (kindsOf h l) := by
  obtain ⟨c', r, l₁, l₂, e, h1, h2, h3⟩ := findEnd_loop buf l p (h.size + 1) {} f (by have := f.length_le; omega)
  refine ⟨r, l₁, l₂, ?_, h1, h2, h3⟩
  unfold findNext iterW
  rw [Option.map_eq_some_iff]
  exact ⟨_, e, rfl⟩

/-- `isTemporaryFunc` recognises functions called on the spot. -/
theorem isTemporaryFunc_iff {h : Heap} (buf : List Ptr) {l : List Addr} {p : Ptr} (f : Fwd h p l) :
    ∃ b, isTemporaryFunc ⟨h, buf⟩ p = some b ∧ (b = true ↔ CalledAtOnce (kindsOf h l)) := by
  obtain ⟨r, l₁, l₂, e, h1, h2, h3⟩ := findEnd buf f
  unfold isTemporaryFunc CalledAtOnce
  rw [← h3]
  simp only [e]
  clear e h3
  cases l₂ with
  | nil =>
    cases Fwd.nil_iff.1 h2
    exact ⟨false, by simp [Heap.kind], by simp [kindsOf]⟩
  | cons a l₂ =>
    obtain ⟨rfl, ha, f'⟩ := Fwd.cons_iff.1 h2
    by_cases hk : h.kind (some a) = .curlyR
    · simp only [hk, ne_eq, not_true_eq_false, if_false]
      refine ⟨_, rfl, ?_⟩
      cases l₂ with
      | nil =>
        cases hn : h.next (some a) with
        | none => simp [kindsOf, Heap.kind]
        | some b => rw [hn] at f'; cases f'
      | cons b l₂ =>
        obtain ⟨e2, _, _⟩ := Fwd.cons_iff.1 f'
        simp [kindsOf, e2, hk]
    · exact ⟨false, by simp [hk], by simp [kindsOf, hk]⟩

/-- Waiting for `q` while walking over the nodes before it. -/
theorem JR.pass_path {σ : Type} {body : World → σ → Addr → Option (World × σ × Ctl)} {w w' : World} {s : σ} {r : Ptr} {q : Addr} :
    ∀ (mid : List Addr) (x : Addr), Path w.heap (x :: (mid ++ [q])) → q ∉ mid →
    JR false [] body w ⟨false, some q, s⟩ (w.heap.next (some x)) w' r → JR false [] body w ⟨false, none, s⟩ (some q) w' r
  | [], x, p, _, run => by
    rw [p.1] at run
    exact run.arrive
  | y :: mid, x, p, hq, run => by
    rw [p.1] at run
    have : q ≠ y := fun e => hq (by simp [e])
    exact JR.pass_path mid y p.2 (fun hh => hq (by simp [hh])) (run.pass this)

/-- A method declaration, whatever its receiver is made of. -/
theorem resetKind_method {h h1 h' : Heap} {r : Ptr} (w : WF h) (ac : Acyclic h) {a b p q s n : Addr} {mid l : List Addr}
    (ch : Chain h (a :: b :: p :: (mid ++ q :: s :: n :: l))) (ka : h.kind (some a) = .func_) (kb : h.kind (some b) = .space)
    (kp : h.kind (some p) = .parenL) (kq : h.kind (some q) = .parenR) (ks : h.kind (some s) = .space)
    (kn : h.kind (some n) = .raw) (hc : ¬ CalledAtOnce (kindsOf h (a :: b :: p :: (mid ++ q :: s :: n :: l))))
    (first : ∀ d w z, parenRun (d + 2) false true ⟨h, []⟩ (some p) [] = some (w, z) → w = ⟨h1, []⟩ ∧ z = some q)
    (again : ∀ d w z, parenRun (d + 2) false false ⟨h1, []⟩ (some p) [] = some (w, z) → w = ⟨h1, []⟩ ∧ z = some q)
    (g1 : Good (rctx h ac (a :: b :: p :: (mid ++ q :: s :: n :: l)) fun _ => True) h1)
    (n1 : ∀ x, h1.next x = h.next x) (k1 : ∀ x, x ∉ mid → h1.kind (some x) = h.kind (some x))
    (e : resetKind h (some a) = some (h', r)) :
    KeepFrom (behind h ac) (behind h ac n) (h1.setKind (some n) .funcName) h' := by
  have nd := ch.nodup
  simp only [List.nodup_cons, List.nodup_append, List.mem_cons, List.mem_append, not_or] at nd
  have hb : b ∉ mid := fun hh => nd.2.1.2.1 hh
  have hp : p ∉ mid := fun hh => nd.2.2.1.1 hh
  have hq : q ∉ mid := fun hh => nd.2.2.2.2.2 q hh q (.inl rfl) rfl
  have hs : s ∉ mid := fun hh => nd.2.2.2.2.2 s hh s (.inr (.inl rfl)) rfl
  have hn : n ∉ mid := fun hh => nd.2.2.2.2.2 n hh n (.inr (.inr (.inl rfl))) rfl
  have o := ok_true ac ch
  have nab : h.next (some a) = some b := (ch.2.2.2 [] a b _ rfl).1
  have nbp : h.next (some b) = some p := (ch.2.2.2 [a] b p _ rfl).1
  have nqs : h.next (some q) = some s := (ch.2.2.2 (a :: b :: p :: mid) q s _ (by simp; rfl)).1
  have nsn : h.next (some s) = some n := (ch.2.2.2 (a :: b :: p :: (mid ++ [q])) s n l (by simp)).1
  have path : Path h (p :: (mid ++ [q])) := by
    have : ∀ (m : List Addr) (x : Addr) (pre suf : List Addr), a :: b :: p :: (mid ++ q :: s :: n :: l) = pre ++ x :: (m ++ q :: suf) →
        Path h (x :: (m ++ [q])) := by
      intro m
      induction m with
      | nil => intro x pre suf e; exact ⟨(ch.2.2.2 pre x q _ e).1, trivial⟩
      | cons y m ih =>
        intro x pre suf e
        exact ⟨(ch.2.2.2 pre x y _ e).1, ih y (pre ++ [x]) suf (by rw [e]; simp)⟩
    exact this mid p [a, b] (s :: n :: l) rfl
  have path1 : Path h1 (p :: (mid ++ [q])) := path_congr n1 _ path
  have sn : (rctx h ac (a :: b :: p :: (mid ++ q :: s :: n :: l)) fun _ => True).S n := by simp [rctx]
  have hlt : behind h ac n < h.size := behind_lt ac (ch.1 n (by simp))
  unfold resetKind at e
  simp only [ka] at e
  obtain ⟨d, hd, hd'⟩ : ∃ d, resetDepth h = d + 4 ∧ 8 * behind h ac n + 2 ≤ d + 2 := ⟨8 * h.size + 4, by unfold resetDepth; omega, by omega⟩
  rw [hd, funcRun_eq _ _ _ ka, Option.map_eq_some_iff] at e
  obtain ⟨⟨w', r'⟩, e, e'⟩ := e
  cases e'
  obtain ⟨t, ht, ht'⟩ := isTemporaryFunc_iff (h := h) [] ch.fwd
  simp only [List.head?_cons] at ht
  have : t = false := by
    cases t with
    | false => rfl
    | true => exact absurd (ht'.1 rfl) hc
  subst this
  simp only [ht, nab] at e
  have run := JR.of_jumpLoop e
  have run := run.cont (w1 := ⟨h, []⟩) (s1 := (false, false)) (by simp [funcBody, kb])
  simp only [nbp] at run
  -- the receiver
  obtain ⟨x, hx⟩ := run.some_body
  have hb1 : funcBody (d + 3) (some b) ⟨h, []⟩ (false, false) p = toJump (parenRun (d + 3) false true ⟨h, []⟩ (some p) []) (true, false) := by
    simp [funcBody, kp]
  cases hg : parenRun (d + 3) false true ⟨h, []⟩ (some p) [] with
  | none => rw [hb1, hg] at hx; simp [toJump] at hx
  | some y =>
    obtain ⟨w1, q1⟩ := y
    have run := run.jump (w1 := w1) (s1 := (true, false)) (q := q1) (by rw [hb1, hg]; rfl)
    obtain ⟨rfl, rfl⟩ := first _ _ _ hg
    simp only [reduceCtorEq, decide_false] at run
    have run := run.pass_path mid p path1 hq
    -- at the closing bracket
    obtain ⟨x, hx⟩ := run.some_body
    have hb2 : funcBody (d + 3) (some b) ⟨h1, []⟩ (true, false) q =
        toJump (generalFunc (d + 3) ⟨h1, []⟩ (some b) [.newLine] []) (true, false) := by
      simp [funcBody, k1 q hq, kq]
    cases hg2 : generalFunc (d + 3) ⟨h1, []⟩ (some b) [.newLine] [] with
    | none => rw [hb2, hg2] at hx; simp [toJump] at hx
    | some y =>
      obtain ⟨w2, q2⟩ := y
      have run := run.jump (w1 := w2) (s1 := (true, false)) (q := q2) (by rw [hb2, hg2]; rfl)
      rw [generalFunc_eq] at hg2
      simp only [k1 b hb, kb, reduceCtorEq, if_false] at hg2
      have grun := JR.of_jumpLoop hg2
      have grun := grun.cont (w1 := ⟨h1, []⟩) (s1 := (false, false)) (by simp [generalBody, nlSet_contain, k1 b hb, kb])
      simp only [n1, nbp] at grun
      obtain ⟨x, hx⟩ := grun.some_body
      have hb3 : generalBody (d + 2) nlSet [] ⟨h1, []⟩ (false, false) p = toJump (parenRun (d + 2) false false ⟨h1, []⟩ (some p) []) (false, true) := by
        simp [generalBody, nlSet_contain, k1 p hp, kp]
      cases hg3 : parenRun (d + 2) false false ⟨h1, []⟩ (some p) [] with
      | none =>
        have hx : generalBody (d + 2) nlSet [] ⟨h1, []⟩ (false, false) p = some x := hx
        rw [hb3, hg3] at hx; simp [toJump] at hx
      | some y =>
        obtain ⟨w3, q3⟩ := y
        have grun := JR.jump (w1 := w3) (s1 := (false, true)) (q := q3) (body := generalBody (d + 2) nlSet []) grun (by rw [hb3, hg3]; rfl)
        obtain ⟨rfl, rfl⟩ := again _ _ _ hg3
        simp only [reduceCtorEq, decide_false] at grun
        have grun := grun.pass_path mid p path1 hq
        have grun := grun.cont (w1 := ⟨h1, []⟩) (s1 := (false, true)) (by simp [generalBody, nlSet_contain, k1 q hq, kq])
        simp only [n1, nqs] at grun
        have grun := grun.cont (w1 := ⟨h1, []⟩) (s1 := (false, true)) (by simp [generalBody, nlSet_contain, k1 s hs, ks])
        simp only [n1, nsn] at grun
        obtain ⟨_, kp, kz⟩ := general_name o sn (Nat.le_of_lt hlt) g1 hd' (by rw [k1 n hn, kn]) grun
        have := funcBody_idle kz run
        subst this; exact kp

end Goast
