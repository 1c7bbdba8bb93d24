import Verif.Proofs.Keep

/-!
# Where the resetters put the declared names
-/

set_option linter.unusedSimpArgs false
set_option linter.unusedVariables false

namespace Goast
open Heap

variable {c : RCtx}

/-- A finished run of a loop whose body keeps the invariant keeps it. -/
theorem JR.inv (o : c.OK) {σ : Type} {consume : Bool} {hooks : List Hook} (hh : c.H hooks)
    {body : World → σ → Addr → Option (World × σ × Ctl)} {M : Nat} (hM : M ≤ c.F)
    (hbody : ∀ w s a, Inv c w → c.S a → c.f a ≤ M → TotB c (body w s a))
    {w : World} (i : Inv c w) {j : JState σ} {p : Ptr} (hp : c.P M p) {w' : World} {r : Ptr}
    (run : JR consume hooks body w j p w' r) : Inv c w' ∧ c.P M r := by
  obtain ⟨w1, j1, r1, e, h1, h2⟩ := jump_rule o consume hooks hh body hM hbody i j hp (fuel := c.h0.size)
    (fun a ha => o.bound a (hp a ha).1)
  obtain ⟨j', run⟩ := run
  obtain ⟨e1, e2⟩ := run.det ⟨_, e⟩
  cases e1; cases e2
  exact ⟨h1, h2⟩

/-- Everything from rank `F` on keeps kind, text and the links among it. -/
def KeepFrom (f : Addr → Nat) (F : Nat) (h1 h : Heap) : Prop :=
  ∀ x, F ≤ f x → h.kind (some x) = h1.kind (some x) ∧ h.text (some x) = h1.text (some x) ∧
    ∀ y, F ≤ f y → h1.next (some x) = some y → h.next (some x) = some y

theorem KeepFrom.refl (f : Addr → Nat) (F : Nat) (h : Heap) : KeepFrom f F h h := fun _ _ => ⟨rfl, rfl, fun _ _ e => e⟩

/-- The part of a loop behind the node `n` keeps `n` and everything before it. -/
theorem JR.keep (o : c.OK) {σ : Type} {consume : Bool} {body : World → σ → Addr → Option (World × σ × Ctl)}
    {w w' : World} {j : JState σ} {r : Ptr} {n : Addr} (sn : c.S n) (fn : c.f n ≤ c.F) (g : Good c w.heap) (hb : w.buf = [])
    (hbody : ∀ q, c.f q < c.f n → ∀ w' s x, Inv (c.under (c.f q) w.heap) w' → c.S x →
      c.f x ≤ c.f q → TotB (c.under (c.f q) w.heap) (body w' s x))
    (run : JR consume [] body w j (w.heap.next (some n)) w' r) : Good c w'.heap ∧ KeepFrom c.f (c.f n) w.heap w'.heap := by
  cases hq : w.heap.next (some n) with
  | none =>
    rw [hq] at run
    obtain ⟨rfl, _⟩ := run.end_
    exact ⟨g, .refl _ _ _⟩
  | some q =>
    rw [hq] at run
    obtain ⟨sq, fq⟩ := g.next_lt o sn q hq
    have i : Inv (c.under (c.f q) w.heap) w := by
      have := Inv.under g (c.f q)
      have e : w = ⟨w.heap, []⟩ := by cases w; simp_all
      rw [← e] at this; exact this
    have ou := o.under (F := c.f q) (by omega) w.heap
    obtain ⟨i', _⟩ := run.inv ou H_nil (M := c.f q) (Nat.le_refl _)
      (fun w' s x i sx fx => hbody q fq w' s x i sx fx) i (.some sq (Nat.le_refl _))
    refine ⟨i'.good.of_under, fun x hx => ?_⟩
    have kp : Keep c.f (c.f q) w.heap w'.heap := i'.good.keep
    obtain ⟨k1, k2, k3⟩ := kp x (by omega)
    exact ⟨k1, k2, fun y hy e => k3 y (by omega) e⟩

/-! ## The callbacks by name -/

/-- The callback of `handleGeneralFunc`. -/
def generalBody (d : Nat) (cs : CharSet Kind) (hooks : List Hook) (w : World) (s : Bool × Bool) (a : Addr) :
    Option (World × (Bool × Bool) × Ctl) :=
  let k := w.heap.kind (some a)
  if cs.contain k then some (w, s, if s.2 then .stop else .cont)
  else match k with
  | .comment => some (w, s, .cont)
  | .raw =>
    if s.1 = false then
      some ({ w with heap := w.heap.setKind (some a) .funcName }, (true, s.2), .cont)
    else some (w, s, .cont)
  | .space =>
    if s.1 = true ∧ s.2 = true then toJump (singleReturn d w (some a) hooks) s
    else some (w, s, .cont)
  | .parenL => toJump (parenRun d false false w (some a) hooks) (s.1, true)
  | .curlyL => toJump (curlyRun w (some a) hooks) s
  | .squareL => toJump (squareRun w (some a) hooks) (s.1, true)
  | _ => some (w, s, .cont)

theorem generalFunc_eq (d : Nat) (w : World) (head : Ptr) (rk : List Kind) :
    generalFunc (d + 1) w head rk [] = jumpLoop false []
      (generalBody d (if rk.length ≠ 0 then CharSet.new rk else CharSet.new [.newLine]) []) w (false, false)
      (if w.heap.kind head = .func_ then w.heap.next head else head) := by
  rw [generalFunc]
  by_cases hk : w.heap.kind head = .func_
  · simp only [hk, decide_true, if_true, handleHook, List.foldl_nil]; rfl
  · simp only [hk, decide_false, if_false, Bool.false_eq_true]; rfl

theorem generalBody_inv (o : c.OK) {M d : Nat} (cs : CharSet Kind) {hooks : List Hook} (hh : c.H hooks) {w : World} (i : Inv c w)
    (hM : M ≤ c.F) {a : Addr} (sa : c.S a) (fa : c.f a ≤ M) (s : Bool × Bool) (hd : 8 * M + 2 ≤ d) :
    TotB c (generalBody d cs hooks w s a) := by
  have ha : c.P M (some a) := .some sa fa
  have ih := fns o d
  unfold generalBody
  dsimp only
  split
  · exact .same i _ _
  · split
    · exact .same i _ _
    · rename_i hk
      split
      · exact .same (i.setKind o sa (Nat.le_trans fa hM) (by rw [hk]; decide) (by decide)) _ _
      · exact .same i _ _
    · split
      · exact (ih.single M w (some a) hooks hM hh i ha (by omega)).jump _
      · exact .same i _ _
    · exact (ih.paren M _ _ w (some a) hooks hM hh i ha (by omega)).jump _
    · exact (show Tot c M _ from skipNestNext_inv o i hM ha _ _ hh).jump _
    · exact (show Tot c M _ from skipNestNext_inv o i hM ha _ _ hh).jump _
    · exact .same i _ _

/-- The callback of `typeResetter.Run`. -/
def typeBody (d : Nat) (w : World) (s : Bool × Bool) (a : Addr) : Option (World × (Bool × Bool) × Ctl) :=
  let k := w.heap.kind (some a)
  if s.1 = false then
    match k with
    | .curlyR | .newLine => some (w, s, .stop)
    | .raw => some ({ w with heap := w.heap.setKind (some a) .typeName }, (true, s.2), .cont)
    | _ => some (w, s, .cont)
  else if s.2 = false then
    match k with
    | .space => some (w, (s.1, true), .cont)
    | .squareL => toJump (squareRun w (some a) []) s
    | _ => some (w, s, .cont)
  else match k with
    | .comment => some (w, s, .cont)
    | .interface_ => toJump (interfaceRun d w (some a)) s
    | .struct_ => toJump (structRun d w (some a)) s
    | .func_ => toJump (funcRun d { isNotMethod := true } w (some a) []) s
    | .raw => toJump (paramRun d w (some a)) s
    | .squareL => toJump (squareRun w (some a) []) s
    | _ => some (w, s, .cont)

theorem typeRun_eq (d : Nat) (w : World) (head : Ptr) : typeRun d w head =
    if w.heap.kind head ≠ .type_ then some (w, w.heap.next head)
    else jumpLoop true [] (typeBody d) w (false, false) head := rfl

theorem typeBody_inv (o : c.OK) {M d : Nat} {w : World} (i : Inv c w) (hM : M ≤ c.F) {a : Addr} (sa : c.S a) (fa : c.f a ≤ M)
    (hparam : w.heap.kind (some a) = .raw → Tot c M (paramRun d w (some a)))
    (s : Bool × Bool) (hd : 8 * M + 5 ≤ d) : TotB c (typeBody d w s a) := by
  have ha : c.P M (some a) := .some sa fa
  unfold typeBody
  dsimp only
  split
  · split
    · exact .same i _ _
    · exact .same i _ _
    · rename_i hk; exact .same (i.setKind o sa (Nat.le_trans fa hM) (by rw [hk]; decide) (by decide)) _ _
    · exact .same i _ _
  · split
    · split
      · exact .same i _ _
      · exact (show Tot c M _ from skipNestNext_inv o i hM ha _ _ H_nil).jump _
      · exact .same i _ _
    · split
      · exact .same i _ _
      · exact (interfaceRun_inv o i hM ha hd).jump _
      · exact (structRun_inv o i hM ha hd).jump _
      · exact ((fns o d).func M _ w (some a) [] hM H_nil i ha hd).jump _
      · rename_i hk; exact (hparam hk).jump _
      · exact (show Tot c M _ from skipNestNext_inv o i hM ha _ _ H_nil).jump _
      · exact .same i _ _

/-! ## type NAME -/

/-- `type`, a space and a name: the name gets its kind, and these three nodes stay as they are. -/
theorem resetKind_type_name {h h' : Heap} {r : Ptr} (w : WF h) (ac : Acyclic h) {a b n : Addr} {l : List Addr}
    (ch : Chain h (a :: b :: n :: l)) (ka : h.kind (some a) = .type_) (kb : h.kind (some b) = .space)
    (kn : h.kind (some n) = .raw) (e : resetKind h (some a) = some (h', r)) :
    h'.next (some a) = some b ∧ h'.next (some b) = some n ∧ h'.kind (some a) = .type_ ∧ h'.kind (some b) = .space ∧
      h'.kind (some n) = .typeName ∧ h'.text (some n) = h.text (some n) := by
  have o := ok_true ac ch
  have g := good_start w ac ch (X := fun _ => True) trivial
  have nab : h.next (some a) = some b := (ch.2.2.2 [] a b _ rfl).1
  have nbn : h.next (some b) = some n := (ch.2.2.2 [a] b n _ rfl).1
  have sn : (rctx h ac (a :: b :: n :: l) fun _ => True).S n := by simp [rctx]
  have hlt : ∀ x ∈ a :: b :: n :: l, behind h ac x < h.size := fun x hx => behind_lt ac (ch.1 x hx)
  unfold resetKind at e
  simp only [ka] at e
  rw [typeRun_eq, if_neg (by simp [ka])] at e
  rw [Option.map_eq_some_iff] at e
  obtain ⟨⟨w', r'⟩, e, e'⟩ := e
  cases e'
  have run := JR.of_jumpLoop e
  have run := run.cont (w1 := ⟨h, []⟩) (s1 := (false, false)) (by simp [typeBody, ka])
  simp only [nab] at run
  have run := run.cont (w1 := ⟨h, []⟩) (s1 := (false, false)) (by simp [typeBody, kb])
  simp only [nbn] at run
  have run := run.cont (w1 := ⟨h.setKind (some n) .typeName, []⟩) (s1 := (true, false)) (by simp [typeBody, kn])
  have g2 : Good (rctx h ac (a :: b :: n :: l) fun _ => True) (h.setKind (some n) .typeName) :=
    g.setKind o sn (Nat.le_of_lt (hlt n (by simp))) (by rw [kn]; decide) (by decide)
  have hd : 8 * h.size + 5 ≤ resetDepth h := by unfold resetDepth; omega
  obtain ⟨_, keep⟩ := run.keep o sn (Nat.le_of_lt (hlt n (by simp))) g2 rfl (by
    intro q fq w' s x i sx fx
    have fq' : behind h ac q < behind h ac n := fq
    have := hlt n (by simp)
    have ou := o.under (F := behind h ac q) (show behind h ac q ≤ h.size by omega) (h.setKind (some n) .typeName)
    refine typeBody_inv ou i (Nat.le_refl _) sx fx ?_ s (by show 8 * behind h ac q + 5 ≤ _; omega)
    intro hk
    refine paramRun_inv ou ?_ i (Nat.le_refl _) (Nat.le_refl _) (.some sx fx) (by show 8 * behind h ac q + 5 ≤ _; omega)
    intro h1 n1 rest h2 g1 s1 f1 nc1 hr e1
    exact ⟨trivial, g1.keep.trans ((keep_merge o g1.of_under s1 hr e1).mono f1)⟩)
  have fab : behind h ac b < behind h ac a := behind_next w ac a b nab
  have fbn : behind h ac n < behind h ac b := behind_next w ac b n nbn
  obtain ⟨a1, a2, a3⟩ := keep a (show behind h ac n ≤ behind h ac a by omega)
  obtain ⟨b1, b2, b3⟩ := keep b (show behind h ac n ≤ behind h ac b by omega)
  obtain ⟨n1, n2, n3⟩ := keep n (Nat.le_refl _)
  have ln := ch.1 n (by simp)
  have na : some a ≠ some n := by rintro hh; cases hh; omega
  have nb : some b ≠ some n := by rintro hh; cases hh; omega
  refine ⟨a3 b (show behind h ac n ≤ behind h ac b by omega) (by simpa using nab), b3 n (Nat.le_refl _) (by simpa using nbn), ?_, ?_, ?_, ?_⟩
  · rw [a1, kind_setKind _ _ _ _ ln, if_neg na, ka]
  · rw [b1, kind_setKind _ _ _ _ ln, if_neg nb, kb]
  · rw [n1, kind_setKind _ _ _ _ ln, if_pos rfl]
  · rw [n2, text_setKind]

/-! ## func NAME -/

/-- The kinds at which `handleGeneralFunc` returns for a declaration. -/
abbrev nlSet : CharSet Kind := CharSet.new [.newLine]

theorem nlSet_contain (k : Kind) : nlSet.contain k = decide (k = .newLine) := by
  cases k <;> rfl

theorem toJump_stop {σ : Type} {r : Option (World × Ptr)} {s s1 : σ} {w : World} : toJump r s ≠ some (w, s1, .stop) := by
  rcases r with _ | ⟨w', p⟩ <;> simp [toJump]

/-- `handleGeneralFunc` stops at line ends only, and does nothing there. -/
theorem generalBody_stop {d : Nat} {hooks : List Hook} {w w' : World} {s s1 : Bool × Bool} {a : Addr}
    (e : generalBody d nlSet hooks w s a = some (w', s1, .stop)) : w' = w ∧ w.heap.kind (some a) = .newLine := by
  unfold generalBody at e
  dsimp only at e
  rw [nlSet_contain] at e
  split at e
  · rename_i hk
    simp at e
    exact ⟨e.1.symm, by simpa using hk⟩
  · split at e
    · simp at e
    · split at e <;> simp at e
    · split at e
      · exact absurd e toJump_stop
      · simp at e
    · exact absurd e toJump_stop
    · exact absurd e toJump_stop
    · exact absurd e toJump_stop
    · simp at e

/-- `handleGeneralFunc` at the first identifier: it becomes the name, and everything up to it stays. -/
theorem general_name (o : c.OK) {d : Nat} {h : Heap} {w' : World} {r : Ptr} {n : Addr} {x : Bool} (sn : c.S n) (fn : c.f n ≤ c.F)
    (g : Good c h) (hd : 8 * c.f n + 2 ≤ d) (kn : h.kind (some n) = .raw)
    (run : JR false [] (generalBody d nlSet []) ⟨h, []⟩ ⟨false, none, (false, x)⟩ (some n) w' r) :
    Good c w'.heap ∧ KeepFrom c.f (c.f n) (h.setKind (some n) .funcName) w'.heap ∧
      ∀ z, r = some z → w'.heap.kind (some z) = .newLine := by
  have stp : ∀ z, r = some z → w'.heap.kind (some z) = .newLine := by
    rintro z rfl
    obtain ⟨w0, s0, s1, e⟩ := run.stopped
    obtain ⟨rfl, hk⟩ := generalBody_stop e
    exact hk
  have run := run.cont (w1 := ⟨h.setKind (some n) .funcName, []⟩) (s1 := (true, x)) (by
    simp [generalBody, nlSet_contain, kn])
  have g2 : Good c (h.setKind (some n) .funcName) := g.setKind o sn fn (by rw [kn]; decide) (by decide)
  obtain ⟨h1, h2⟩ := run.keep o sn fn g2 rfl (by
    intro q fq w' s x i sx fx
    have ou := o.under (F := c.f q) (by omega) (h.setKind (some n) .funcName)
    exact generalBody_inv ou _ H_nil i (Nat.le_refl _) sx fx s (by show 8 * c.f q + 2 ≤ _; omega))
  exact ⟨h1, h2, stp⟩

/-- The callback of `funcResetter.Run`. -/
def funcBody (d : Nat) (head : Ptr) (w : World) (s : Bool × Bool) (a : Addr) : Option (World × (Bool × Bool) × Ctl) :=
  let k := w.heap.kind (some a)
  if s.1 = false ∧ k ≠ .raw ∧ k ≠ .parenL then some (w, s, .cont)
  else
    let isMethod := if s.1 = false then decide (k = .parenL) else s.2
    if isMethod then toJump (parenRun d false true w (some a) []) (true, false)
    else if k = .newLine then some (w, (true, false), .stop)
    else toJump (generalFunc d w head [.newLine] []) (true, false)

/-- A func scope, by whether the function is called on the spot. -/
theorem funcRun_eq (d : Nat) (w : World) (head : Ptr) (hk : w.heap.kind head = .func_) :
    funcRun (d + 1) { isFuncKeywordLeading := true } w head [] =
      match isTemporaryFunc w head with
      | none => none
      | some true => generalFunc d w head [.newLine] []
      | some false => jumpLoop false [] (funcBody d (w.heap.next head)) w (false, false) (w.heap.next head) := by
  rw [funcRun]
  simp only [Bool.false_eq_true, if_false, if_true, hk, ne_eq, not_true_eq_false, and_false, handleHook, List.foldl_nil]
  rfl

/-- After the name was found, the loop of `funcResetter.Run` does nothing more. -/
theorem funcBody_idle {d : Nat} {head p : Ptr} {w w' : World} {r q : Ptr}
    (hz : ∀ z, q = some z → w.heap.kind (some z) = .newLine)
    (run : JR false [] (funcBody d head) w ⟨decide (q = none), q, (true, false)⟩ p w' r) : w' = w := by
  cases q with
  | none =>
    simp only [decide_true] at run
    exact run.skipAll.1
  | some z =>
    simp only [reduceCtorEq, decide_false] at run
    exact (run.idle ⟨(true, false), by simp [funcBody, hz z rfl]⟩).1

/-- `func`, a space and a name. -/
theorem resetKind_func_name {h h' : Heap} {r : Ptr} (w : WF h) (ac : Acyclic h) {a b n : Addr} {l : List Addr}
    (ch : Chain h (a :: b :: n :: l)) (ka : h.kind (some a) = .func_) (kb : h.kind (some b) = .space)
    (kn : h.kind (some n) = .raw) (e : resetKind h (some a) = some (h', r)) :
    h'.next (some a) = some b ∧ h'.next (some b) = some n ∧ h'.kind (some a) = .func_ ∧ h'.kind (some b) = .space ∧
      h'.kind (some n) = .funcName ∧ h'.text (some n) = h.text (some n) := by
  have o := ok_true ac ch
  have g := good_start w ac ch (X := fun _ => True) trivial
  have nab : h.next (some a) = some b := (ch.2.2.2 [] a b _ rfl).1
  have nbn : h.next (some b) = some n := (ch.2.2.2 [a] b n _ rfl).1
  have sn : (rctx h ac (a :: b :: n :: l) fun _ => True).S n := by simp [rctx]
  have hlt : ∀ x ∈ a :: b :: n :: l, behind h ac x < h.size := fun x hx => behind_lt ac (ch.1 x hx)
  have hn := hlt n (by simp)
  have fab : behind h ac b < behind h ac a := behind_next w ac a b nab
  have fbn : behind h ac n < behind h ac b := behind_next w ac b n nbn
  have ln := ch.1 n (by simp)
  have na : some a ≠ some n := by rintro hh; cases hh; omega
  have nb : some b ≠ some n := by rintro hh; cases hh; omega
  have fin : KeepFrom (behind h ac) (behind h ac n) (h.setKind (some n) .funcName) h' →
      h'.next (some a) = some b ∧ h'.next (some b) = some n ∧ h'.kind (some a) = .func_ ∧ h'.kind (some b) = .space ∧
      h'.kind (some n) = .funcName ∧ h'.text (some n) = h.text (some n) := by
    intro keep
    obtain ⟨a1, a2, a3⟩ := keep a (show behind h ac n ≤ behind h ac a by omega)
    obtain ⟨b1, b2, b3⟩ := keep b (show behind h ac n ≤ behind h ac b by omega)
    obtain ⟨n1, n2, n3⟩ := keep n (Nat.le_refl _)
    refine ⟨a3 b (show behind h ac n ≤ behind h ac b by omega) (by simpa using nab), b3 n (Nat.le_refl _) (by simpa using nbn), ?_, ?_, ?_, ?_⟩
    · rw [a1, kind_setKind _ _ _ _ ln, if_neg na, ka]
    · rw [b1, kind_setKind _ _ _ _ ln, if_neg nb, kb]
    · rw [n1, kind_setKind _ _ _ _ ln, if_pos rfl]
    · rw [n2, text_setKind]
  unfold resetKind at e
  simp only [ka] at e
  obtain ⟨d, hd, hd'⟩ : ∃ d, resetDepth h = d + 2 ∧ 8 * h.size ≤ d := ⟨8 * h.size + 6, by unfold resetDepth; omega, by omega⟩
  rw [hd, funcRun_eq _ _ _ ka, Option.map_eq_some_iff] at e
  obtain ⟨⟨w', r'⟩, e, e'⟩ := e
  cases e'
  -- the walk of `handleGeneralFunc` from the space on
  have gen : ∀ w1 r1, JR false [] (generalBody d nlSet []) ⟨h, []⟩ ⟨false, none, (false, false)⟩ (some b) w1 r1 →
      KeepFrom (behind h ac) (behind h ac n) (h.setKind (some n) .funcName) w1.heap ∧
        ∀ z, r1 = some z → w1.heap.kind (some z) = .newLine := by
    intro w1 r1 run
    have run := run.cont (w1 := ⟨h, []⟩) (s1 := (false, false)) (by simp [generalBody, nlSet_contain, kb])
    simp only [nbn] at run
    exact (general_name o sn (Nat.le_of_lt hn) g (by show 8 * behind h ac n + 2 ≤ d; omega) kn run).2
  split at e
  · cases e
  · rw [generalFunc_eq] at e
    simp only [ka, if_true, nab] at e
    exact fin (gen _ _ (JR.of_jumpLoop e)).1
  · simp only [nab] at e
    have run := JR.of_jumpLoop e
    have run := run.cont (w1 := ⟨h, []⟩) (s1 := (false, false)) (by simp [funcBody, kb])
    simp only [nbn] at run
    obtain ⟨x, hx⟩ := run.some_body
    have hx' := hx
    simp [funcBody, kn] at hx'
    cases hg : generalFunc (d + 1) ⟨h, []⟩ (some b) [.newLine] [] with
    | none => rw [hg] at hx'; simp [toJump] at hx'
    | some y =>
      obtain ⟨w1, q⟩ := y
      have run := run.jump (w1 := w1) (s1 := (true, false)) (q := q) (by simp [funcBody, kn, hg, toJump])
      rw [generalFunc_eq] at hg
      simp only [kb, reduceCtorEq, if_false] at hg
      obtain ⟨k1, k2⟩ := gen _ _ (JR.of_jumpLoop hg)
      have := funcBody_idle k2 run
      subst this; exact fin k1

/-! ## func (r T) NAME -/

/-- The callback of `parenthesisResetter.Run`. -/
def parenBody (d : Nat) (isReceiver : Bool) (w : World) (_ : Unit) (a : Addr) : Option (World × Unit × Ctl) :=
  match w.heap.kind (some a) with
  | .parenR => some (w, (), .stop)
  | .comment | .comma | .parenL | .tab | .newLine | .space => some (w, (), .cont)
  | _ => toJump (parenParam d isReceiver w (some a) []) ()

theorem parenRun_eq (d : Nat) (rec : Bool) (w : World) (head : Ptr) (hk : w.heap.kind head = .parenL) :
    parenRun (d + 1) false rec w head [] = jumpLoop false [] (parenBody d rec) w () head := by
  rw [parenRun]
  simp only [Bool.false_eq_true, if_false, hk, ne_eq, not_true_eq_false]
  rfl

/-- The callback of `handleParenthesisParam`. -/
def pparamBody (d : Nat) (isReceiver : Bool) (count : Nat) (w : World) (named : Bool) (a : Addr) :
    Option (World × Bool × Ctl) :=
  match w.heap.kind (some a) with
  | .comma | .parenR => some (w, named, .stop)
  | .squareL => toJump (squareRun w (some a) []) named
  | .comment | .parenL | .tab | .newLine | .space => some (w, named, .cont)
  | .func_ => toJump (funcRun d { isParameter := true } w (some a) []) named
  | .raw | .paramType | .paramName =>
    if count = 1 then
      some ({ w with heap := w.heap.setKind (some a) (if isReceiver then .methodReceiverType else .paramType) }, named, .cont)
    else if named = false then
      some ({ w with heap := w.heap.setKind (some a) (if isReceiver then .methodReceiverName else .paramName) }, true, .cont)
    else some ({ w with heap := w.heap.setKind (some a) (if isReceiver then .methodReceiverType else .paramType) }, named, .cont)
  | _ => some (w, named, .cont)

theorem parenParam_eq (d : Nat) (rec : Bool) (w : World) (head : Ptr) : parenParam (d + 1) rec w head [] =
    match validParamCount w head with
    | none => none
    | some count => jumpLoop false [] (pparamBody d rec count) w false head := by
  rw [parenParam]; rfl

/-- The callback of `validParamCount`. -/
def countFn (ws : World × Nat) (a : Addr) : Option ((World × Nat) × Bool) :=
  match ws.1.heap.kind (some a) with
  | .comma | .parenR => some (ws, false)
  | .space | .tab | .comment | .newLine => some (ws, true)
  | _ => some ((ws.1, ws.2 + 1), true)

theorem validParamCount_runs {w : World} {head : Ptr} {n : Nat} (e : validParamCount w head = some n) :
    ∃ w' r, Runs (fun (ws : World × Nat) a => ws.1.heap.next (some a)) countFn (w, 0) head (w', n) r := by
  unfold validParamCount iterW at e
  rw [Option.map_eq_some_iff] at e
  obtain ⟨⟨⟨w', n'⟩, r⟩, e, rfl⟩ := e
  exact ⟨w', r, _, e⟩

section
variable {h : Heap} {w' : World} {z : Ptr} {p r b t q : Addr}

/-- The second look at a receiver: all its nodes are labelled already. -/
theorem paren_again_named {d : Nat} (npr : h.next (some p) = some r) (nrb : h.next (some r) = some b)
    (nbt : h.next (some b) = some t) (ntq : h.next (some t) = some q)
    (d1 : q ≠ r) (d2 : q ≠ b) (d3 : q ≠ t)
    (kp : h.kind (some p) = .parenL) (kr : h.kind (some r) = .methodReceiverName) (kb : h.kind (some b) = .space)
    (kt : h.kind (some t) = .methodReceiverType) (kq : h.kind (some q) = .parenR)
    (e : parenRun (d + 2) false false ⟨h, []⟩ (some p) [] = some (w', z)) : w' = ⟨h, []⟩ ∧ z = some q := by
  rw [parenRun_eq _ _ _ _ kp] at e
  have run := JR.of_jumpLoop e
  have run := run.cont (w1 := ⟨h, []⟩) (s1 := ()) (by simp [parenBody, kp])
  simp only [npr] at run
  obtain ⟨x, hx⟩ := run.some_body
  have hb : parenBody (d + 1) false ⟨h, []⟩ () r = toJump (parenParam (d + 1) false ⟨h, []⟩ (some r) []) () := by
    simp [parenBody, kr]
  cases hg : parenParam (d + 1) false ⟨h, []⟩ (some r) [] with
  | none => rw [hb, hg] at hx; simp [toJump] at hx
  | some y =>
    obtain ⟨w1, q1⟩ := y
    have run := run.jump (w1 := w1) (s1 := ()) (q := q1) (by rw [hb, hg]; rfl)
    rw [parenParam_eq] at hg
    split at hg
    · cases hg
    · rename_i n hn
      have prun := JR.of_jumpLoop hg
      have prun := prun.cont (w1 := ⟨h, []⟩) (s1 := false) (by simp [pparamBody, kr])
      simp only [nrb] at prun
      have prun := prun.cont (w1 := ⟨h, []⟩) (s1 := false) (by simp [pparamBody, kb])
      simp only [nbt] at prun
      have prun := prun.cont (w1 := ⟨h, []⟩) (s1 := false) (by simp [pparamBody, kt])
      simp only [ntq] at prun
      obtain ⟨rfl, rfl⟩ := prun.stop (w1 := ⟨h, []⟩) (s1 := false) (by simp [pparamBody, kq])
      simp only [nrb, reduceCtorEq, decide_false] at run
      have run := run.pass d2
      simp only [nbt] at run
      have run := run.pass d3
      simp only [ntq] at run
      exact run.arrive.stop (w1 := ⟨h, []⟩) (s1 := ()) (by simp [parenBody, kq])

theorem paren_again_single {d : Nat} (npt : h.next (some p) = some t) (ntq : h.next (some t) = some q)
    (d3 : q ≠ t) (kp : h.kind (some p) = .parenL)
    (kt : h.kind (some t) = .methodReceiverType) (kq : h.kind (some q) = .parenR)
    (e : parenRun (d + 2) false false ⟨h, []⟩ (some p) [] = some (w', z)) : w' = ⟨h, []⟩ ∧ z = some q := by
  rw [parenRun_eq _ _ _ _ kp] at e
  have run := JR.of_jumpLoop e
  have run := run.cont (w1 := ⟨h, []⟩) (s1 := ()) (by simp [parenBody, kp])
  simp only [npt] at run
  obtain ⟨x, hx⟩ := run.some_body
  have hb : parenBody (d + 1) false ⟨h, []⟩ () t = toJump (parenParam (d + 1) false ⟨h, []⟩ (some t) []) () := by
    simp [parenBody, kt]
  cases hg : parenParam (d + 1) false ⟨h, []⟩ (some t) [] with
  | none => rw [hb, hg] at hx; simp [toJump] at hx
  | some y =>
    obtain ⟨w1, q1⟩ := y
    have run := run.jump (w1 := w1) (s1 := ()) (q := q1) (by rw [hb, hg]; rfl)
    rw [parenParam_eq] at hg
    split at hg
    · cases hg
    · rename_i n hn
      have prun := JR.of_jumpLoop hg
      have prun := prun.cont (w1 := ⟨h, []⟩) (s1 := false) (by simp [pparamBody, kt])
      simp only [ntq] at prun
      obtain ⟨rfl, rfl⟩ := prun.stop (w1 := ⟨h, []⟩) (s1 := false) (by simp [pparamBody, kq])
      simp only [ntq, reduceCtorEq, decide_false] at run
      exact run.arrive.stop (w1 := ⟨h, []⟩) (s1 := ()) (by simp [parenBody, kq])

/-- The first look at a receiver `(r T)`. -/
theorem paren_first_named {d : Nat} (npr : h.next (some p) = some r) (nrb : h.next (some r) = some b)
    (nbt : h.next (some b) = some t) (ntq : h.next (some t) = some q)
    (d2 : q ≠ b) (d3 : q ≠ t) (d4 : r ≠ b) (d5 : r ≠ t) (d6 : q ≠ r) (d7 : t ≠ b) (d8 : p ≠ r) (d9 : p ≠ t) (lr : r < h.size) (lt : t < h.size)
    (kp : h.kind (some p) = .parenL) (kr : h.kind (some r) = .raw) (kb : h.kind (some b) = .space)
    (kt : h.kind (some t) = .raw) (kq : h.kind (some q) = .parenR)
    (e : parenRun (d + 2) false true ⟨h, []⟩ (some p) [] = some (w', z)) :
    w' = ⟨(h.setKind (some r) .methodReceiverName).setKind (some t) .methodReceiverType, []⟩ ∧ z = some q := by
  have kk1 : ∀ x, (h.setKind (some r) .methodReceiverName).kind x = if x = some r then .methodReceiverName else h.kind x :=
    fun x => kind_setKind _ _ _ _ lr
  have kk2 : ∀ x, ((h.setKind (some r) .methodReceiverName).setKind (some t) .methodReceiverType).kind x =
      if x = some t then .methodReceiverType else if x = some r then .methodReceiverName else h.kind x := by
    intro x; rw [kind_setKind _ _ _ _ (by simpa using lt), kk1]
  rw [parenRun_eq _ _ _ _ kp] at e
  have run := JR.of_jumpLoop e
  have run := run.cont (w1 := ⟨h, []⟩) (s1 := ()) (by simp [parenBody, kp])
  simp only [npr] at run
  obtain ⟨x, hx⟩ := run.some_body
  have hb : parenBody (d + 1) true ⟨h, []⟩ () r = toJump (parenParam (d + 1) true ⟨h, []⟩ (some r) []) () := by
    simp [parenBody, kr]
  cases hg : parenParam (d + 1) true ⟨h, []⟩ (some r) [] with
  | none => rw [hb, hg] at hx; simp [toJump] at hx
  | some y =>
    obtain ⟨w1, q1⟩ := y
    have run := run.jump (w1 := w1) (s1 := ()) (q := q1) (by rw [hb, hg]; rfl)
    rw [parenParam_eq] at hg
    split at hg
    · cases hg
    · rename_i n hn
      obtain ⟨cw, cr, crun⟩ := validParamCount_runs hn
      have crun := crun.cont (w1 := (⟨h, []⟩, 1)) (by simp [countFn, kr])
      simp only [nrb] at crun
      have crun := crun.cont (w1 := (⟨h, []⟩, 1)) (by simp [countFn, kb])
      simp only [nbt] at crun
      have crun := crun.cont (w1 := (⟨h, []⟩, 2)) (by simp [countFn, kt])
      simp only [ntq] at crun
      have := (crun.stop (w1 := (⟨h, []⟩, 2)) (by simp [countFn, kq])).1
      cases this
      have prun := JR.of_jumpLoop hg
      have prun := prun.cont (w1 := ⟨h.setKind (some r) .methodReceiverName, []⟩) (s1 := true) (by simp [pparamBody, kr])
      simp only [Heap.next_setKind, nrb] at prun
      have prun := prun.cont (w1 := ⟨h.setKind (some r) .methodReceiverName, []⟩) (s1 := true) (by
        simp [pparamBody, kk1, Ne.symm d4, kb])
      simp only [Heap.next_setKind, nbt] at prun
      have prun := prun.cont (w1 := ⟨(h.setKind (some r) .methodReceiverName).setKind (some t) .methodReceiverType, []⟩) (s1 := true) (by
        simp [pparamBody, kk1, Ne.symm d5, kt])
      simp only [Heap.next_setKind, ntq] at prun
      obtain ⟨rfl, rfl⟩ := prun.stop (w1 := ⟨(h.setKind (some r) .methodReceiverName).setKind (some t) .methodReceiverType, []⟩) (s1 := true) (by
        simp [pparamBody, kk2, d3, d6, kq])
      simp only [Heap.next_setKind, nrb, reduceCtorEq, decide_false] at run
      have run := run.pass d2
      simp only [Heap.next_setKind, nbt] at run
      have run := run.pass d3
      simp only [Heap.next_setKind, ntq] at run
      exact run.arrive.stop (w1 := ⟨(h.setKind (some r) .methodReceiverName).setKind (some t) .methodReceiverType, []⟩) (s1 := ()) (by
        simp [parenBody, kk2, d3, d6, kq])

/-- The first look at a receiver `(T)`. -/
theorem paren_first_single {d : Nat} (npt : h.next (some p) = some t) (ntq : h.next (some t) = some q)
    (d3 : q ≠ t) (lt : t < h.size)
    (kp : h.kind (some p) = .parenL) (kt : h.kind (some t) = .raw) (kq : h.kind (some q) = .parenR)
    (e : parenRun (d + 2) false true ⟨h, []⟩ (some p) [] = some (w', z)) :
    w' = ⟨h.setKind (some t) .methodReceiverType, []⟩ ∧ z = some q := by
  have kk1 : ∀ x, (h.setKind (some t) .methodReceiverType).kind x = if x = some t then .methodReceiverType else h.kind x :=
    fun x => kind_setKind _ _ _ _ lt
  rw [parenRun_eq _ _ _ _ kp] at e
  have run := JR.of_jumpLoop e
  have run := run.cont (w1 := ⟨h, []⟩) (s1 := ()) (by simp [parenBody, kp])
  simp only [npt] at run
  obtain ⟨x, hx⟩ := run.some_body
  have hb : parenBody (d + 1) true ⟨h, []⟩ () t = toJump (parenParam (d + 1) true ⟨h, []⟩ (some t) []) () := by
    simp [parenBody, kt]
  cases hg : parenParam (d + 1) true ⟨h, []⟩ (some t) [] with
  | none => rw [hb, hg] at hx; simp [toJump] at hx
  | some y =>
    obtain ⟨w1, q1⟩ := y
    have run := run.jump (w1 := w1) (s1 := ()) (q := q1) (by rw [hb, hg]; rfl)
    rw [parenParam_eq] at hg
    split at hg
    · cases hg
    · rename_i n hn
      obtain ⟨cw, cr, crun⟩ := validParamCount_runs hn
      have crun := crun.cont (w1 := (⟨h, []⟩, 1)) (by simp [countFn, kt])
      simp only [ntq] at crun
      have := (crun.stop (w1 := (⟨h, []⟩, 1)) (by simp [countFn, kq])).1
      cases this
      have prun := JR.of_jumpLoop hg
      have prun := prun.cont (w1 := ⟨h.setKind (some t) .methodReceiverType, []⟩) (s1 := false) (by simp [pparamBody, kt])
      simp only [Heap.next_setKind, ntq] at prun
      obtain ⟨rfl, rfl⟩ := prun.stop (w1 := ⟨h.setKind (some t) .methodReceiverType, []⟩) (s1 := false) (by
        simp [pparamBody, kk1, d3, kq])
      simp only [Heap.next_setKind, ntq, reduceCtorEq, decide_false] at run
      exact run.arrive.stop (w1 := ⟨h.setKind (some t) .methodReceiverType, []⟩) (s1 := ()) (by
        simp [parenBody, kk1, d3, kq])

end

end Goast
