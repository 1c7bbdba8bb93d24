import Verif.Proofs.ResetRun
import Verif.Props.Node
import Verif.Props.Extract
import Verif.Spec.Brackets

/-!
# C16-C18, C53: resetting kinds terminates, is local, and only relabels
-/

set_option linter.unusedSimpArgs false
set_option linter.unusedVariables false

namespace Goast

/-! ## C16 -/

/-- **C16** `resetKind` terminates without panic on every heap whose links are consistent and acyclic,
whatever the texts, kinds and lines, and for every node (or nil). -/
theorem C16_resetKind_total {h : Heap} (w : WF h) (ac : Acyclic h) {n : Ptr} (v : Valid h n) :
    ∃ h' r, resetKind h n = some (h', r) := by
  rcases n with _ | a
  · exact ⟨h, none, rfl⟩
  · obtain ⟨l, ch, ha⟩ := Acyclic.exists_chain w ac a (v a rfl)
    obtain ⟨h', r, e, _⟩ := resetKind_inv w ac ch ha
    exact ⟨h', r, e⟩

/-! ## C17 -/

/-- **C17** `resetKind` on a node of the chain `l` keeps the links of the whole heap consistent and
acyclic, allocates nothing, changes nothing about any node that is not in `l`, changes no line number,
and never links a node of `l` to a node outside `l`. -/
theorem C17_resetKind_local {h h' : Heap} {r : Ptr} (w : WF h) (ac : Acyclic h) {l : List Addr} (ch : Chain h l)
    {a : Addr} (ha : a ∈ l) (e : resetKind h (some a) = some (h', r)) :
    WF h' ∧ Acyclic h' ∧ h'.size = h.size ∧
    (∀ b, b < h.size → b ∉ l →
      h'.next (some b) = h.next (some b) ∧ h'.prev (some b) = h.prev (some b) ∧ data h' b = data h b) ∧
    (∀ p, h'.line p = h.line p) ∧
    (∀ b c, b ∈ l → h'.next (some b) = some c → c ∈ l) ∧
    (∀ b c, b ∈ l → h'.prev (some b) = some c → c ∈ l) := by
  obtain ⟨h1, r1, e1, g⟩ := resetKind_inv w ac ch ha
  rw [e] at e1; cases e1
  refine ⟨g.wf, Ranked.fwd g.wf ⟨_, g.rank⟩, g.size, fun b hb hn => g.same b ⟨hb, hn⟩, g.line, ?_, ?_⟩
  · intro b c hb hc
    exact g.next_S (ok_true ac ch) hb hc
  · intro b c hb hc
    apply Classical.byContradiction
    intro hn
    have hcl : c < h.size := by
      have : c < h'.size := Heap.lt_of_next ((g.wf.inverse c b).2 hc)
      rwa [show h'.size = h.size from g.size] at this
    have := g.closed.next c b ⟨hcl, hn⟩ ((g.wf.inverse c b).2 hc)
    exact this.2 hb

/-- **C17** A node whose kind is neither `Func` nor `Type` is left alone, with all of the heap. -/
theorem C17_resetKind_other {h : Heap} {n : Ptr} (h1 : h.kind n ≠ .func_) (h2 : h.kind n ≠ .type_) :
    resetKind h n = some (h, none) := by
  unfold resetKind
  split
  · contradiction
  · contradiction
  · rfl

/-! ## C18 -/

/-- **C18** `resetKind` makes no node a comment and no comment something else, and every kind it
changes becomes one of the six kinds of names and types. -/
theorem C18_resetKind_relabels {h h' : Heap} {n r : Ptr} (w : WF h) (ac : Acyclic h) (v : Valid h n)
    (e : resetKind h n = some (h', r)) (p : Ptr) :
    (h'.kind p = .comment ↔ h.kind p = .comment) ∧
    (h'.kind p ≠ h.kind p → h'.kind p ∈
      [Kind.funcName, .typeName, .paramName, .paramType, .methodReceiverName, .methodReceiverType]) := by
  rcases n with _ | a
  · cases e; exact ⟨Iff.rfl, fun hh => absurd rfl hh⟩
  · obtain ⟨l, ch, ha⟩ := Acyclic.exists_chain w ac a (v a rfl)
    obtain ⟨h1, r1, e1, g⟩ := resetKind_inv w ac ch ha
    rw [e] at e1; cases e1
    exact ⟨g.comm p, fun hh => (g.kinds p).resolve_left hh⟩

/-! ## C53 -/

theorem countKind_nil (h : Heap) (k : Kind) : countKind h k [] = 0 := rfl

theorem countKind_append (h : Heap) (k : Kind) (l m : List Addr) :
    countKind h k (l ++ m) = countKind h k l + countKind h k m := List.countP_append

theorem countKind_one (h : Heap) (k : Kind) (a : Addr) :
    countKind h k [a] = if h.kind (some a) = k then 1 else 0 := by
  simp [countKind, List.countP_cons]

/-- The callback of the counting loop of `skipNestNext`, without hooks. -/
def skipFn (L R : Kind) (ws : World × Int) (a : Addr) : Option ((World × Int) × Bool) :=
  let w := handleHook ws.1 (some a) []
  let k := w.heap.kind (some a)
  if k = L then some ((w, ws.2 + 1), true)
  else if k = R then some ((w, ws.2 - 1), decide (ws.2 - 1 ≠ 0))
  else some ((w, ws.2), true)

theorem skipFn_eq (L R : Kind) (h : Heap) (buf : List Ptr) (n : Int) (a : Addr) :
    skipFn L R (⟨h, buf⟩, n) a = if h.kind (some a) = L then some ((⟨h, buf⟩, n + 1), true)
      else if h.kind (some a) = R then some ((⟨h, buf⟩, n - 1), decide (n - 1 ≠ 0))
      else some ((⟨h, buf⟩, n), true) := rfl

/-- The counting loop of `skipNestNext`, without hooks. -/
theorem skip_loop {h : Heap} {L R : Kind} (hLR : L ≠ R) (buf : List Ptr) : ∀ (l : List Addr) (p : Ptr) (fuel : Nat)
    (done : List Addr), Fwd h p l → l.length < fuel →
    (∀ x y, done = x ++ y → countKind h R x < countKind h L x + 1) →
    ∃ n r, loop (fun (ws : World × Int) a => ws.1.heap.next (some a)) (skipFn L R) fuel
        (⟨h, buf⟩, ((countKind h L done : Int) + 1 - countKind h R done)) p = some ((⟨h, buf⟩, n), r) ∧
      (∀ b, r = some b → ∃ l₁ l₂, l = l₁ ++ b :: l₂ ∧
        countKind h R (done ++ l₁ ++ [b]) = countKind h L (done ++ l₁ ++ [b]) + 1 ∧
        ∀ x y, done ++ l₁ = x ++ y → countKind h R x < countKind h L x + 1) ∧
      (r = none → ∀ x y, done ++ l = x ++ y → countKind h R x < countKind h L x + 1) := by
  intro l
  induction l with
  | nil =>
    intro p fuel done f hf hd
    cases Fwd.nil_iff.1 f
    refine ⟨_, none, by cases fuel <;> rfl, by simp, fun _ x y e => hd x y (by simpa using e)⟩
  | cons a l ih =>
    intro p fuel done f hf hd
    obtain ⟨rfl, ha, f'⟩ := Fwd.cons_iff.1 f
    cases fuel with
    | zero => simp at hf
    | succ fuel =>
      have hd0 := hd done [] (by simp)
      -- going on with one more node
      have go : ∀ n : Int, n = (countKind h L (done ++ [a]) : Int) + 1 - countKind h R (done ++ [a]) →
          countKind h R (done ++ [a]) < countKind h L (done ++ [a]) + 1 →
          ∃ n' r, loop (fun (ws : World × Int) a => ws.1.heap.next (some a)) (skipFn L R) fuel (⟨h, buf⟩, n) (h.next (some a)) = some ((⟨h, buf⟩, n'), r) ∧
            (∀ b, r = some b → ∃ l₁ l₂, a :: l = l₁ ++ b :: l₂ ∧
              countKind h R (done ++ l₁ ++ [b]) = countKind h L (done ++ l₁ ++ [b]) + 1 ∧
              ∀ x y, done ++ l₁ = x ++ y → countKind h R x < countKind h L x + 1) ∧
            (r = none → ∀ x y, done ++ a :: l = x ++ y → countKind h R x < countKind h L x + 1) := by
        intro n hn hlt
        have hpre : ∀ x y, done ++ [a] = x ++ y → countKind h R x < countKind h L x + 1 := by
          intro x y e
          rcases y.eq_nil_or_concat with rfl | ⟨y, z, rfl⟩
          · rw [List.append_nil] at e; rw [← e]; exact hlt
          · rw [List.concat_eq_append, ← List.append_assoc] at e
            exact hd x y (List.append_inj_left' e rfl)
        obtain ⟨n', r, e, h1, h2⟩ := ih (h.next (some a)) fuel (done ++ [a]) f' (by simpa using hf) hpre
        refine ⟨n', r, by rw [hn]; exact e, ?_, ?_⟩
        · intro b hb
          obtain ⟨l₁, l₂, e1, e2, e3⟩ := h1 b hb
          exact ⟨a :: l₁, l₂, by rw [e1]; rfl, by simpa using e2, by simpa using e3⟩
        · intro hr x y e
          exact h2 hr x y (by simpa using e)
      have cL := countKind_append h L done [a]
      have cR := countKind_append h R done [a]
      rw [countKind_one] at cL cR
      simp only [loop, skipFn_eq]
      by_cases kL : h.kind (some a) = L
      · simp only [if_pos kL]
        have kR : h.kind (some a) ≠ R := by rw [kL]; exact hLR
        rw [if_pos kL] at cL; rw [if_neg kR] at cR
        exact go _ (by omega) (by omega)
      · simp only [if_neg kL]
        by_cases kR : h.kind (some a) = R
        · simp only [if_pos kR]
          rw [if_neg kL] at cL; rw [if_pos kR] at cR
          by_cases hz : (countKind h L done : Int) + 1 - countKind h R done - 1 = 0
          · simp only [hz, ne_eq, not_true_eq_false, decide_false]
            refine ⟨_, some a, rfl, ?_, by simp⟩
            intro b hb; cases hb
            exact ⟨[], l, rfl, by simp only [List.append_nil]; omega, by simpa using hd⟩
          · simp only [ne_eq, hz, not_false_eq_true, decide_true]
            exact go _ (by omega) (by omega)
        · simp only [if_neg kR]
          rw [if_neg kL] at cL; rw [if_neg kR] at cR
          exact go _ (by omega) (by omega)

/-- **C53** From an opener with the nodes `l` behind it, skipping the group stops at the node that closes
it, and reports nil exactly when no node closes it; the heap is unchanged. -/
theorem C53_skip_group {h : Heap} {L R : Kind} (hLR : L ≠ R) {a : Addr} {l : List Addr}
    (f : Fwd h (some a) (a :: l)) (hk : h.kind (some a) = L) (buf : List Ptr) :
    ∃ r, skipNestNext ⟨h, buf⟩ (some a) L R [] = some (⟨h, buf⟩, r) ∧
      (∀ b, r = some b ↔ Closes h L R l b) ∧ (r = none ↔ ∀ b, ¬ Closes h L R l b) := by
  have f' := (Fwd.cons_iff.1 f).2.2
  have hlen := f.length_le
  obtain ⟨n, r, e, h1, h2⟩ := skip_loop (h := h) hLR buf l (h.next (some a)) (h.size + 1) [] f'
    (by simp at hlen; omega) (by
      intro x y e
      obtain ⟨rfl, rfl⟩ := List.append_eq_nil_iff.1 e.symm
      simp [countKind_nil])
  have e0 : (countKind h L [] : Int) + 1 - countKind h R [] = 1 := by simp [countKind_nil]
  rw [e0] at e
  have found : findNext (handleHook ⟨h, buf⟩ (some a) []) (some a) [L] {} [] = some (⟨h, buf⟩, some a) := by
    simp [findNext, iterW, loop, handleHook, findCont, hk, CharSet.new, CharSet.contain]
  refine ⟨r, ?_, ?_, ?_⟩
  · unfold skipNestNext
    simp only [hk, if_true, found]
    have e2 := congrArg (Option.map fun r : (World × Int) × Ptr => (r.1.1, r.2)) e
    exact e2
  -- at most one node closes the group
  all_goals
    have uniq : ∀ b b', Closes h L R l b → Closes h L R l b' → b = b' := by
      rintro b b' ⟨l₁, l₂, e1, c1, p1⟩ ⟨m₁, m₂, e2, c2, p2⟩
      rw [e1] at e2
      rcases List.append_eq_append_iff.1 e2 with ⟨t, rfl, ht⟩ | ⟨t, rfl, ht⟩
      · cases t with
        | nil => simp at ht; exact ht.1
        | cons x t =>
          simp at ht
          have := p2 (l₁ ++ [b]) t (by rw [ht.1]; simp)
          omega
      · cases t with
        | nil => simp at ht; exact ht.1.symm
        | cons x t =>
          simp at ht
          have := p1 (m₁ ++ [b']) t (by rw [ht.1]; simp)
          omega
    have sound : ∀ b, r = some b → Closes h L R l b := by
      intro b hb
      obtain ⟨l₁, l₂, e1, e2, e3⟩ := h1 b hb
      exact ⟨l₁, l₂, e1, by simpa using e2, by simpa using e3⟩
    have complete : r = none → ∀ b, ¬ Closes h L R l b := by
      rintro hr b ⟨l₁, l₂, e1, c1, p1⟩
      have := h2 hr (l₁ ++ [b]) l₂ (by simp [e1])
      omega
  · intro b
    refine ⟨sound b, fun hc => ?_⟩
    cases hr : r with
    | none => exact absurd hc (complete hr b)
    | some b' => rw [uniq b b' hc (sound b' hr)]
  · refine ⟨complete, fun hn => ?_⟩
    cases hr : r with
    | none => rfl
    | some b' => exact absurd (sound b' hr) (hn b')

/-! ## A case: `func (s T) f(x []int) { // c` -/

/-- The heap of the nodes of a function declaration, as the scanner leaves it. -/
def resetDemo : Heap := (extract Heap.empty b!"func (s T) f(x []int) { // c\n}\n").elim Heap.empty (·.1)

theorem resetDemo_ok : WF resetDemo ∧ Acyclic resetDemo ∧ Chain resetDemo (List.range 23) := by
  obtain ⟨h', p, l, e, f, c, _, hl, w, ac⟩ := C02_total (ord := fun _ => commonDeeperExtract) (fun _ => .refl _) Heap.empty
    b!"func (s T) f(x []int) { // c\n}\n"
  have e' : resetDemo = h' := by
    show (extractOrd _ _ _).elim Heap.empty (·.1) = h'
    rw [e]; rfl
  refine ⟨e' ▸ w Heap.wf_empty, e' ▸ ac (fun a ha => absurd ha (by simp [Heap.empty, Heap.size])), ?_⟩
  rw [Chain.seg]
  decide +kernel

/-- The hypotheses of C16, C17 and C18 hold, and there is something to reset: four nodes change, the comment stays. -/
example : WF resetDemo ∧ Acyclic resetDemo ∧ Valid resetDemo (some 0) ∧ Chain resetDemo (List.range 23) ∧ 0 ∈ List.range 23 ∧
    resetDemo.kind (some 0) = .func_ ∧ resetDemo.kind (some 19) = .comment ∧
    ((resetKind resetDemo (some 0)).map fun r => ((List.range 23).filter fun a => r.1.kind (some a) ≠ resetDemo.kind (some a)).map fun a =>
      (r.1.text (some a), r.1.kind (some a))) =
      some [(b!"s", .methodReceiverName), (b!"T", .methodReceiverType), (b!"f", .funcName), (b!"x", .paramName)] := by
  refine ⟨resetDemo_ok.1, resetDemo_ok.2.1, ?_, resetDemo_ok.2.2, by decide, by decide +kernel, by decide +kernel, by decide +kernel⟩
  rintro a ⟨⟩
  exact resetDemo_ok.2.2.1 0 (by decide)

/-- `C17_resetKind_other`: the node of the name is no keyword. -/
example : resetDemo.kind (some 8) ≠ .func_ ∧ resetDemo.kind (some 8) ≠ .type_ := by decide +kernel

/-- `C53_skip_group` on the same nodes: from the `(` of the parameters (node 9) to its `)` (node 15). -/
example : Fwd resetDemo (some 9) (9 :: List.range' 10 13) ∧ resetDemo.kind (some 9) = .parenL ∧
    Closes resetDemo .parenL .parenR (List.range' 10 13) 15 ∧
    (skipNestNext ⟨resetDemo, []⟩ (some 9) .parenL .parenR []).map (·.2) = some (some 15) := by
  refine ⟨?_, by decide +kernel, ⟨List.range' 10 5, List.range' 16 7, by decide, by decide +kernel, ?_⟩, by decide +kernel⟩
  · exact Fwd.drop (List.range' 0 9) (resetDemo_ok.2.2.fwd (l := List.range' 0 9 ++ 9 :: List.range' 10 13))
  · intro p q e
    have : p <+: List.range' 10 5 := ⟨q, e.symm⟩
    have c : ∀ i, i < 6 → countKind resetDemo .parenR ((List.range' 10 5).take i) < countKind resetDemo .parenL ((List.range' 10 5).take i) + 1 := by
      decide +kernel
    have hp := List.prefix_iff_eq_take.1 this
    have hl : p.length < 6 := Nat.lt_succ_of_le (by simpa using this.length_le)
    rw [hp]
    exact c _ hl

end Goast
