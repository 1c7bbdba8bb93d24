import Verif.Proofs.Method
import Verif.Spec.Labels

/-!
# The labels between parentheses
-/

set_option linter.unusedSimpArgs false
set_option linter.unusedVariables false

namespace Goast
open Heap

/-- The token of a node. -/
def kt (h : Heap) (a : Addr) : Token := (h.kind (some a), h.text (some a))

/-- `h'` differs from `h` in the kinds of the nodes `l` only, which are now the tokens `ts`. -/
structure Relab (h h' : Heap) (l : List Addr) (ts : List Token) : Prop where
  size : h'.size = h.size
  next : ∀ p, h'.next p = h.next p
  prev : ∀ p, h'.prev p = h.prev p
  line : ∀ p, h'.line p = h.line p
  frame : ∀ x, x ∉ l → kt h' x = kt h x
  toks : l.map (kt h') = ts

theorem Relab.nil (h : Heap) : Relab h h [] [] := ⟨rfl, fun _ => rfl, fun _ => rfl, fun _ => rfl, fun _ _ => rfl, rfl⟩

theorem Relab.same (h : Heap) (l : List Addr) : Relab h h l (l.map (kt h)) :=
  ⟨rfl, fun _ => rfl, fun _ => rfl, fun _ => rfl, fun _ _ => rfl, rfl⟩

theorem Relab.set {h : Heap} {a : Addr} (ha : a < h.size) (k : Kind) : Relab h (h.setKind (some a) k) [a] [(k, h.text (some a))] := by
  have kk := fun p => kind_setKind h a k p ha
  refine ⟨by simp, by simp, by simp, by simp, fun x hx => ?_, ?_⟩
  · simp only [List.mem_singleton] at hx
    simp [kt, kk, hx]
  · simp [kt, kk]

theorem Relab.append {h h1 h' : Heap} {l m : List Addr} {ts us : List Token} (a : Relab h h1 l ts) (b : Relab h1 h' m us)
    (dis : ∀ x ∈ l, x ∉ m) : Relab h h' (l ++ m) (ts ++ us) := by
  refine ⟨b.size.trans a.size, fun p => (b.next p).trans (a.next p), fun p => (b.prev p).trans (a.prev p),
    fun p => (b.line p).trans (a.line p), fun x hx => ?_, ?_⟩
  · simp only [List.mem_append, not_or] at hx
    rw [b.frame x hx.2, a.frame x hx.1]
  · rw [List.map_append, b.toks, ← a.toks]
    congr 1
    exact List.map_congr_left fun x hx => b.frame x (dis x hx)

theorem Relab.cons {h h1 h' : Heap} {x : Addr} {m : List Addr} {t : Token} {us : List Token} (a : Relab h h1 [x] [t]) (b : Relab h1 h' m us)
    (dis : x ∉ m) : Relab h h' (x :: m) (t :: us) :=
  a.append b (by simpa using dis)

theorem Relab.map {h h' : Heap} {l m : List Addr} {ts : List Token} (a : Relab h h' l ts) (dis : ∀ x ∈ m, x ∉ l) :
    m.map (kt h') = m.map (kt h) := List.map_congr_left fun x hx => a.frame x (dis x hx)

theorem Relab.path {h h' : Heap} {l m : List Addr} {ts : List Token} (a : Relab h h' l ts) (p : Path h m) : Path h' m :=
  path_congr a.next _ p

theorem Path.tail {h : Heap} {a : Addr} {l : List Addr} (p : Path h (a :: l)) : Path h l := by
  cases l with
  | nil => trivial
  | cons b l => exact p.2

theorem Path.next {h : Heap} {a : Addr} {l : List Addr} (p : Path h (a :: l)) (ne : l ≠ []) : h.next (some a) = l.head? := by
  cases l with
  | nil => exact absurd rfl ne
  | cons b l => exact p.1

theorem Path.drop {h : Heap} : ∀ (m : List Addr) {l : List Addr}, Path h (m ++ l) → Path h l
  | [], _, p => p
  | _ :: m, _, p => Path.drop m p.tail

/-! ## Skipping nested brackets -/

/-- The callback of `skipNestNext`, without hooks. -/
def closeFn (L R : Kind) (ws : World × Int) (a : Addr) : Option ((World × Int) × Bool) :=
  let k := ws.1.heap.kind (some a)
  if k = L then some ((ws.1, ws.2 + 1), true)
  else if k = R then some ((ws.1, ws.2 - 1), decide (ws.2 - 1 ≠ 0))
  else some ((ws.1, ws.2), true)

theorem skipNestNext_runs {w w' : World} {a : Addr} {r : Ptr} {L R : Kind} (hk : w.heap.kind (some a) = L)
    (e : skipNestNext w (some a) L R [] = some (w', r)) :
    ∃ c, Runs (fun (ws : World × Int) a => ws.1.heap.next (some a)) (closeFn L R) (w, 1) (w.heap.next (some a)) (w', c) r := by
  have hf : findNext w (some a) [L] {} [] = some (w, some a) := by
    have hc : (CharSet.new [L]).contain L = true := by simp [CharSet.new, CharSet.contain]
    simp [findNext, iterW, loop, handleHook, findCont, hk, hc]
  have hb : handleHook w (some a) [] = w := rfl
  simp only [skipNestNext, hk, if_true, hb, hf] at e
  unfold iterW at e
  rw [Option.map_eq_some_iff] at e
  obtain ⟨⟨⟨w2, c⟩, r2⟩, e1, e2⟩ := e
  simp only [Prod.mk.injEq] at e2
  obtain ⟨rfl, rfl⟩ := e2
  exact ⟨c, _, e1⟩

theorem skip_run {L R : Kind} (hLR : L ≠ R) {w : World} : ∀ (ys : List Addr) (n : Nat) {i : List Addr} {z : Addr} {rest : List Addr} {w' : World}
    {c : Int} {r : Ptr}, closeAt L R (fun a => w.heap.kind (some a)) n ys = some (i, z, rest) → Path w.heap ys →
    Runs (fun (ws : World × Int) a => ws.1.heap.next (some a)) (closeFn L R) (w, (n : Int) + 1) ys.head? (w', c) r →
    w' = w ∧ r = some z ∧ ys = i ++ z :: rest ∧ w.heap.kind (some z) = R := by
  intro ys
  induction ys with
  | nil => intro n i z rest w' c r e; cases e
  | cons y ys ih =>
    intro n i z rest w' c r e p run
    simp only [List.head?_cons] at run
    unfold closeAt at e
    have key : ∀ (m : Nat) (x : Option (List Addr × Addr × List Addr)) , x = closeAt L R (fun a => w.heap.kind (some a)) m ys →
        x.map (fun r => (y :: r.1, r.2)) = some (i, z, rest) → closeFn L R (w, (n : Int) + 1) y = some ((w, (m : Int) + 1), true) →
        w' = w ∧ r = some z ∧ y :: ys = i ++ z :: rest ∧ w.heap.kind (some z) = R := by
      intro m x hx e2 hf
      clear e
      subst hx
      rw [Option.map_eq_some_iff] at e2
      obtain ⟨⟨i', z', rest'⟩, e2, e'⟩ := e2
      simp only [Prod.mk.injEq] at e'
      obtain ⟨rfl, rfl, rfl⟩ := e'
      have run := run.cont hf
      have ne : ys ≠ [] := by rintro rfl; cases e2
      simp only [p.next ne] at run
      obtain ⟨h1, h2, h3, h4⟩ := ih m e2 p.tail run
      exact ⟨h1, h2, by rw [h3]; rfl, h4⟩
    by_cases hL : w.heap.kind (some y) = L
    · rw [if_pos hL] at e
      exact key (n + 1) _ rfl e (by simp [closeFn, hL])
    · rw [if_neg hL] at e
      by_cases hR : w.heap.kind (some y) = R
      · rw [if_pos hR] at e
        by_cases hn : n = 0
        · subst hn
          rw [if_pos rfl] at e
          simp only [Option.some.injEq, Prod.mk.injEq] at e
          obtain ⟨rfl, rfl, rfl⟩ := e
          have := run.stop (w1 := (w, 0)) (by simp [closeFn, hR, Ne.symm hLR])
          simp only [Prod.mk.injEq] at this
          exact ⟨this.1.1, this.2, rfl, hR⟩
        · rw [if_neg hn] at e
          refine key (n - 1) _ rfl e ?_
          simp only [closeFn, hR, Ne.symm hLR, if_true, if_false]
          congr 2
          · congr 1; omega
          · simpa using hn
      · rw [if_neg hR] at e
        exact key n _ rfl e (by simp [closeFn, hL, hR])

/-- Skipping a bracket pair ends at the closing bracket. -/
theorem skipNest_exact {L R : Kind} (hLR : L ≠ R) {w w' : World} {a : Addr} {ys i rest : List Addr} {z : Addr} {r : Ptr}
    (hk : w.heap.kind (some a) = L) (p : Path w.heap (a :: ys))
    (hc : closeAt L R (fun a => w.heap.kind (some a)) 0 ys = some (i, z, rest))
    (e : skipNestNext w (some a) L R [] = some (w', r)) :
    w' = w ∧ r = some z ∧ ys = i ++ z :: rest ∧ w.heap.kind (some z) = R := by
  obtain ⟨c, run⟩ := skipNestNext_runs hk e
  have ne : ys ≠ [] := by rintro rfl; cases hc
  rw [p.next ne] at run
  exact skip_run hLR ys 0 hc p.tail run

/-! ## The brackets of a token list -/

theorem closeAt_map (L R : Kind) (h : Heap) : ∀ (ys : List Addr) (n : Nat) (i : List Token) (u : Token) (rest : List Token),
    closeAt L R Prod.fst n (ys.map (kt h)) = some (i, u, rest) →
    ∃ i' u' rest', closeAt L R (fun a => h.kind (some a)) n ys = some (i', u', rest') ∧ i'.map (kt h) = i ∧ kt h u' = u ∧
      rest'.map (kt h) = rest := by
  intro ys
  induction ys with
  | nil => intro n i u rest e; cases e
  | cons y ys ih =>
    intro n i u rest e
    rw [List.map_cons, closeAt] at e
    rw [closeAt]
    have k : (kt h y).1 = h.kind (some y) := rfl
    rw [k] at e
    have go : ∀ m, (closeAt L R Prod.fst m (ys.map (kt h))).map (fun r => (kt h y :: r.1, r.2)) = some (i, u, rest) →
        ∃ i' u' rest', (closeAt L R (fun a => h.kind (some a)) m ys).map (fun r => (y :: r.1, r.2)) = some (i', u', rest') ∧
          i'.map (kt h) = i ∧ kt h u' = u ∧ rest'.map (kt h) = rest := by
      intro m e
      obtain ⟨⟨i1, u1, r1⟩, e1, e2⟩ := Option.map_eq_some_iff.1 e
      simp only [Prod.mk.injEq] at e2
      obtain ⟨rfl, rfl, rfl⟩ := e2
      obtain ⟨i', u', rest', e3, rfl, rfl, rfl⟩ := ih m i1 u1 r1 e1
      exact ⟨y :: i', u', rest', by simp [e3], by simp, rfl, rfl⟩
    split at e
    · rename_i hL; rw [if_pos hL]; exact go _ e
    · rename_i hL
      rw [if_neg hL]
      split at e
      · rename_i hR
        rw [if_pos hR]
        split at e
        · rename_i hn
          simp only [Option.some.injEq, Prod.mk.injEq] at e
          obtain ⟨rfl, rfl, rfl⟩ := e
          exact ⟨[], y, ys, by simp [hn], rfl, rfl, rfl⟩
        · rename_i hn; rw [if_neg hn]; exact go _ e
      · rename_i hR; rw [if_neg hR]; exact go _ e

/-! ## One parameter -/

/-- The kind of names and types between parentheses. -/
abbrev nameK (rec : Bool) : Kind := if rec then .methodReceiverName else .paramName
abbrev typeK (rec : Bool) : Kind := if rec then .methodReceiverType else .paramType

/-- A nested run and the way to the node it returned. -/
theorem JR.jump_path {σ : Type} {body : World → σ → Addr → Option (World × σ × Ctl)} {w w1 w' : World} {s s1 : σ} {r : Ptr} {a q : Addr}
    {mid : List Addr} (run : JR false [] body w ⟨false, none, s⟩ (some a) w' r) (e : body w s a = some (w1, s1, .jump (some q)))
    (p : Path w1.heap (a :: (mid ++ [q]))) (hq : q ∉ mid) : JR false [] body w1 ⟨false, none, s1⟩ (some q) w' r := by
  have run := run.jump e
  simp only [reduceCtorEq, decide_false] at run
  exact run.pass_path mid a p hq

/-- The count of relevant tokens is what `validParamCount` computes. -/
theorem count_run {w : World} : ∀ (ys : List Addr) (n : Nat) {e : Addr} {w' : World} {m : Nat} {r : Ptr}, Path w.heap (ys ++ [e]) →
    w.heap.kind (some e) = .comma ∨ w.heap.kind (some e) = .parenR →
    Runs (fun (ws : World × Nat) a => ws.1.heap.next (some a)) countFn (w, n) (ys ++ [e]).head? (w', m) r →
    m = n + relevant (ys.map (kt w.heap)) := by
  intro ys
  induction ys with
  | nil =>
    intro n e w' m r p ke run
    simp only [List.nil_append, List.head?_cons] at run
    have := (run.stop (w1 := (w, n)) (by rcases ke with ke | ke <;> simp [countFn, ke])).1
    simp only [Prod.mk.injEq] at this
    simp [relevant, this.2]
  | cons y ys ih =>
    intro n e w' m r p ke run
    simp only [List.cons_append, List.head?_cons] at run p
    have hn := p.next (by simp : ys ++ [e] ≠ [])
    simp only [List.map_cons, relevant]
    by_cases hc : (kt w.heap y).1 = .comma ∨ (kt w.heap y).1 = .parenR
    · rw [if_pos hc]
      have := (run.stop (w1 := (w, n)) (by
        rcases hc with hc | hc <;> (simp only [kt] at hc; simp [countFn, hc]))).1
      simp only [Prod.mk.injEq] at this
      simp [this.2]
    · rw [if_neg hc]
      simp only [kt, not_or] at hc
      by_cases hb : isBlank (kt w.heap y)
      · rw [if_pos hb]
        have run := run.cont (w1 := (w, n)) (by
          simp only [isBlank, kt] at hb
          rcases hb with hb | hb | hb | hb <;> simp [countFn, hb])
        simp only [hn] at run
        exact ih n p.tail ke run
      · rw [if_neg hb]
        have run := run.cont (w1 := (w, n + 1)) (by
          simp only [isBlank, kt, not_or] at hb
          simp only [countFn]
          split <;> first | rfl | (exfalso; simp_all; done) | skip)
        simp only [hn] at run
        rw [ih (n + 1) p.tail ke run]
        omega

theorem Path.left {h : Heap} : ∀ {m l : List Addr}, Path h (m ++ l) → Path h m
  | [], _, _ => trivial
  | [_], _, _ => trivial
  | _ :: b :: m, l, p => ⟨p.1, Path.left (m := b :: m) p.2⟩

/-- What the loop over the contents of a pair of parentheses does. -/
def ParamsRun (rec : Bool) (ts ts' : List Token) : Prop :=
  ∀ (d : Nat) {h : Heap} {ys : List Addr} {w' : World} {r : Ptr} {q : Addr}, ys.map (kt h) = ts → Path h (ys ++ [q]) → (ys ++ [q]).Nodup →
    (∀ x ∈ ys, x < h.size) → h.kind (some q) = .parenR →
    JR false [] (parenBody d rec) ⟨h, []⟩ ⟨false, none, ()⟩ (ys ++ [q]).head? w' r →
    w'.buf = [] ∧ r = some q ∧ Relab h w'.heap ys ts'

/-- What the loop over one parameter does. -/
def ParamRun (rec : Bool) (pending : Bool) (ts ts' : List Token) : Prop :=
  ∀ (d count : Nat) (named : Bool) {h : Heap} {ys : List Addr} {w' : World} {r : Ptr} {e : Addr}, ys.map (kt h) = ts → Path h (ys ++ [e]) →
    (ys ++ [e]).Nodup → (∀ x ∈ ys, x < h.size) → h.kind (some e) = .comma ∨ h.kind (some e) = .parenR →
    (decide (count ≠ 1) && !named) = pending →
    JR false [] (pparamBody d rec count) ⟨h, []⟩ ⟨false, none, named⟩ (ys ++ [e]).head? w' r →
    w'.buf = [] ∧ r = some e ∧ Relab h w'.heap ys ts'

theorem paramRun_nil (rec pending : Bool) : ParamRun rec pending [] [] := by
  intro d count named h ys w' r e em p nd lt ke hp run
  have : ys = [] := List.map_eq_nil_iff.1 em
  subst this
  simp only [List.nil_append, List.head?_cons] at run
  have := run.stop (w1 := ⟨h, []⟩) (s1 := named) (by rcases ke with ke | ke <;> simp [pparamBody, ke])
  rw [this.1]
  exact ⟨rfl, this.2, .nil h⟩

theorem paramRun_plain (rec : Bool) {pending : Bool} {t : Token} {ts ts' : List Token} (ht : isPlain t) (ih : ParamRun rec pending ts ts') :
    ParamRun rec pending (t :: ts) (t :: ts') := by
  intro d count named h ys w' r e em p nd lt ke hp run
  obtain ⟨y, ys, rfl, e1, e2⟩ := List.map_eq_cons_iff.1 em
  simp only [List.cons_append, List.head?_cons] at run p nd
  have hn := p.next (by simp : ys ++ [e] ≠ [])
  rw [← e1] at ht
  obtain ⟨k1, k2, k3, k4, k5, k6, k7⟩ := ht
  simp only [kt] at k1 k2 k3 k4 k5 k6 k7
  have nd' := List.nodup_cons.1 nd
  have run := run.cont (w1 := ⟨h, []⟩) (s1 := named) (by
    simp only [pparamBody]
    split <;> first | rfl | (exfalso; simp_all; done) | skip)
  simp only [hn] at run
  obtain ⟨h1, h2, h3⟩ := ih d count named e2 p.tail nd'.2 (fun x hx => lt x (by simp [hx])) ke hp run
  refine ⟨h1, h2, ?_⟩
  rw [← e1]
  exact (Relab.same h [y]).cons h3 (fun hh => nd'.1 (by simp [hh]))

theorem paramRun_word (rec : Bool) {pending : Bool} {t : Token} {ts ts' : List Token} (ht : t.1 = .raw) (ih : ParamRun rec false ts ts') :
    ParamRun rec pending (t :: ts) ((if pending then nameK rec else typeK rec, t.2) :: ts') := by
  intro d count named h ys w' r e em p nd lt ke hp run
  obtain ⟨y, ys, rfl, e1, e2⟩ := List.map_eq_cons_iff.1 em
  simp only [List.cons_append, List.head?_cons] at run p nd
  have hn := p.next (by simp : ys ++ [e] ≠ [])
  rw [← e1] at ht ⊢
  have hraw : h.kind (some y) = .raw := ht
  have nd' := List.nodup_cons.1 nd
  have yd : y ∉ ys := fun hh => nd'.1 (by simp [hh])
  have ye : e ≠ y := fun hh => nd'.1 (by simp [hh])
  have key : ∀ (k : Kind) (named' : Bool), pparamBody d rec count ⟨h, []⟩ named y = some (⟨h.setKind (some y) k, []⟩, named', .cont) →
      k = (if pending then nameK rec else typeK rec) → (decide (count ≠ 1) && !named') = false →
      w'.buf = [] ∧ r = some e ∧ Relab h w'.heap (y :: ys) ((if pending then nameK rec else typeK rec, (kt h y).2) :: ts') := by
    intro k named' hb hk hp'
    have run := run.cont hb
    simp only [Heap.next_setKind, hn] at run
    have rl := Relab.set (lt y (by simp)) k
    have em : ys.map (kt (h.setKind (some y) k)) = ys.map (kt h) := rl.map (by simp; rintro x hx rfl; exact yd hx)
    have ke' : kt (h.setKind (some y) k) e = kt h e := rl.frame e (by simp [ye])
    have ke'' : (h.setKind (some y) k).kind (some e) = h.kind (some e) := congrArg Prod.fst ke'
    obtain ⟨h1, h2, h3⟩ := ih d count named' (by rw [em]; exact e2) (rl.path p.tail) nd'.2 (by simpa using fun x hx => lt x (by simp [hx]))
      (by rw [ke'']; exact ke) hp' run
    refine ⟨h1, h2, ?_⟩
    rw [← hk]
    exact rl.cons h3 yd
  by_cases hc : count = 1
  · exact key (typeK rec) named (by simp [pparamBody, hraw, hc]) (by rw [← hp]; simp [hc]) (by simp [hc])
  · cases named with
    | false => exact key (nameK rec) true (by simp [pparamBody, hraw, hc]) (by rw [← hp]; simp [hc]) (by simp)
    | true => exact key (typeK rec) true (by simp [pparamBody, hraw, hc]) (by rw [← hp]; simp) (by simp)

theorem paramRun_square (rec : Bool) {pending : Bool} {t u : Token} {ts inner rest rest' : List Token} (ht : t.1 = .squareL)
    (hc : closeAt .squareL .squareR Prod.fst 0 ts = some (inner, u, rest)) (ih : ParamRun rec pending rest rest') :
    ParamRun rec pending (t :: ts) (t :: (inner ++ u :: rest')) := by
  intro d count named h ys w' r e em p nd lt ke hp run
  obtain ⟨y, ys, rfl, e1, e2⟩ := List.map_eq_cons_iff.1 em
  simp only [List.cons_append, List.head?_cons] at run p nd
  rw [← e1] at ht ⊢
  have hsq : h.kind (some y) = .squareL := ht
  have nd' := List.nodup_cons.1 nd
  rw [← e2] at hc
  obtain ⟨i, z, rest, hc', rfl, rfl, rfl⟩ := closeAt_map _ _ h ys 0 _ _ _ hc
  obtain ⟨x, hx⟩ := run.some_body
  have hb : pparamBody d rec count ⟨h, []⟩ named y = toJump (squareRun ⟨h, []⟩ (some y) []) named := by
    simp [pparamBody, hsq]
  cases hg : squareRun ⟨h, []⟩ (some y) [] with
  | none => rw [hb, hg] at hx; simp [toJump] at hx
  | some v =>
    obtain ⟨w1, q⟩ := v
    obtain ⟨rfl, rfl, rfl, hz⟩ := skipNest_exact (by decide) hsq (Path.left (m := y :: ys) p) hc' hg
    have ex : y :: (i ++ z :: rest ++ [e]) = (y :: (i ++ [z])) ++ (rest ++ [e]) := by simp
    rw [ex] at p nd
    have zi : z ∉ i := by
      intro hh
      have := (List.nodup_append.1 nd).1
      simp only [List.nodup_cons, List.nodup_append] at this
      exact this.2.2.2 z hh z (by simp) rfl
    have run := run.jump_path (w1 := ⟨h, []⟩) (s1 := named) (by rw [hb, hg]; rfl) p.left zi
    have run := run.cont (w1 := ⟨h, []⟩) (s1 := named) (by simp [pparamBody, hz])
    have p3 : Path h (z :: (rest ++ [e])) := Path.drop (y :: i) (by simpa using p)
    simp only [p3.next (by simp : rest ++ [e] ≠ [])] at run
    obtain ⟨h1, h2, h3⟩ := ih d count named rfl p3.tail (List.nodup_append.1 nd).2.1 (fun x hx => lt x (by simp [hx])) ke hp run
    refine ⟨h1, h2, ?_⟩
    have := (Relab.same h (y :: (i ++ [z]))).append h3 (fun x hx hx' => (List.nodup_append.1 nd).2.2 x hx x (by simp [hx']) rfl)
    simpa using this

/-- The set of kinds a nested function type ends with. -/
abbrev paramEnds : CharSet Kind := CharSet.new [.comma, .parenR, .newLine]

/-- `func` and its parameters inside a parameter: the run ends behind the closing parenthesis. -/
theorem parameterFunc_exact {ps ps' : List Token} (P : ParamsRun false ps ps') (d : Nat) {h : Heap} {y l u : Addr} {ys : List Addr} {w' : World} {r : Ptr}
    (em : ys.map (kt h) = ps) (p : Path h (y :: l :: (ys ++ [u]))) (nd : (y :: l :: (ys ++ [u])).Nodup) (lt : ∀ x ∈ ys, x < h.size)
    (ky : h.kind (some y) = .func_) (kl : h.kind (some l) = .parenL) (ku : h.kind (some u) = .parenR)
    (run : parameterFunc d ⟨h, []⟩ (some y) [] = some (w', r)) :
    w'.buf = [] ∧ r = h.next (some u) ∧ Relab h w'.heap ys ps' := by
  cases d with
  | zero => rw [parameterFunc] at run; cases run
  | succ d =>
    rw [parameterFunc] at run
    cases hg : generalFunc d ⟨h, []⟩ (some y) [.comma, .parenR, .newLine] [] with
    | none => simp [hg] at run
    | some v =>
      obtain ⟨w1, q1⟩ := v
      suffices hh : w1.buf = [] ∧ q1 = some u ∧ Relab h w1.heap ys ps' by
        obtain ⟨hbuf, rfl, rl⟩ := hh
        have uys : u ∉ ys := by
          intro hh
          simp only [List.nodup_cons, List.nodup_append] at nd
          exact nd.2.2.2.2 u hh u (by simp) rfl
        have ku' : w1.heap.kind (some u) = .parenR := by rw [← ku]; exact congrArg Prod.fst (rl.frame u uys)
        simp only [hg, ku', if_true, handleHook, List.foldl_nil, Option.some.injEq, Prod.mk.injEq] at run
        obtain ⟨rfl, rfl⟩ := run
        exact ⟨hbuf, rl.next _, rl⟩
      cases d with
      | zero => rw [generalFunc] at hg; cases hg
      | succ d =>
        rw [generalFunc_eq] at hg
        simp only [ky, if_true] at hg
        have run2 := JR.of_jumpLoop hg
        have hyl : h.next (some y) = some l := p.1
        simp only [hyl] at run2
        obtain ⟨x, hx⟩ := run2.some_body
        have c1 : (CharSet.new [Kind.comma, .parenR, .newLine]).contain .parenL = false := by decide
        have c2 : (CharSet.new [Kind.comma, .parenR, .newLine]).contain .parenR = true := by decide
        have hb : generalBody d (CharSet.new [.comma, .parenR, .newLine]) [] ⟨h, []⟩ (false, false) l =
            toJump (parenRun d false false ⟨h, []⟩ (some l) []) (false, true) := by
          simp [generalBody, kl, c1]
        cases hg2 : parenRun d false false ⟨h, []⟩ (some l) [] with
        | none => exact absurd (hb.symm.trans (by exact hx)) (by rw [hg2]; simp [toJump])
        | some v2 =>
          obtain ⟨w2, q2⟩ := v2
          have hg3 := hg2
          cases d with
          | zero => rw [parenRun] at hg2; cases hg2
          | succ d =>
            rw [parenRun_eq _ _ _ _ kl] at hg2
            have run3 := JR.of_jumpLoop hg2
            have run3 := run3.cont (w1 := ⟨h, []⟩) (s1 := ()) (by simp [parenBody, kl])
            have p2 := p.tail
            simp only [p2.next (by simp : ys ++ [u] ≠ [])] at run3
            have nd2 := (List.nodup_cons.1 nd).2
            obtain ⟨hbuf, rfl, rl⟩ := P d em p2.tail (List.nodup_cons.1 nd2).2 lt ku run3
            have uys : u ∉ ys := by
              intro hh
              simp only [List.nodup_cons, List.nodup_append] at nd
              exact nd.2.2.2.2 u hh u (by simp) rfl
            have run2 := run2.jump_path (w1 := w2) (s1 := (false, true)) (q := u) (mid := ys) (by
              refine Eq.trans ?_ (hb.trans ?_)
              · rfl
              · rw [hg3]; rfl) (rl.path p2) uys
            have ku' : w2.heap.kind (some u) = .parenR := by rw [← ku]; exact congrArg Prod.fst (rl.frame u uys)
            have := run2.stop (w1 := w2) (s1 := (false, true)) (by simp [generalBody, ku', c2])
            obtain ⟨rfl, rfl⟩ := this
            exact ⟨hbuf, rfl, rl⟩

theorem paramRun_func (rec : Bool) (hrec : rec = false) {pending : Bool} {t l u : Token} {ps ps' ts ts' : List Token} (ht : t.1 = .func_)
    (hl : l.1 = .parenL) (hu : u.1 = .parenR) (P : ParamsRun rec ps ps') (ih : ParamRun rec pending ts ts') :
    ParamRun rec pending (t :: l :: (ps ++ u :: ts)) (t :: l :: (ps' ++ u :: ts')) := by
  intro d count named h ys w' r e em p nd lt ke hp run
  subst hrec
  obtain ⟨y, ys, rfl, e1, em⟩ := List.map_eq_cons_iff.1 em
  obtain ⟨l', ys, rfl, e2, em⟩ := List.map_eq_cons_iff.1 em
  obtain ⟨ys, l2, rfl, e3, em⟩ := List.map_eq_append_iff.1 em
  obtain ⟨u', l3, rfl, e4, em⟩ := List.map_eq_cons_iff.1 em
  simp only [List.cons_append, List.head?_cons] at run p nd
  rw [← e1] at ht ⊢
  rw [← e2] at hl ⊢
  rw [← e4] at hu ⊢
  have ky : h.kind (some y) = .func_ := ht
  have ex : y :: l' :: (ys ++ u' :: l3 ++ [e]) = (y :: l' :: (ys ++ [u'])) ++ (l3 ++ [e]) := by simp
  rw [ex] at p nd
  obtain ⟨x, hx⟩ := run.some_body
  have hb : pparamBody d false count ⟨h, []⟩ named y = toJump (funcRun d { isParameter := true } ⟨h, []⟩ (some y) []) named := by
    simp [pparamBody, ky]
  cases hg : funcRun d { isParameter := true } ⟨h, []⟩ (some y) [] with
  | none => rw [hb, hg] at hx; simp [toJump] at hx
  | some v =>
    obtain ⟨w1, q⟩ := v
    have hg0 := hg
    cases d with
    | zero => rw [funcRun] at hg; cases hg
    | succ d =>
      rw [funcRun] at hg
      simp only [if_true] at hg
      obtain ⟨hbuf, hq, rl⟩ := parameterFunc_exact P d e3 p.left (List.nodup_append.1 nd).1 (fun x hx => lt x (by simp [hx])) ky hl hu hg
      have p3 : Path h (u' :: (l3 ++ [e])) := Path.drop (y :: l' :: ys) (by simpa using p)
      obtain ⟨z, m, hz⟩ : ∃ z m, l3 ++ [e] = z :: m := by
        cases l3 with
        | nil => exact ⟨e, [], rfl⟩
        | cons z m => exact ⟨z, m ++ [e], rfl⟩
      rw [p3.next (by simp : l3 ++ [e] ≠ []), hz, List.head?_cons] at hq
      subst hq
      have pz : Path h (y :: (l' :: (ys ++ [u']) ++ [z])) := by
        rw [hz, ← List.singleton_append (l := m), ← List.append_assoc] at p
        exact p.left
      have run := run.jump_path (w1 := w1) (s1 := named) (q := z) (mid := l' :: (ys ++ [u'])) (by rw [hb, hg0]; rfl) (rl.path pz) (by
        intro hh
        exact (List.nodup_append.1 nd).2.2 z (List.mem_cons_of_mem _ hh) z (by rw [hz]; simp) rfl)
      have rl2 : Relab h w1.heap (y :: l' :: (ys ++ [u'])) (kt h y :: kt h l' :: (ps' ++ [kt h u'])) := by
        have nd1 := (List.nodup_append.1 nd).1
        refine (Relab.same h [y]).cons ((Relab.same h [l']).cons ?_ (List.nodup_cons.1 (List.nodup_cons.1 nd1).2).1) (List.nodup_cons.1 nd1).1
        have uys : u' ∉ ys := by
          intro hh
          simp only [List.nodup_cons, List.nodup_append] at nd1
          exact nd1.2.2.2.2 u' hh u' (by simp) rfl
        have kq : kt w1.heap u' = kt h u' := rl.frame u' uys
        have := rl.append (Relab.same w1.heap [u']) (fun x hx hx' => by
          simp only [List.mem_singleton] at hx'
          subst hx'
          exact uys hx)
        simpa [kq] using this
      have dis : ∀ x ∈ l3 ++ [e], x ∉ y :: l' :: (ys ++ [u']) := fun x hx hx' => (List.nodup_append.1 nd).2.2 x hx' x hx rfl
      have em' : l3.map (kt w1.heap) = ts := by
        rw [← em]; exact rl2.map (fun x hx => dis x (by simp [hx]))
      have ke' : w1.heap.kind (some e) = h.kind (some e) := congrArg Prod.fst (rl2.frame e (dis e (by simp)))
      have ew : w1 = ⟨w1.heap, []⟩ := by cases w1; simp_all
      rw [ew] at run
      obtain ⟨h1, h2, h3⟩ := ih (d + 1) count named em' (rl.path p3.tail) (List.nodup_append.1 nd).2.1 (fun x hx => by rw [rl.size]; exact lt x (by simp [hx]))
        (by rw [ke']; exact ke) hp (r := r) (w' := w') (by rw [hz]; exact run)
      refine ⟨h1, h2, ?_⟩
      have := rl2.append h3 (fun x hx hx' => dis x (by simp [hx']) hx)
      simpa using this

/-! ## The parameters between parentheses -/

theorem paramsRun_nil (rec : Bool) : ParamsRun rec [] [] := by
  intro d h ys w' r q e p nd lt kq run
  have : ys = [] := List.map_eq_nil_iff.1 e
  subst this
  simp only [List.nil_append, List.head?_cons] at run
  have := run.stop (w1 := ⟨h, []⟩) (s1 := ()) (by simp [parenBody, kq])
  rw [this.1]
  exact ⟨rfl, this.2, .nil h⟩

theorem paramsRun_sep (rec : Bool) {t : Token} {ts ts' : List Token} (hs : isBlank t ∨ t.1 = .comma ∨ t.1 = .parenL) (ih : ParamsRun rec ts ts') :
    ParamsRun rec (t :: ts) (t :: ts') := by
  intro d h ys w' r q e p nd lt kq run
  obtain ⟨y, ys, rfl, e1, e2⟩ := List.map_eq_cons_iff.1 e
  simp only [List.cons_append, List.head?_cons] at run p nd
  have run := run.cont (w1 := ⟨h, []⟩) (s1 := ()) (by
    rw [← e1] at hs
    simp only [isBlank, kt] at hs
    rcases hs with (hs | hs | hs | hs) | hs | hs <;> simp [parenBody, hs])
  simp only [p.next (by simp : ys ++ [q] ≠ [])] at run
  obtain ⟨h1, h2, h3⟩ := ih d e2 p.tail (List.nodup_cons.1 nd).2 (fun x hx => lt x (by simp [hx])) kq run
  refine ⟨h1, h2, ?_⟩
  rw [← e1]
  exact (Relab.same h [y]).cons h3 (fun hh => (List.nodup_cons.1 nd).1 (by simp [hh]))

theorem param_exact {rec : Bool} {ts ts' : List Token} (P : ParamRun rec (decide (relevant ts ≠ 1)) ts ts') (d : Nat) {ys : List Addr} {h : Heap} {w' : World}
    {r : Ptr} {e : Addr} (em : ys.map (kt h) = ts) (p : Path h (ys ++ [e])) (nd : (ys ++ [e]).Nodup) (lt : ∀ x ∈ ys, x < h.size)
    (ke : h.kind (some e) = .comma ∨ h.kind (some e) = .parenR)
    (run : parenParam d rec ⟨h, []⟩ (ys ++ [e]).head? [] = some (w', r)) :
    w'.buf = [] ∧ r = some e ∧ Relab h w'.heap ys ts' := by
  cases d with
  | zero => rw [parenParam] at run; cases run
  | succ d =>
    rw [parenParam_eq] at run
    split at run
    · cases run
    · rename_i n hn
      obtain ⟨cw, cr, crun⟩ := validParamCount_runs hn
      have := count_run ys 0 (w := ⟨h, []⟩) p ke crun
      rw [Nat.zero_add, em] at this
      exact P d n false em p nd lt ke (by rw [this]; simp) (JR.of_jumpLoop run)

theorem paramsRun_param (rec : Bool) {t : Token} {ty ty' rest rest' : List Token} (first : ¬ isBlank t ∧ t.1 ≠ .parenL)
    (nc : t.1 ≠ .comma ∧ t.1 ≠ .parenR) (P : ParamRun rec (decide (relevant (t :: ty) ≠ 1)) (t :: ty) ty')
    (stop : ∀ x, rest.head? = some x → x.1 = .comma) (ih : ParamsRun rec rest rest') : ParamsRun rec (t :: ty ++ rest) (ty' ++ rest') := by
  intro d h ys w' r q e p nd lt kq run
  obtain ⟨ys₁, ys₂, rfl, e1, e2⟩ := List.map_eq_append_iff.1 e
  obtain ⟨y, ys₁, rfl, ey, e1'⟩ := List.map_eq_cons_iff.1 e1
  -- where the parameter ends
  obtain ⟨z, m, hz⟩ : ∃ z m, ys₂ ++ [q] = z :: m := by
    cases ys₂ with
    | nil => exact ⟨q, [], rfl⟩
    | cons z m => exact ⟨z, m ++ [q], rfl⟩
  have kz : h.kind (some z) = .comma ∨ h.kind (some z) = .parenR := by
    cases ys₂ with
    | nil => cases hz; exact .inr kq
    | cons z' m' =>
      simp only [List.cons_append, List.cons.injEq] at hz
      obtain ⟨rfl, _⟩ := hz
      rw [← e2] at stop
      exact .inl (stop (kt h z') (by simp))
  have pz : Path h (y :: ys₁ ++ [z]) := by
    rw [List.append_assoc, hz, ← List.singleton_append (l := m), ← List.append_assoc] at p
    exact p.left
  have ndz : (y :: ys₁ ++ [z]).Nodup := by
    rw [List.append_assoc, hz, ← List.singleton_append (l := m), ← List.append_assoc] at nd
    exact (List.nodup_append.1 nd).1
  simp only [List.cons_append, List.head?_cons] at run
  obtain ⟨x, hx⟩ := run.some_body
  have hb : parenBody d rec ⟨h, []⟩ () y = toJump (parenParam d rec ⟨h, []⟩ (some y) []) () := by
    rw [← ey] at first nc
    simp only [isBlank, kt, not_or] at first nc
    simp only [parenBody]
    split <;> first | rfl | (exfalso; simp_all; done) | skip
  cases hg : parenParam d rec ⟨h, []⟩ (some y) [] with
  | none => rw [hb, hg] at hx; simp [toJump] at hx
  | some u =>
    obtain ⟨w1, q1⟩ := u
    obtain ⟨hbuf, rfl, rl⟩ := param_exact P d e1 pz ndz (fun x hx => lt x (List.mem_append_left _ hx)) kz (r := q1) (w' := w1) hg
    have ew : w1 = ⟨w1.heap, []⟩ := by cases w1; simp_all
    have run := run.jump_path (w1 := w1) (s1 := ()) (q := z) (mid := ys₁) (by rw [hb, hg]; rfl) (rl.path pz) (by
      intro hh
      simp only [List.cons_append, List.nodup_cons, List.nodup_append] at ndz
      exact ndz.2.2.2 z hh z (by simp) rfl)
    have dis : ∀ x ∈ ys₂ ++ [q], x ∉ y :: ys₁ := by
      intro x hx hx'
      rw [List.append_assoc] at nd
      exact (List.nodup_append.1 nd).2.2 x hx' x hx rfl
    have e2' : ys₂.map (kt w1.heap) = rest := by
      rw [← e2]; exact rl.map (fun x hx => dis x (by simp [hx]))
    have kq' : w1.heap.kind (some q) = .parenR := by
      rw [← kq]; exact congrArg Prod.fst (rl.frame q (dis q (by simp)))
    rw [ew] at run
    rw [List.append_assoc] at p nd
    obtain ⟨h1, h2, h3⟩ := ih d e2' (rl.path (Path.drop _ p)) (List.nodup_append.1 nd).2.1
      (fun x hx => by rw [rl.size]; exact lt x (by simp [hx])) kq' (r := r) (w' := w') (by rw [hz]; exact run)
    exact ⟨h1, h2, rl.append h3 (fun x hx hx' => dis x (by simp [hx']) hx)⟩

/-- The first token of a parameter. -/
theorem Param.first {nk tk : Kind} {b : Bool} {t : Token} {ts ts' : List Token} (P : Param nk tk b (t :: ts) ts') : t.1 ≠ .comma ∧ t.1 ≠ .parenR := by
  cases P with
  | word h _ => rw [h]; decide
  | plain h _ => exact ⟨h.2.1, h.2.2.1⟩
  | square h _ _ => rw [h]; decide
  | func _ h _ _ _ _ => rw [h]; decide

theorem params_run (rec : Bool) {ts ts' : List Token} (P : Params (nameK rec) (typeK rec) ts ts') : ParamsRun rec ts ts' := by
  refine Params.rec (nk := nameK rec) (tk := typeK rec) (motive_1 := fun ts ts' _ => ParamsRun rec ts ts')
    (motive_2 := fun b ts ts' _ => ParamRun rec b ts ts') ?_ ?_ ?_ ?_ ?_ ?_ ?_ ?_ P
  · exact paramsRun_nil rec
  · intro t ts ts' h _ ih; exact paramsRun_sep rec h ih
  · intro t ty ty' rest rest' first q stop _ ihq ih; exact paramsRun_param rec first q.first ihq stop ih
  · intro b; exact paramRun_nil rec b
  · intro b t ts ts' h _ ih; exact paramRun_word rec h ih
  · intro b t ts ts' h _ ih; exact paramRun_plain rec h ih
  · intro b t u ts inner rest rest' ht hc _ ih; exact paramRun_square rec ht hc ih
  · intro b t l u ps ps' ts ts' hk ht hl hu _ _ ihp ih
    exact paramRun_func rec (by cases rec with | false => rfl | true => simp [nameK] at hk) ht hl hu ihp ih

/-- The parenthesis resetter on parameters. -/
theorem paren_exact (d : Nat) (rec : Bool) {ts ts' : List Token} (P : Params (nameK rec) (typeK rec) ts ts') {h : Heap} {p q : Addr} {ys : List Addr}
    {w' : World} {r : Ptr} (e : ys.map (kt h) = ts) (pa : Path h (p :: (ys ++ [q]))) (nd : (p :: (ys ++ [q])).Nodup)
    (lt : ∀ x ∈ ys, x < h.size) (kp : h.kind (some p) = .parenL) (kq : h.kind (some q) = .parenR)
    (run : parenRun (d + 2) false rec ⟨h, []⟩ (some p) [] = some (w', r)) :
    w'.buf = [] ∧ r = some q ∧ Relab h w'.heap ys ts' := by
  rw [parenRun_eq _ _ _ _ kp] at run
  have run := JR.of_jumpLoop run
  have run := run.cont (w1 := ⟨h, []⟩) (s1 := ()) (by simp [parenBody, kp])
  simp only [pa.next (by simp : ys ++ [q] ≠ [])] at run
  exact params_run rec P _ e pa.tail (List.nodup_cons.1 nd).2 lt kq run

end Goast
