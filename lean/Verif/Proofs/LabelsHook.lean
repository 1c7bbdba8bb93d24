import Verif.Proofs.FuncReset
import Verif.Spec.TypeLabels

/-!
# The labels between the parentheses of a function type in a struct

The fields of a struct are read with a hook that turns every visited word into a type first.
-/

set_option linter.unusedSimpArgs false
set_option linter.unusedVariables false

namespace Goast
open Heap

/-- The hook of `handleStructRow`. -/
abbrev HK : List Hook := [.rawToParamType]

/-- Its effect. -/
def hookH (h : Heap) (a : Addr) : Heap := if h.kind (some a) = .raw then h.setKind (some a) .paramType else h

/-- The token of a node behind the hook. -/
def kth (h : Heap) (a : Addr) : Token := typeWord (kt h a)

theorem handleHook_HK (h : Heap) (b : List Ptr) (a : Addr) : handleHook ⟨h, b⟩ (some a) HK = ⟨hookH h a, b⟩ := by
  simp only [handleHook, List.foldl_cons, List.foldl_nil, runHook, hookH]
  split <;> rfl

theorem hookH_of {h : Heap} {a : Addr} (hk : h.kind (some a) ≠ .raw) : hookH h a = h := by simp [hookH, hk]

theorem typeWord_of {t : Token} (hk : t.1 ≠ .raw) : typeWord t = t := by simp [typeWord, hk]

theorem typeWord_idem (t : Token) : typeWord (typeWord t) = typeWord t := by
  apply typeWord_of
  simp only [typeWord]
  split <;> simp_all

theorem Relab.hook {h : Heap} {a : Addr} (ha : a < h.size) : Relab h (hookH h a) [a] [kth h a] := by
  by_cases hk : h.kind (some a) = .raw
  · have := Relab.set ha .paramType
    simpa [hookH, hk, kth, typeWord, kt] using this
  · have := Relab.same h [a]
    simpa [hookH, hk, kth, typeWord, kt] using this

/-- A token that is neither a word nor a type is not changed by the hook. -/
theorem keep_of {h : Heap} {y : Addr} {t : Token} (e : kth h y = typeWord t) (h1 : t.1 ≠ .raw) (h2 : t.1 ≠ .paramType) :
    kt h y = t ∧ hookH h y = h := by
  rw [typeWord_of h1] at e
  by_cases hk : (kt h y).1 = .raw
  · rw [← e] at h2
    simp [kth, typeWord, hk] at h2
  · rw [kth, typeWord_of hk] at e
    exact ⟨e, hookH_of hk⟩

theorem kth_frame {h h' : Heap} {l m : List Addr} {ts : List Token} (a : Relab h h' l ts) (dis : ∀ x ∈ m, x ∉ l) :
    m.map (kth h') = m.map (kth h) := List.map_congr_left fun x hx => by rw [kth, kth, a.frame x (dis x hx)]

/-! ## Loops with the hook -/

section
variable {σ : Type} {body : World → σ → Addr → Option (World × σ × Ctl)} {h : Heap} {w' w1 : World} {s s1 : σ} {r : Ptr} {a : Addr}

theorem JR.contH (run : JR false HK body ⟨h, []⟩ ⟨false, none, s⟩ (some a) w' r) (e : body ⟨hookH h a, []⟩ s a = some (w1, s1, .cont)) :
    JR false HK body w1 ⟨false, none, s1⟩ (w1.heap.next (some a)) w' r := by
  obtain ⟨j', run⟩ := run
  refine ⟨j', run.cont (w1 := (w1, ⟨false, none, s1⟩)) ?_⟩
  simp [jumpStep, handleHook_HK, e, applyCtl]

theorem JR.stopH (run : JR false HK body ⟨h, []⟩ ⟨false, none, s⟩ (some a) w' r) (e : body ⟨hookH h a, []⟩ s a = some (w1, s1, .stop)) :
    w' = w1 ∧ r = some a := by
  obtain ⟨j', run⟩ := run
  have := run.stop (w1 := (w1, ⟨false, none, s1⟩)) (by simp [jumpStep, handleHook_HK, e, applyCtl])
  cases this.1; exact ⟨rfl, this.2⟩

theorem JR.some_bodyH (run : JR false HK body ⟨h, []⟩ ⟨false, none, s⟩ (some a) w' r) : ∃ x, body ⟨hookH h a, []⟩ s a = some x := by
  obtain ⟨j', run⟩ := run
  obtain ⟨w1, b, e, _⟩ := run.step
  simp only [jumpStep, handleHook_HK] at e
  simp at e
  split at e
  · cases e
  · exact ⟨_, by assumption⟩

theorem JR.passH_path {q : Addr} : ∀ (mid : List Addr) (x : Addr), Path h (x :: (mid ++ [q])) → q ∉ mid → (∀ y ∈ mid, h.kind (some y) ≠ .raw) →
    JR false HK body ⟨h, []⟩ ⟨false, some q, s⟩ (h.next (some x)) w' r → JR false HK body ⟨h, []⟩ ⟨false, none, s⟩ (some q) w' r
  | [], x, p, _, _, run => by
    rw [p.1] at run
    obtain ⟨j', fuel, e⟩ := run
    refine ⟨j', fuel, ?_⟩
    cases fuel with
    | zero => simp [loop] at e
    | succ fuel =>
      rw [← e, loop, loop]
      have : jumpStep false HK body (⟨h, []⟩, ⟨false, some q, s⟩) q = jumpStep false HK body (⟨h, []⟩, ⟨false, none, s⟩) q := by
        simp [jumpStep]
      rw [this]
  | y :: mid, x, p, hq, hm, run => by
    rw [p.1] at run
    have ne : q ≠ y := fun e => hq (by simp [e])
    refine JR.passH_path mid y p.2 (fun hh => hq (by simp [hh])) (fun z hz => hm z (by simp [hz])) ?_
    obtain ⟨j', run⟩ := run
    refine ⟨j', run.cont (w1 := (⟨h, []⟩, ⟨false, some q, s⟩)) ?_⟩
    simp [jumpStep, handleHook_HK, ne, hookH_of (hm y (by simp))]

theorem JR.jumpH {h1 : Heap} {q : Addr} {mid : List Addr} (run : JR false HK body ⟨h, []⟩ ⟨false, none, s⟩ (some a) w' r)
    (e : body ⟨hookH h a, []⟩ s a = some (⟨h1, []⟩, s1, .jump (some q))) (p : Path h1 (a :: (mid ++ [q]))) (hq : q ∉ mid)
    (hm : ∀ y ∈ mid, h1.kind (some y) ≠ .raw) : JR false HK body ⟨h1, []⟩ ⟨false, none, s1⟩ (some q) w' r := by
  obtain ⟨j', run⟩ := run
  refine JR.passH_path mid a p hq hm ⟨j', run.cont (w1 := (⟨h1, []⟩, ⟨false, some q, s1⟩)) ?_⟩
  simp [jumpStep, handleHook_HK, e, applyCtl]

end

/-- Nodes that were visited are no words. -/
theorem Relab.visited {h h' : Heap} {l : List Addr} {ts : List Token} (rl : Relab h h' l (ts.map typeWord)) : ∀ y ∈ l, h'.kind (some y) ≠ .raw := by
  intro y hy
  have : kt h' y ∈ ts.map typeWord := by rw [← rl.toks]; exact List.mem_map_of_mem hy
  obtain ⟨t, _, e⟩ := List.mem_map.1 this
  rw [show h'.kind (some y) = (kt h' y).1 from rfl, ← e]
  simp only [typeWord]
  split <;> simp_all

/-! ## Skipping nested brackets -/

/-- The callback of `skipNestNext`, with the hook. -/
def closeFnH (L R : Kind) (ws : World × Int) (a : Addr) : Option ((World × Int) × Bool) :=
  let w := handleHook ws.1 (some a) HK
  let k := w.heap.kind (some a)
  if k = L then some ((w, ws.2 + 1), true)
  else if k = R then some ((w, ws.2 - 1), decide (ws.2 - 1 ≠ 0))
  else some ((w, ws.2), true)

theorem skipNestNext_runsH {h : Heap} {w' : World} {a : Addr} {r : Ptr} {L R : Kind} (hk : h.kind (some a) = L) (hL : L ≠ .raw)
    (e : skipNestNext ⟨h, []⟩ (some a) L R HK = some (w', r)) :
    ∃ c, Runs (fun (ws : World × Int) a => ws.1.heap.next (some a)) (closeFnH L R) (⟨h, []⟩, 1) (h.next (some a)) (w', c) r := by
  have hh : hookH h a = h := hookH_of (by rw [hk]; exact hL)
  have hf : findNext ⟨h, []⟩ (some a) [L] {} HK = some (⟨h, []⟩, some a) := by
    have hc : (CharSet.new [L]).contain L = true := by simp [CharSet.new, CharSet.contain]
    simp [findNext, iterW, loop, handleHook_HK, findCont, hk, hc, hh]
  simp only [skipNestNext, hk, if_true, handleHook_HK, hh, hf] at e
  unfold iterW at e
  rw [Option.map_eq_some_iff] at e
  obtain ⟨⟨⟨w2, c⟩, r2⟩, e1, e2⟩ := e
  simp only [Prod.mk.injEq] at e2
  obtain ⟨rfl, rfl⟩ := e2
  exact ⟨c, _, e1⟩

theorem closeAt_kth (L R : Kind) (hL : L ≠ .raw ∧ L ≠ .paramType) (hR : R ≠ .raw ∧ R ≠ .paramType) (h : Heap) : ∀ (ts : List Token) (ys : List Addr) (n : Nat)
    (i : List Token) (u : Token) (rest : List Token), ys.map (kth h) = ts.map typeWord →
    closeAt L R Prod.fst n ts = some (i, u, rest) →
    ∃ i' u' rest', ys = i' ++ u' :: rest' ∧ closeAt L R (fun a => (kth h a).1) n ys = some (i', u', rest') ∧ i'.map (kth h) = i.map typeWord ∧
      kth h u' = typeWord u ∧ rest'.map (kth h) = rest.map typeWord ∧ u.1 = R
  | [], ys, n, i, u, rest, em, e => by cases e
  | t :: ts, ys, n, i, u, rest, em, e => by
    obtain ⟨y, ys, rfl, e1, e2⟩ := List.map_eq_cons_iff.1 em
    rw [closeAt] at e
    have iff : ∀ K : Kind, K ≠ .raw ∧ K ≠ .paramType → ((kth h y).1 = K ↔ t.1 = K) := by
      intro K hK
      rw [e1]
      simp only [typeWord]
      split
      · rename_i hr; rw [hr]; exact ⟨fun h => absurd h.symm hK.2, fun h => absurd h.symm hK.1⟩
      · rfl
    have go : ∀ m, (closeAt L R Prod.fst m ts).map (fun r => (t :: r.1, r.2)) = some (i, u, rest) →
        ∃ i' u' rest', y :: ys = i' ++ u' :: rest' ∧ (closeAt L R (fun a => (kth h a).1) m ys).map (fun r => (y :: r.1, r.2)) = some (i', u', rest') ∧
          i'.map (kth h) = i.map typeWord ∧ kth h u' = typeWord u ∧ rest'.map (kth h) = rest.map typeWord ∧ u.1 = R := by
      intro m e
      obtain ⟨⟨i1, u1, r1⟩, e3, e4⟩ := Option.map_eq_some_iff.1 e
      simp only [Prod.mk.injEq] at e4
      obtain ⟨rfl, rfl, rfl⟩ := e4
      obtain ⟨i', u', rest', rfl, g1, g2, g3, g4, g5⟩ := closeAt_kth L R hL hR h ts ys m i1 u1 r1 e2 e3
      exact ⟨y :: i', u', rest', rfl, by rw [g1]; rfl, by simp [e1, g2], g3, g4, g5⟩
    rw [closeAt]
    by_cases kL : t.1 = L
    · rw [if_pos kL] at e
      rw [if_pos ((iff L hL).2 kL)]
      exact go _ e
    · rw [if_neg kL] at e
      rw [if_neg (fun h => kL ((iff L hL).1 h))]
      by_cases kR : t.1 = R
      · rw [if_pos kR] at e
        rw [if_pos ((iff R hR).2 kR)]
        by_cases hn : n = 0
        · rw [if_pos hn] at e
          rw [if_pos hn]
          simp only [Option.some.injEq, Prod.mk.injEq] at e
          obtain ⟨rfl, rfl, rfl⟩ := e
          exact ⟨[], y, ys, rfl, rfl, rfl, e1, e2, kR⟩
        · rw [if_neg hn] at e
          rw [if_neg hn]
          exact go _ e
      · rw [if_neg kR] at e
        rw [if_neg (fun h => kR ((iff R hR).1 h))]
        exact go _ e

theorem skip_runH {L R : Kind} (hLR : L ≠ R) : ∀ (ys : List Addr) (n : Nat) {h : Heap} {i : List Addr} {z : Addr} {rest : List Addr} {w' : World}
    {c : Int} {r : Ptr}, closeAt L R (fun a => (kth h a).1) n ys = some (i, z, rest) → Path h ys → ys.Nodup → (∀ x ∈ ys, x < h.size) →
    Runs (fun (ws : World × Int) a => ws.1.heap.next (some a)) (closeFnH L R) (⟨h, []⟩, (n : Int) + 1) ys.head? (w', c) r →
    w'.buf = [] ∧ r = some z ∧ Relab h w'.heap (i ++ [z]) ((i ++ [z]).map (kth h)) := by
  intro ys
  induction ys with
  | nil => intro n h i z rest w' c r e; cases e
  | cons y ys ih =>
    intro n h i z rest w' c r e p nd lt run
    simp only [List.head?_cons] at run
    unfold closeAt at e
    have rl := Relab.hook (lt y (by simp))
    have nd' := List.nodup_cons.1 nd
    have kk : (hookH h y).kind (some y) = (kth h y).1 := by
      have := rl.toks
      simp only [List.map_cons, List.map_nil, List.cons.injEq, and_true] at this
      rw [← this]; rfl
    have key : ∀ (m : Nat), (closeAt L R (fun a => (kth h a).1) m ys).map (fun r => (y :: r.1, r.2)) = some (i, z, rest) →
        closeFnH L R (⟨h, []⟩, (n : Int) + 1) y = some ((⟨hookH h y, []⟩, (m : Int) + 1), true) →
        w'.buf = [] ∧ r = some z ∧ Relab h w'.heap (i ++ [z]) ((i ++ [z]).map (kth h)) := by
      intro m e5 hf
      obtain ⟨⟨i', z', rest'⟩, e2, e'⟩ := Option.map_eq_some_iff.1 e5
      simp only [Prod.mk.injEq] at e'
      obtain ⟨rfl, rfl, rfl⟩ := e'
      have run := run.cont hf
      have ne : ys ≠ [] := by rintro rfl; cases e2
      simp only [rl.next, p.next ne] at run
      have hm : ys.map (kth (hookH h y)) = ys.map (kth h) := kth_frame rl (by simp; rintro x hx rfl; exact nd'.1 hx)
      have hsub : ∀ x ∈ i' ++ [z'], x ∈ ys := by
        have : ∀ (key : Addr → Kind) (l : List Addr) (n : Nat) (i : List Addr) (z : Addr) (r : List Addr), closeAt L R key n l = some (i, z, r) →
            ∀ x ∈ i ++ [z], x ∈ l := by
          intro key l
          induction l with
          | nil => intro n i z r e; cases e
          | cons b l ihl =>
            intro n i z r e x hx
            have go : ∀ m, (closeAt L R key m l).map (fun r => (b :: r.1, r.2)) = some (i, z, r) → x ∈ b :: l := by
              intro m e
              obtain ⟨⟨i1, z1, r1⟩, e3, e4⟩ := Option.map_eq_some_iff.1 e
              simp only [Prod.mk.injEq] at e4
              obtain ⟨rfl, rfl, rfl⟩ := e4
              rcases List.mem_cons.1 hx with rfl | hx
              · simp
              · exact List.mem_cons_of_mem _ (ihl m i1 z1 r1 e3 x hx)
            unfold closeAt at e
            split at e
            · exact go _ e
            · split at e
              · split at e
                · simp only [Option.some.injEq, Prod.mk.injEq] at e
                  obtain ⟨rfl, rfl, rfl⟩ := e
                  simp at hx; simp [hx]
                · exact go _ e
              · exact go _ e
        exact this _ _ _ _ _ _ e2
      have hcl : closeAt L R (fun a => (kth (hookH h y) a).1) m ys = some (i', z', rest') := by
        rw [← e2]
        have : ∀ (f g : Addr → Kind) (l : List Addr) (n : Nat), (∀ x ∈ l, f x = g x) → closeAt L R f n l = closeAt L R g n l := by
          intro f g l
          induction l with
          | nil => intros; rfl
          | cons b l ihl =>
            intro n hfg
            rw [closeAt, closeAt, hfg b (by simp), ihl _ (fun x hx => hfg x (by simp [hx])), ihl _ (fun x hx => hfg x (by simp [hx])),
              ihl _ (fun x hx => hfg x (by simp [hx]))]
        refine this _ _ _ _ fun x hx => ?_
        have := rl.frame x (by simp; rintro rfl; exact nd'.1 hx)
        rw [kth, kth, this]
      obtain ⟨g1, g2, g3⟩ := ih m hcl (rl.path p.tail) nd'.2 (fun x hx => by rw [rl.size]; exact lt x (by simp [hx])) run
      refine ⟨g1, g2, ?_⟩
      have hm2 : (i' ++ [z']).map (kth (hookH h y)) = (i' ++ [z']).map (kth h) :=
        kth_frame rl (fun x hx => by simp; rintro rfl; exact nd'.1 (hsub _ hx))
      rw [hm2] at g3
      exact rl.cons g3 (fun hh => nd'.1 (hsub _ hh))
    by_cases hL : (kth h y).1 = L
    · rw [if_pos hL] at e
      exact key (n + 1) e (by simp [closeFnH, handleHook_HK, kk, hL])
    · rw [if_neg hL] at e
      by_cases hR : (kth h y).1 = R
      · rw [if_pos hR] at e
        by_cases hn : n = 0
        · subst hn
          rw [if_pos rfl] at e
          simp only [Option.some.injEq, Prod.mk.injEq] at e
          obtain ⟨rfl, rfl, rfl⟩ := e
          have := run.stop (w1 := (⟨hookH h y, []⟩, 0)) (by simp [closeFnH, handleHook_HK, kk, hR, Ne.symm hLR])
          simp only [Prod.mk.injEq] at this
          rw [this.1.1]
          exact ⟨rfl, this.2, rl⟩
        · rw [if_neg hn] at e
          refine key (n - 1) e ?_
          simp only [closeFnH, handleHook_HK, kk, hR, Ne.symm hLR, if_true, if_false]
          congr 2
          · congr 1; omega
          · simpa using hn
      · rw [if_neg hR] at e
        exact key n e (by simp [closeFnH, handleHook_HK, kk, hL, hR])

/-! ## One parameter -/

/-- The callback of `parenthesisResetter.Run`, with the hook. -/
def parenBodyH (d : Nat) (w : World) (_ : Unit) (a : Addr) : Option (World × Unit × Ctl) :=
  match w.heap.kind (some a) with
  | .parenR => some (w, (), .stop)
  | .comment | .comma | .parenL | .tab | .newLine | .space => some (w, (), .cont)
  | _ => toJump (parenParam d false w (some a) HK) ()

theorem parenRun_eqH (d : Nat) (w : World) (head : Ptr) (hk : w.heap.kind head = .parenL) :
    parenRun (d + 1) false false w head HK = jumpLoop false HK (parenBodyH d) w () head := by
  rw [parenRun]
  simp only [Bool.false_eq_true, if_false, hk, ne_eq, not_true_eq_false]
  rfl

/-- The callback of `handleParenthesisParam`, with the hook. -/
def pparamBodyH (d : Nat) (count : Nat) (w : World) (named : Bool) (a : Addr) :
    Option (World × Bool × Ctl) :=
  match w.heap.kind (some a) with
  | .comma | .parenR => some (w, named, .stop)
  | .squareL => toJump (squareRun w (some a) HK) named
  | .comment | .parenL | .tab | .newLine | .space => some (w, named, .cont)
  | .func_ => toJump (funcRun d { isParameter := true } w (some a) HK) named
  | .raw | .paramType | .paramName =>
    if count = 1 then
      some ({ w with heap := w.heap.setKind (some a) .paramType }, named, .cont)
    else if named = false then
      some ({ w with heap := w.heap.setKind (some a) .paramName }, true, .cont)
    else some ({ w with heap := w.heap.setKind (some a) .paramType }, named, .cont)
  | _ => some (w, named, .cont)

theorem parenParam_eqH (d : Nat) (w : World) (head : Ptr) : parenParam (d + 1) false w head HK =
    match validParamCount w head with
    | none => none
    | some count => jumpLoop false HK (pparamBodyH d count) w false head := by
  rw [parenParam]; rfl

theorem relevant_typeWord : ∀ ts : List Token, relevant (ts.map typeWord) = relevant ts
  | [] => rfl
  | t :: ts => by
    rw [List.map_cons, relevant, relevant, relevant_typeWord ts]
    by_cases hr : t.1 = .raw
    · simp [typeWord, hr, isBlank]
    · rw [typeWord_of hr]

/-- What the loop over the contents of a pair of parentheses does. -/
def ParamsRunH (ts ts' : List Token) : Prop :=
  ∀ (d : Nat) {h : Heap} {ys : List Addr} {w' : World} {r : Ptr} {q : Addr}, ys.map (kth h) = ts.map typeWord → Path h (ys ++ [q]) → (ys ++ [q]).Nodup →
    (∀ x ∈ ys, x < h.size) → h.kind (some q) = .parenR →
    JR false HK (parenBodyH d) ⟨h, []⟩ ⟨false, none, ()⟩ (ys ++ [q]).head? w' r →
    w'.buf = [] ∧ r = some q ∧ Relab h w'.heap ys (ts'.map typeWord)

/-- What the loop over one parameter does. -/
def ParamRunH (pending : Bool) (ts ts' : List Token) : Prop :=
  ∀ (d count : Nat) (named : Bool) {h : Heap} {ys : List Addr} {w' : World} {r : Ptr} {e : Addr}, ys.map (kth h) = ts.map typeWord → Path h (ys ++ [e]) →
    (ys ++ [e]).Nodup → (∀ x ∈ ys, x < h.size) → h.kind (some e) = .comma ∨ h.kind (some e) = .parenR →
    (decide (count ≠ 1) && !named) = pending →
    JR false HK (pparamBodyH d count) ⟨h, []⟩ ⟨false, none, named⟩ (ys ++ [e]).head? w' r →
    w'.buf = [] ∧ r = some e ∧ Relab h w'.heap ys (ts'.map typeWord)

theorem hook_stop {h : Heap} {e : Addr} (ke : h.kind (some e) = .comma ∨ h.kind (some e) = .parenR) : hookH h e = h :=
  hookH_of (by rcases ke with ke | ke <;> rw [ke] <;> decide)

theorem paramRunH_nil (pending : Bool) : ParamRunH pending [] [] := by
  intro d count named h ys w' r e em p nd lt ke hp run
  have : ys = [] := List.map_eq_nil_iff.1 em
  subst this
  simp only [List.nil_append, List.head?_cons] at run
  have := run.stopH (w1 := ⟨h, []⟩) (s1 := named) (by rw [hook_stop ke]; rcases ke with ke | ke <;> simp [pparamBodyH, ke])
  rw [this.1]
  exact ⟨rfl, this.2, .nil h⟩

theorem paramRunH_plain {pending : Bool} {t : Token} {ts ts' : List Token} (ht : isPlain t) (ih : ParamRunH pending ts ts') :
    ParamRunH pending (t :: ts) (t :: ts') := by
  intro d count named h ys w' r e em p nd lt ke hp run
  obtain ⟨y, ys, rfl, e1, e2⟩ := List.map_eq_cons_iff.1 em
  simp only [List.cons_append, List.head?_cons] at run p nd
  have hn := p.next (by simp : ys ++ [e] ≠ [])
  obtain ⟨ey, hy⟩ := keep_of e1 ht.1 ht.2.2.2.2.2.2
  rw [List.map_cons, typeWord_of ht.1, ← ey]
  rw [← ey] at ht
  obtain ⟨k1, k2, k3, k4, k5, k6, k7⟩ := ht
  simp only [kt] at k1 k2 k3 k4 k5 k6 k7
  have nd' := List.nodup_cons.1 nd
  have run := run.contH (w1 := ⟨h, []⟩) (s1 := named) (by
    rw [hy]
    simp only [pparamBodyH]
    split <;> first | rfl | (exfalso; simp_all; done) | skip)
  simp only [hn] at run
  obtain ⟨h1, h2, h3⟩ := ih d count named e2 p.tail nd'.2 (fun x hx => lt x (by simp [hx])) ke hp run
  exact ⟨h1, h2, (Relab.same h [y]).cons h3 (fun hh => nd'.1 (by simp [hh]))⟩

theorem paramRunH_word {pending : Bool} {t : Token} {ts ts' : List Token} (ht : t.1 = .raw) (ih : ParamRunH false ts ts') :
    ParamRunH pending (t :: ts) ((if pending then .paramName else .paramType, t.2) :: ts') := by
  intro d count named h ys w' r e em p nd lt ke hp run
  obtain ⟨y, ys, rfl, e1, e2⟩ := List.map_eq_cons_iff.1 em
  simp only [List.cons_append, List.head?_cons] at run p nd
  have hn := p.next (by simp : ys ++ [e] ≠ [])
  have rl0 := Relab.hook (lt y (by simp))
  have ey : kt (hookH h y) y = (.paramType, t.2) := by
    have := rl0.toks
    simp only [List.map_cons, List.map_nil, List.cons.injEq, and_true] at this
    rw [this, e1]; simp [typeWord, ht]
  have hraw : (hookH h y).kind (some y) = .paramType := congrArg Prod.fst ey
  have htext : (hookH h y).text (some y) = t.2 := congrArg Prod.snd ey
  have nd' := List.nodup_cons.1 nd
  have yd : y ∉ ys := fun hh => nd'.1 (by simp [hh])
  have ye : e ≠ y := fun hh => nd'.1 (by simp [hh])
  have hk0 : typeWord (if pending then Kind.paramName else Kind.paramType, t.2) = (if pending then Kind.paramName else Kind.paramType, t.2) :=
    typeWord_of (by cases pending <;> simp)
  rw [List.map_cons, hk0]
  have key : ∀ (k : Kind) (named' : Bool), pparamBodyH d count ⟨hookH h y, []⟩ named y = some (⟨(hookH h y).setKind (some y) k, []⟩, named', .cont) →
      k = (if pending then .paramName else .paramType) → (decide (count ≠ 1) && !named') = false →
      w'.buf = [] ∧ r = some e ∧ Relab h w'.heap (y :: ys) ((if pending then .paramName else .paramType, t.2) :: ts'.map typeWord) := by
    intro k named' hb hk hp'
    have run := run.contH hb
    have rl : Relab h ((hookH h y).setKind (some y) k) [y] [(k, t.2)] := by
      have r2 := Relab.set (h := hookH h y) (a := y) (by rw [rl0.size]; exact lt y (by simp)) k
      rw [htext] at r2
      exact ⟨r2.size.trans rl0.size, fun p => (r2.next p).trans (rl0.next p), fun p => (r2.prev p).trans (rl0.prev p),
        fun p => (r2.line p).trans (rl0.line p), fun x hx => (r2.frame x hx).trans (rl0.frame x hx), r2.toks⟩
    rw [rl.next, hn] at run
    have em : ys.map (kth ((hookH h y).setKind (some y) k)) = ys.map (kth h) := kth_frame rl (by simp; rintro x hx rfl; exact yd hx)
    have ke' : kt ((hookH h y).setKind (some y) k) e = kt h e := rl.frame e (by simp [ye])
    have ke'' : ((hookH h y).setKind (some y) k).kind (some e) = h.kind (some e) := congrArg Prod.fst ke'
    obtain ⟨h1, h2, h3⟩ := ih d count named' (by rw [em]; exact e2) (rl.path p.tail) nd'.2
      (fun x hx => by rw [rl.size]; exact lt x (by simp [hx]))
      (by rw [ke'']; exact ke) hp' run
    refine ⟨h1, h2, ?_⟩
    rw [← hk]
    exact rl.cons h3 yd
  by_cases hc : count = 1
  · exact key .paramType named (by simp [pparamBodyH, hraw, hc]) (by rw [← hp]; simp [hc]) (by simp [hc])
  · cases named with
    | false => exact key .paramName true (by simp [pparamBodyH, hraw, hc]) (by rw [← hp]; simp [hc]) (by simp)
    | true => exact key .paramType true (by simp [pparamBodyH, hraw, hc]) (by rw [← hp]; simp) (by simp)

theorem paramRunH_square {pending : Bool} {t u : Token} {ts inner rest rest' : List Token} (ht : t.1 = .squareL)
    (hc : closeAt .squareL .squareR Prod.fst 0 ts = some (inner, u, rest)) (ih : ParamRunH pending rest rest') :
    ParamRunH pending (t :: ts) (t :: (inner ++ u :: rest')) := by
  intro d count named h ys w' r e em p nd lt ke hp run
  obtain ⟨y, ys, rfl, e1, e2⟩ := List.map_eq_cons_iff.1 em
  simp only [List.cons_append, List.head?_cons] at run p nd
  obtain ⟨ey, hy⟩ := keep_of e1 (by rw [ht]; decide) (by rw [ht]; decide)
  have hsq : h.kind (some y) = .squareL := by rw [← ht, ← ey]; rfl
  have nd' := List.nodup_cons.1 nd
  obtain ⟨i, z, rest, rfl, hcl, g2, g3, g4, g5⟩ := closeAt_kth .squareL .squareR (by decide) (by decide) h ts ys 0 _ _ _ e2 hc
  obtain ⟨x, hx⟩ := run.some_bodyH
  rw [hy] at hx
  have hb : pparamBodyH d count ⟨h, []⟩ named y = toJump (squareRun ⟨h, []⟩ (some y) HK) named := by
    simp [pparamBodyH, hsq]
  have kz : h.kind (some z) = .squareR := by
    obtain ⟨ez, _⟩ := keep_of g3 (by rw [g5]; decide) (by rw [g5]; decide)
    rw [← g5, ← ez]; rfl
  cases hg : squareRun ⟨h, []⟩ (some y) HK with
  | none => rw [hb, hg] at hx; simp [toJump] at hx
  | some v =>
    obtain ⟨w1, q⟩ := v
    obtain ⟨c, srun⟩ := skipNestNext_runsH hsq (by decide) hg
    have p0 : Path h (y :: (i ++ z :: rest)) := Path.left (m := y :: (i ++ z :: rest)) p
    rw [p0.next (by simp)] at srun
    have nd0 : (i ++ z :: rest).Nodup := by
      have := nd'.2
      rw [List.nodup_append] at this
      exact this.1
    obtain ⟨hbuf, rfl, rl⟩ := skip_runH (by decide) _ 0 hcl p0.tail nd0 (fun x hx => lt x (List.mem_cons_of_mem _ hx)) srun
    have ew : w1 = ⟨w1.heap, []⟩ := by cases w1; simp_all
    have ex : y :: (i ++ z :: rest ++ [e]) = (y :: (i ++ [z])) ++ (rest ++ [e]) := by simp
    rw [ex] at p nd
    have zi : z ∉ i := by
      intro hh
      have := (List.nodup_append.1 nd).1
      simp only [List.nodup_cons, List.nodup_append] at this
      exact this.2.2.2 z hh z (by simp) rfl
    have toks : (i ++ [z]).map (kth h) = (inner ++ [u]).map typeWord := by simp [g2, g3]
    rw [toks] at rl
    have vis := rl.visited
    have run := run.jumpH (h1 := w1.heap) (s1 := named) (by rw [hy, hb, hg, ← ew]; rfl) (rl.path p.left) zi (fun x hx => vis x (by simp [hx]))
    have kz1 : w1.heap.kind (some z) = .squareR := by
      have := rl.toks
      rw [List.map_append, List.map_append] at this
      have := List.append_inj_right' this rfl
      simp only [List.map_cons, List.map_nil, List.cons.injEq, and_true] at this
      have h1 := congrArg Prod.fst this
      rw [typeWord_of (by rw [g5]; decide), g5] at h1
      exact h1
    have hz1 : hookH w1.heap z = w1.heap := hookH_of (by rw [kz1]; decide)
    have run := run.contH (w1 := ⟨w1.heap, []⟩) (s1 := named) (by rw [hz1]; simp [pparamBodyH, kz1])
    have p3 : Path h (z :: (rest ++ [e])) := Path.drop (y :: i) (by simpa using p)
    simp only [rl.next, p3.next (by simp : rest ++ [e] ≠ [])] at run
    have dis : ∀ x ∈ rest ++ [e], x ∉ i ++ [z] := fun x hx hx' =>
      (List.nodup_append.1 nd).2.2 x (List.mem_cons_of_mem _ hx') x hx rfl
    have ke' : w1.heap.kind (some e) = h.kind (some e) := congrArg Prod.fst (rl.frame e (dis e (by simp)))
    obtain ⟨h1, h2, h3⟩ := ih d count named (by rw [kth_frame rl (fun x hx => dis x (by simp [hx]))]; exact g4) (rl.path p3.tail) (List.nodup_append.1 nd).2.1
      (fun x hx => by rw [rl.size]; exact lt x (by simp [hx])) (by rw [ke']; exact ke) hp run
    refine ⟨h1, h2, ?_⟩
    have r1 : Relab h w1.heap (y :: (i ++ [z])) (typeWord t :: (inner ++ [u]).map typeWord) := by
      rw [typeWord_of (by rw [ht]; decide), ← ey]
      exact (Relab.same h [y]).cons rl (fun hh => (List.nodup_cons.1 (List.nodup_append.1 nd).1).1 hh)
    have := r1.append h3 (fun x hx hx' => (List.nodup_append.1 nd).2.2 x hx x (by simp [hx']) rfl)
    simpa using this

/-- `func` and its parameters inside a parameter: the run ends behind the closing parenthesis. -/
theorem parameterFunc_exactH {ps ps' : List Token} (P : ParamsRunH ps ps') (d : Nat) {h : Heap} {y l u : Addr} {ys : List Addr} {w' : World} {r : Ptr}
    (em : ys.map (kth h) = ps.map typeWord) (p : Path h (y :: l :: (ys ++ [u]))) (nd : (y :: l :: (ys ++ [u])).Nodup) (lt : ∀ x ∈ ys, x < h.size)
    (ky : h.kind (some y) = .func_) (kl : h.kind (some l) = .parenL) (ku : h.kind (some u) = .parenR)
    (run : parameterFunc d ⟨h, []⟩ (some y) HK = some (w', r)) :
    w'.buf = [] ∧ r = h.next (some u) ∧ Relab h w'.heap ys (ps'.map typeWord) := by
  cases d with
  | zero => rw [parameterFunc] at run; cases run
  | succ d =>
    rw [parameterFunc] at run
    cases hg : generalFunc d ⟨h, []⟩ (some y) [.comma, .parenR, .newLine] HK with
    | none => simp [hg] at run
    | some v =>
      obtain ⟨w1, q1⟩ := v
      suffices hh : w1.buf = [] ∧ q1 = some u ∧ Relab h w1.heap ys (ps'.map typeWord) by
        obtain ⟨hbuf, rfl, rl⟩ := hh
        have uys : u ∉ ys := by
          intro hh
          simp only [List.nodup_cons, List.nodup_append] at nd
          exact nd.2.2.2.2 u hh u (by simp) rfl
        have ku' : w1.heap.kind (some u) = .parenR := by rw [← ku]; exact congrArg Prod.fst (rl.frame u uys)
        have ew : w1 = ⟨w1.heap, []⟩ := by cases w1; simp_all
        rw [ew] at hg
        have hu' : hookH w1.heap u = w1.heap := hookH_of (by rw [ku']; decide)
        simp only [hg, ku', if_true, handleHook_HK, hu', Option.some.injEq, Prod.mk.injEq] at run
        obtain ⟨rfl, rfl⟩ := run
        exact ⟨rfl, rl.next _, rl⟩
      cases d with
      | zero => rw [generalFunc] at hg; cases hg
      | succ d =>
        rw [generalFunc] at hg
        have hy : hookH h y = h := hookH_of (by rw [ky]; decide)
        simp only [ky, decide_true, if_true, handleHook_HK, hy, List.length_cons, List.length_nil] at hg
        have run2 := JR.of_jumpLoop hg
        have run2 : JR false HK (generalBody d (CharSet.new [.comma, .parenR, .newLine]) HK) ⟨h, []⟩ ⟨false, none, (false, false)⟩ (h.next (some y)) w1 q1 := run2
        have hyl : h.next (some y) = some l := p.1
        rw [hyl] at run2
        obtain ⟨x, hx⟩ := run2.some_bodyH
        have hl : hookH h l = h := hookH_of (by rw [kl]; decide)
        rw [hl] at hx
        have c1 : (CharSet.new [Kind.comma, .parenR, .newLine]).contain .parenL = false := by decide
        have c2 : (CharSet.new [Kind.comma, .parenR, .newLine]).contain .parenR = true := by decide
        have hb : generalBody d (CharSet.new [.comma, .parenR, .newLine]) HK ⟨h, []⟩ (false, false) l =
            toJump (parenRun d false false ⟨h, []⟩ (some l) HK) (false, true) := by
          simp [generalBody, kl, c1]
        cases hg2 : parenRun d false false ⟨h, []⟩ (some l) HK with
        | none => exact absurd (hb.symm.trans hx) (by rw [hg2]; simp [toJump])
        | some v2 =>
          obtain ⟨w2, q2⟩ := v2
          have hg3 := hg2
          cases d with
          | zero => rw [parenRun] at hg2; cases hg2
          | succ d =>
            rw [parenRun_eqH _ _ _ kl] at hg2
            have run3 := JR.of_jumpLoop hg2
            have run3 := run3.contH (w1 := ⟨h, []⟩) (s1 := ()) (by rw [hl]; simp [parenBodyH, kl])
            have p2 := p.tail
            simp only [p2.next (by simp : ys ++ [u] ≠ [])] at run3
            have nd2 := (List.nodup_cons.1 nd).2
            obtain ⟨hbuf, rfl, rl⟩ := P d em p2.tail (List.nodup_cons.1 nd2).2 lt ku run3
            have ew : w2 = ⟨w2.heap, []⟩ := by cases w2; simp_all
            have uys : u ∉ ys := by
              intro hh
              simp only [List.nodup_cons, List.nodup_append] at nd
              exact nd.2.2.2.2 u hh u (by simp) rfl
            have run2 := run2.jumpH (h1 := w2.heap) (s1 := (false, true)) (q := u) (mid := ys) (by
              rw [hl, hb, hg3, ← ew]; rfl) (rl.path p2) uys rl.visited
            have ku' : w2.heap.kind (some u) = .parenR := by rw [← ku]; exact congrArg Prod.fst (rl.frame u uys)
            have := run2.stopH (w1 := ⟨w2.heap, []⟩) (s1 := (false, true)) (by
              rw [hookH_of (by rw [ku']; decide)]; simp [generalBody, ku', c2])
            obtain ⟨rfl, rfl⟩ := this
            exact ⟨rfl, rfl, rl⟩

theorem paramRunH_func {pending : Bool} {t l u : Token} {ps ps' ts ts' : List Token} (ht : t.1 = .func_)
    (hl : l.1 = .parenL) (hu : u.1 = .parenR) (P : ParamsRunH ps ps') (ih : ParamRunH pending ts ts') :
    ParamRunH pending (t :: l :: (ps ++ u :: ts)) (t :: l :: (ps' ++ u :: ts')) := by
  intro d count named h ys w' r e em p nd lt ke hp run
  simp only [List.map_cons, List.map_append] at em
  obtain ⟨y, ys, rfl, e1, em⟩ := List.map_eq_cons_iff.1 em
  obtain ⟨l', ys, rfl, e2, em⟩ := List.map_eq_cons_iff.1 em
  obtain ⟨ys, l2, rfl, e3, em⟩ := List.map_eq_append_iff.1 em
  obtain ⟨u', l3, rfl, e4, em⟩ := List.map_eq_cons_iff.1 em
  simp only [List.cons_append, List.head?_cons] at run p nd
  obtain ⟨e1, hy⟩ := keep_of e1 (by rw [ht]; decide) (by rw [ht]; decide)
  obtain ⟨e2, hl'⟩ := keep_of e2 (by rw [hl]; decide) (by rw [hl]; decide)
  obtain ⟨e4, hu'⟩ := keep_of e4 (by rw [hu]; decide) (by rw [hu]; decide)
  have t1 : typeWord t = t := typeWord_of (by rw [ht]; decide)
  have t2 : typeWord l = l := typeWord_of (by rw [hl]; decide)
  have t3 : typeWord u = u := typeWord_of (by rw [hu]; decide)
  simp only [List.map_cons, List.map_append, t1, t2, t3]
  rw [← e1] at ht ⊢
  rw [← e2] at hl ⊢
  rw [← e4] at hu ⊢
  have ky : h.kind (some y) = .func_ := ht
  have ex : y :: l' :: (ys ++ u' :: l3 ++ [e]) = (y :: l' :: (ys ++ [u'])) ++ (l3 ++ [e]) := by simp
  rw [ex] at p nd
  obtain ⟨x, hx⟩ := run.some_bodyH
  rw [hy] at hx
  have hb : pparamBodyH d count ⟨h, []⟩ named y = toJump (funcRun d { isParameter := true } ⟨h, []⟩ (some y) HK) named := by
    simp [pparamBodyH, ky]
  cases hg : funcRun d { isParameter := true } ⟨h, []⟩ (some y) HK with
  | none => rw [hb, hg] at hx; simp [toJump] at hx
  | some v =>
    obtain ⟨w1, q⟩ := v
    have hg0 := hg
    cases d with
    | zero => rw [funcRun] at hg; cases hg
    | succ d =>
      rw [funcRun] at hg
      simp only [if_true] at hg
      obtain ⟨hbuf, hq, rl⟩ := parameterFunc_exactH P d e3 p.left (List.nodup_append.1 nd).1 (fun x hx => lt x (by simp [hx])) ky hl hu hg
      have ew : w1 = ⟨w1.heap, []⟩ := by cases w1; simp_all
      have p3 : Path h (u' :: (l3 ++ [e])) := Path.drop (y :: l' :: ys) (by simpa using p)
      obtain ⟨z, m, hz⟩ : ∃ z m, l3 ++ [e] = z :: m := by
        cases l3 with
        | nil => exact ⟨e, [], rfl⟩
        | cons z m => exact ⟨z, m ++ [e], rfl⟩
      rw [p3.next (by simp : l3 ++ [e] ≠ []), hz, List.head?_cons] at hq
      subst hq
      have pz : Path h (y :: (l' :: (ys ++ [u']) ++ [z])) := by
        rw [hz, ← List.singleton_append (l := m), ← List.append_assoc] at p
        exact p.left
      have nd1 := (List.nodup_append.1 nd).1
      have uys : u' ∉ ys := by
        intro hh
        simp only [List.nodup_cons, List.nodup_append] at nd1
        exact nd1.2.2.2.2 u' hh u' (by simp) rfl
      have lys : l' ∉ ys := fun hh => (List.nodup_cons.1 (List.nodup_cons.1 nd1).2).1 (by simp [hh])
      have vis : ∀ x ∈ l' :: (ys ++ [u']), w1.heap.kind (some x) ≠ .raw := by
        intro x hx
        simp only [List.mem_cons, List.mem_append, List.mem_singleton, List.not_mem_nil, or_false] at hx
        rcases hx with rfl | hx | rfl
        · have : w1.heap.kind (some x) = h.kind (some x) := congrArg Prod.fst (rl.frame x lys)
          rw [this, show h.kind (some x) = .parenL from hl]; decide
        · exact rl.visited x hx
        · have : w1.heap.kind (some x) = h.kind (some x) := congrArg Prod.fst (rl.frame x uys)
          rw [this, show h.kind (some x) = .parenR from hu]; decide
      have run := run.jumpH (h1 := w1.heap) (s1 := named) (q := z) (mid := l' :: (ys ++ [u'])) (by rw [hy, hb, hg0, ← ew]; rfl) (rl.path pz) (by
        intro hh
        exact (List.nodup_append.1 nd).2.2 z (List.mem_cons_of_mem _ hh) z (by rw [hz]; simp) rfl) vis
      have rl2 : Relab h w1.heap (y :: l' :: (ys ++ [u'])) (kt h y :: kt h l' :: (ps'.map typeWord ++ [kt h u'])) := by
        refine (Relab.same h [y]).cons ((Relab.same h [l']).cons ?_ (List.nodup_cons.1 (List.nodup_cons.1 nd1).2).1) (List.nodup_cons.1 nd1).1
        have kq : kt w1.heap u' = kt h u' := rl.frame u' uys
        have := rl.append (Relab.same w1.heap [u']) (fun x hx hx' => by
          simp only [List.mem_singleton] at hx'
          subst hx'
          exact uys hx)
        simpa [kq] using this
      have dis : ∀ x ∈ l3 ++ [e], x ∉ y :: l' :: (ys ++ [u']) := fun x hx hx' => (List.nodup_append.1 nd).2.2 x hx' x hx rfl
      have em' : l3.map (kth w1.heap) = ts.map typeWord := by
        rw [← em]; exact kth_frame rl2 (fun x hx => dis x (by simp [hx]))
      have ke' : w1.heap.kind (some e) = h.kind (some e) := congrArg Prod.fst (rl2.frame e (dis e (by simp)))
      obtain ⟨h1, h2, h3⟩ := ih (d + 1) count named em' (rl.path p3.tail) (List.nodup_append.1 nd).2.1 (fun x hx => by rw [rl.size]; exact lt x (by simp [hx]))
        (by rw [ke']; exact ke) hp (r := r) (w' := w') (by rw [hz]; exact run)
      refine ⟨h1, h2, ?_⟩
      have := rl2.append h3 (fun x hx hx' => dis x (by simp [hx']) hx)
      simpa using this

/-! ## The parameters between parentheses -/

theorem paramsRunH_nil : ParamsRunH [] [] := by
  intro d h ys w' r q e p nd lt kq run
  have : ys = [] := List.map_eq_nil_iff.1 e
  subst this
  simp only [List.nil_append, List.head?_cons] at run
  have := run.stopH (w1 := ⟨h, []⟩) (s1 := ()) (by rw [hook_stop (.inr kq)]; simp [parenBodyH, kq])
  rw [this.1]
  exact ⟨rfl, this.2, .nil h⟩

theorem paramsRunH_sep {t : Token} {ts ts' : List Token} (hs : isBlank t ∨ t.1 = .comma ∨ t.1 = .parenL) (ih : ParamsRunH ts ts') :
    ParamsRunH (t :: ts) (t :: ts') := by
  intro d h ys w' r q e p nd lt kq run
  obtain ⟨y, ys, rfl, e1, e2⟩ := List.map_eq_cons_iff.1 e
  have n1 : t.1 ≠ .raw ∧ t.1 ≠ .paramType := by
    simp only [isBlank] at hs
    rcases hs with (hs | hs | hs | hs) | hs | hs <;> rw [hs] <;> decide
  obtain ⟨ey, hy⟩ := keep_of e1 n1.1 n1.2
  simp only [List.cons_append, List.head?_cons] at run p nd
  have run := run.contH (w1 := ⟨h, []⟩) (s1 := ()) (by
    rw [hy]
    rw [← ey] at hs
    simp only [isBlank, kt] at hs
    rcases hs with (hs | hs | hs | hs) | hs | hs <;> simp [parenBodyH, hs])
  simp only [p.next (by simp : ys ++ [q] ≠ [])] at run
  obtain ⟨h1, h2, h3⟩ := ih d e2 p.tail (List.nodup_cons.1 nd).2 (fun x hx => lt x (by simp [hx])) kq run
  refine ⟨h1, h2, ?_⟩
  rw [List.map_cons, typeWord_of n1.1, ← ey]
  exact (Relab.same h [y]).cons h3 (fun hh => (List.nodup_cons.1 nd).1 (by simp [hh]))

theorem relevant_kth {h : Heap} (ys : List Addr) : relevant (ys.map (kt h)) = relevant (ys.map (kth h)) := by
  rw [← relevant_typeWord, List.map_map]; rfl

theorem param_exactH {ts ts' : List Token} (P : ParamRunH (decide (relevant ts ≠ 1)) ts ts') (d : Nat) {ys : List Addr} {h : Heap} {w' : World}
    {r : Ptr} {e : Addr} (em : ys.map (kth h) = ts.map typeWord) (p : Path h (ys ++ [e])) (nd : (ys ++ [e]).Nodup) (lt : ∀ x ∈ ys, x < h.size)
    (ke : h.kind (some e) = .comma ∨ h.kind (some e) = .parenR)
    (run : parenParam d false ⟨h, []⟩ (ys ++ [e]).head? HK = some (w', r)) :
    w'.buf = [] ∧ r = some e ∧ Relab h w'.heap ys (ts'.map typeWord) := by
  cases d with
  | zero => rw [parenParam] at run; cases run
  | succ d =>
    rw [parenParam_eqH] at run
    split at run
    · cases run
    · rename_i n hn
      obtain ⟨cw, cr, crun⟩ := validParamCount_runs hn
      have := count_run ys 0 (w := ⟨h, []⟩) p ke crun
      rw [Nat.zero_add, relevant_kth, em, relevant_typeWord] at this
      exact P d n false em p nd lt ke (by rw [this]; simp) (JR.of_jumpLoop run)

theorem paramsRunH_param {t : Token} {ty ty' rest rest' : List Token} (first : ¬ isBlank t ∧ t.1 ≠ .parenL)
    (nc : t.1 ≠ .comma ∧ t.1 ≠ .parenR) (P : ParamRunH (decide (relevant (t :: ty) ≠ 1)) (t :: ty) ty')
    (stop : ∀ x, rest.head? = some x → x.1 = .comma) (ih : ParamsRunH rest rest') : ParamsRunH (t :: ty ++ rest) (ty' ++ rest') := by
  intro d h ys w' r q e p nd lt kq run
  rw [List.map_append] at e
  obtain ⟨ys₁, ys₂, rfl, e1, e2⟩ := List.map_eq_append_iff.1 e
  obtain ⟨y, ys₁, rfl, ey, e1'⟩ := List.map_eq_cons_iff.1 e1
  -- where the parameter ends
  obtain ⟨z, m, hz⟩ : ∃ z m, ys₂ ++ [q] = z :: m := by
    cases ys₂ with
    | nil => exact ⟨q, [], rfl⟩
    | cons z m => exact ⟨z, m ++ [q], rfl⟩
  have kz : h.kind (some z) = .comma ∨ h.kind (some z) = .parenR := by
    cases ys₂ with
    | nil => cases hz; exact .inr kq
    | cons z' m' =>
      simp only [List.cons_append, List.cons.injEq] at hz
      obtain ⟨rfl, _⟩ := hz
      cases rest with
      | nil => cases e2
      | cons x rest =>
        have hx := stop x rfl
        simp only [List.map_cons, List.cons.injEq] at e2
        obtain ⟨ez, _⟩ := keep_of e2.1 (by rw [hx]; decide) (by rw [hx]; decide)
        left
        rw [← hx, ← ez]; rfl
  have pz : Path h (y :: ys₁ ++ [z]) := by
    rw [List.append_assoc, hz, ← List.singleton_append (l := m), ← List.append_assoc] at p
    exact p.left
  have ndz : (y :: ys₁ ++ [z]).Nodup := by
    rw [List.append_assoc, hz, ← List.singleton_append (l := m), ← List.append_assoc] at nd
    exact (List.nodup_append.1 nd).1
  simp only [List.cons_append, List.head?_cons] at run
  obtain ⟨x, hx⟩ := run.some_bodyH
  have rl0 := Relab.hook (h := h) (a := y) (lt y (by simp))
  have hb : parenBodyH d ⟨hookH h y, []⟩ () y = toJump (parenParam d false ⟨hookH h y, []⟩ (some y) HK) () := by
    have k0 : (hookH h y).kind (some y) = (typeWord t).1 := by
      have := rl0.toks
      simp only [List.map_cons, List.map_nil, List.cons.injEq, and_true] at this
      rw [← ey, ← this]; rfl
    simp only [parenBodyH, k0]
    by_cases hr : t.1 = .raw
    · simp [typeWord, hr]
    · rw [typeWord_of hr]
      simp only [isBlank, not_or] at first
      split <;> first | rfl | (exfalso; simp_all; done) | skip
  have yz : z ≠ y := by
    intro hh; subst hh
    simp at ndz
  have frz : kt (hookH h y) z = kt h z := rl0.frame z (by simpa using yz)
  have kz0 : (hookH h y).kind (some z) = h.kind (some z) := congrArg Prod.fst frz
  cases hg : parenParam d false ⟨hookH h y, []⟩ (some y) HK with
  | none => rw [hb, hg] at hx; simp [toJump] at hx
  | some u =>
    obtain ⟨w1, q1⟩ := u
    have em0 : (y :: ys₁).map (kth (hookH h y)) = (t :: ty).map typeWord := by
      rw [← e1]
      refine List.map_congr_left fun x hx => ?_
      by_cases hxy : x = y
      · subst hxy
        have := rl0.toks
        simp only [List.map_cons, List.map_nil, List.cons.injEq, and_true] at this
        rw [kth, this, kth, typeWord_idem]
      · rw [kth, kth, rl0.frame x (by simpa using hxy)]
    obtain ⟨hbuf, rfl, rl1⟩ := param_exactH P d em0 (rl0.path pz) ndz (fun x hx => by rw [rl0.size]; exact lt x (List.mem_append_left _ hx)) (by rw [kz0]; exact kz) (r := q1) (w' := w1) hg
    have rl : Relab h w1.heap (y :: ys₁) (ty'.map typeWord) :=
      ⟨rl1.size.trans rl0.size, fun p => (rl1.next p).trans (rl0.next p), fun p => (rl1.prev p).trans (rl0.prev p),
        fun p => (rl1.line p).trans (rl0.line p), fun x hx => (rl1.frame x hx).trans (rl0.frame x (by
          simp only [List.mem_singleton]; rintro rfl; exact hx (by simp))), rl1.toks⟩
    have ew : w1 = ⟨w1.heap, []⟩ := by cases w1; simp_all
    have run := run.jumpH (h1 := w1.heap) (s1 := ()) (q := z) (mid := ys₁) (by rw [hb, hg, ← ew]; rfl) (rl.path pz) (by
      intro hh
      simp only [List.cons_append, List.nodup_cons, List.nodup_append] at ndz
      exact ndz.2.2.2 z hh z (by simp) rfl) (fun x hx => rl.visited x (by simp [hx]))
    have dis : ∀ x ∈ ys₂ ++ [q], x ∉ y :: ys₁ := by
      intro x hx hx'
      rw [List.append_assoc] at nd
      exact (List.nodup_append.1 nd).2.2 x hx' x hx rfl
    have e2' : ys₂.map (kth w1.heap) = rest.map typeWord := by
      rw [← e2]; exact kth_frame rl (fun x hx => dis x (by simp [hx]))
    have kq' : w1.heap.kind (some q) = .parenR := by
      rw [← kq]; exact congrArg Prod.fst (rl.frame q (dis q (by simp)))
    rw [List.append_assoc] at p nd
    obtain ⟨h1, h2, h3⟩ := ih d e2' (rl.path (Path.drop _ p)) (List.nodup_append.1 nd).2.1
      (fun x hx => by rw [rl.size]; exact lt x (by simp [hx])) kq' (r := r) (w' := w') (by rw [hz]; exact run)
    refine ⟨h1, h2, ?_⟩
    rw [List.map_append]
    exact rl.append h3 (fun x hx hx' => dis x (by simp [hx']) hx)

theorem params_runH {ts ts' : List Token} (P : Params .paramName .paramType ts ts') : ParamsRunH ts ts' := by
  refine Params.rec (nk := .paramName) (tk := .paramType) (motive_1 := fun ts ts' _ => ParamsRunH ts ts')
    (motive_2 := fun b ts ts' _ => ParamRunH b ts ts') ?_ ?_ ?_ ?_ ?_ ?_ ?_ ?_ P
  · exact paramsRunH_nil
  · intro t ts ts' h _ ih; exact paramsRunH_sep h ih
  · intro t ty ty' rest rest' first q stop _ ihq ih; exact paramsRunH_param first q.first ihq stop ih
  · intro b; exact paramRunH_nil b
  · intro b t ts ts' h _ ih; exact paramRunH_word h ih
  · intro b t ts ts' h _ ih; exact paramRunH_plain h ih
  · intro b t u ts inner rest rest' ht hc _ ih; exact paramRunH_square ht hc ih
  · intro b t l u ps ps' ts ts' hk ht hl hu _ _ ihp ih
    exact paramRunH_func ht hl hu ihp ih

/-- `func(…)` in a field of a struct. -/
theorem fieldFunc_exact (d : Nat) {ps ps' : List Token} (P : Params .paramName .paramType ps ps') {h : Heap} {y l u : Addr} {ys : List Addr} {w' : World} {r : Ptr}
    (em : ys.map (kt h) = ps) (p : Path h (y :: l :: (ys ++ [u]))) (nd : (y :: l :: (ys ++ [u])).Nodup) (lt : ∀ x ∈ ys, x < h.size)
    (ky : h.kind (some y) = .func_) (kl : h.kind (some l) = .parenL) (ku : h.kind (some u) = .parenR)
    (run : funcRun d { isParameter := true } ⟨h, []⟩ (some y) HK = some (w', r)) :
    w'.buf = [] ∧ r = h.next (some u) ∧ Relab h w'.heap ys (ps'.map typeWord) := by
  cases d with
  | zero => rw [funcRun] at run; cases run
  | succ d =>
    rw [funcRun] at run
    simp only [if_true] at run
    refine parameterFunc_exactH (params_runH P) d ?_ p nd lt ky kl ku run
    rw [← em, List.map_map]; rfl

end Goast
