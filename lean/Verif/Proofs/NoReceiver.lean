import Verif.Proofs.ResetInv
import Verif.Proofs.Loop
import Verif.Proofs.Ops

/-!
# Labels that a declaration without a receiver never gives
-/

set_option linter.unusedSimpArgs false
set_option linter.unusedVariables false

namespace Goast
open Heap

/-- No node `p` has a kind of `K p`. -/
def Free (K : Ptr → Kind → Prop) (w : World) : Prop := ∀ p, ¬ K p (w.heap.kind p)

/-- `K` has none of the labels of parameters and names of functions. -/
structure Foreign (K : Ptr → Kind → Prop) : Prop where
  name : ∀ p, ¬ K p .funcName
  param : ∀ p, ¬ K p .paramName
  type : ∀ p, ¬ K p .paramType

variable {K : Ptr → Kind → Prop}

theorem kind_setKind_or (h : Heap) (n : Ptr) (k : Kind) (p : Ptr) : (h.setKind n k).kind p = h.kind p ∨ (h.setKind n k).kind p = k := by
  cases n with
  | none => exact .inl rfl
  | some a =>
    cases p with
    | none => exact .inl rfl
    | some x =>
      simp only [Heap.setKind, Heap.kind, getElem?_modify]
      by_cases hax : a = x
      · subst hax
        cases h.cells[a]? <;> simp
      · simp [hax]

theorem Free.heap {w : World} {h : Heap} {b : List Ptr} (f : Free K w) (e : ∀ p, h.kind p = w.heap.kind p) : Free K ⟨h, b⟩ := by
  intro p; rw [show (World.mk h b).heap.kind p = h.kind p from rfl, e]; exact f p

theorem Free.buf {w : World} {b : List Ptr} (f : Free K w) : Free K { w with buf := b } := f

theorem Free.setKind {w : World} (f : Free K w) (n : Ptr) {k : Kind} (hk : ∀ p, ¬ K p k) : Free K { w with heap := w.heap.setKind n k } := by
  intro p
  rcases kind_setKind_or w.heap n k p with e | e
  · show ¬ K p ((w.heap.setKind n k).kind p)
    rw [e]; exact f p
  · show ¬ K p ((w.heap.setKind n k).kind p)
    rw [e]; exact hk p

theorem Free.hook {w : World} (f : Free K w) (o : Foreign K) (n : Ptr) (k : Hook) : Free K (runHook w n k) := by
  cases k with
  | appendBuf => exact f
  | rawToParamType =>
    unfold runHook
    simp only
    split
    · exact f.setKind n o.type
    · exact f

theorem Free.hooks (o : Foreign K) (n : Ptr) : ∀ (hooks : List Hook) {w : World}, Free K w → Free K (handleHook w n hooks)
  | [], _, f => f
  | k :: ks, w, f => Free.hooks o n ks (f.hook o n k)

theorem loop_inv {ω : Type} (I : ω → Prop) {iter : ω → Addr → Ptr} {fn : ω → Addr → Option (ω × Bool)}
    (hf : ∀ w a w' b, I w → fn w a = some (w', b) → I w') : ∀ {fuel : Nat} {w : ω} {p : Ptr} {w' : ω} {r : Ptr},
    I w → loop iter fn fuel w p = some (w', r) → I w'
  | fuel, w, none, w', r, i, e => by
    cases fuel <;> (simp only [loop, Option.some.injEq, Prod.mk.injEq] at e; obtain ⟨rfl, rfl⟩ := e; exact i)
  | 0, w, some a, w', r, i, e => by simp [loop] at e
  | fuel + 1, w, some a, w', r, i, e => by
    rw [loop] at e
    split at e
    · cases e
    · rename_i w1 he
      exact loop_inv I hf (hf w a w1 true i he) e
    · rename_i w1 he
      simp only [Option.some.injEq, Prod.mk.injEq] at e
      obtain ⟨rfl, rfl⟩ := e
      exact hf w a w1 false i he

theorem iterW_free {σ : Type} {fn : World × σ → Addr → Option ((World × σ) × Bool)}
    (hf : ∀ w s a w' s' b, Free K w → fn (w, s) a = some ((w', s'), b) → Free K w') {w : World} {s : σ} {p : Ptr} {w' : World} {s' : σ} {r : Ptr}
    (f : Free K w) (e : iterW fn w s p = some ((w', s'), r)) : Free K w' :=
  loop_inv (fun ws : World × σ => Free K ws.1) (fun w a w' b i e => hf w.1 w.2 a w'.1 w'.2 b i e) (w := (w, s)) (w' := (w', s')) f e

theorem jumpLoop_free (o : Foreign K) {σ : Type} {consume : Bool} {hooks : List Hook} {body : World → σ → Addr → Option (World × σ × Ctl)}
    (hf : ∀ w s a w' s' c, Free K w → body w s a = some (w', s', c) → Free K w') {w : World} {s : σ} {p : Ptr} {w' : World} {r : Ptr}
    (f : Free K w) (e : jumpLoop consume hooks body w s p = some (w', r)) : Free K w' := by
  unfold jumpLoop at e
  obtain ⟨⟨⟨w1, j1⟩, r1⟩, e1, e2⟩ := Option.map_eq_some_iff.1 e
  simp only [Prod.mk.injEq] at e2
  obtain ⟨rfl, rfl⟩ := e2
  refine iterW_free (fun w s a w' s' b f e => ?_) f e1
  unfold jumpStep at e
  have f' := Free.hooks o (some a) hooks f
  simp only at e
  split at e
  · cases e; exact f'
  split at e
  · cases e; exact f'
  split at e
  · cases e; exact f'
  split at e
  · cases e
  · rename_i w2 s2 c2 eb
    have := hf _ _ _ _ _ _ f' eb
    cases c2 <;> (simp only [applyCtl, Option.some.injEq, Prod.mk.injEq] at e; obtain ⟨⟨rfl, _⟩, _⟩ := e; exact this)

theorem toJump_ret {σ : Type} {r : Option (World × Ptr)} {s s' : σ} {w : World} {c : Ctl} (e : toJump r s = some (w, s', c)) :
    ∃ p, r = some (w, p) := by
  unfold toJump at e
  split at e
  · cases e
  · simp only [Option.some.injEq, Prod.mk.injEq] at e
    obtain ⟨rfl, _, _⟩ := e
    exact ⟨_, rfl⟩

theorem findNext_free (o : Foreign K) {w : World} {n : Ptr} {target : List Kind} {opt : FindOpt} {hooks : List Hook} {w' : World} {r : Ptr}
    (f : Free K w) (e : findNext w n target opt hooks = some (w', r)) : Free K w' := by
  unfold findNext at e
  obtain ⟨⟨⟨w1, j1⟩, r1⟩, e1, e2⟩ := Option.map_eq_some_iff.1 e
  simp only [Prod.mk.injEq] at e2
  obtain ⟨rfl, rfl⟩ := e2
  refine iterW_free (fun w s a w' s' b f e => ?_) f e1
  simp only [Option.some.injEq, Prod.mk.injEq] at e
  obtain ⟨⟨rfl, _⟩, _⟩ := e
  exact Free.hooks o _ hooks f

theorem skipNest_free (o : Foreign K) {w : World} {n : Ptr} {L R : Kind} {hooks : List Hook} {w' : World} {r : Ptr}
    (f : Free K w) (e : skipNestNext w n L R hooks = some (w', r)) : Free K w' := by
  unfold skipNestNext at e
  split at e
  · cases e
  · rename_i w1 n1 e0
    have f1 : Free K w1 := by
      split at e0
      · split at e0
        · cases e0
        · rename_i w2 f2 e3
          simp only [Option.some.injEq, Prod.mk.injEq] at e0
          obtain ⟨rfl, _⟩ := e0
          exact findNext_free o (Free.hooks o _ hooks f) e3
      · simp only [Option.some.injEq, Prod.mk.injEq] at e0
        obtain ⟨rfl, _⟩ := e0
        exact f
    obtain ⟨⟨⟨w2, j2⟩, r2⟩, e1, e2⟩ := Option.map_eq_some_iff.1 e
    simp only [Prod.mk.injEq] at e2
    obtain ⟨rfl, rfl⟩ := e2
    refine iterW_free (fun w s a w' s' b f e => ?_) f1 e1
    have f' := Free.hooks o (some a) hooks f
    simp only at e
    split at e
    · simp only [Option.some.injEq, Prod.mk.injEq] at e; obtain ⟨⟨rfl, _⟩, _⟩ := e; exact f'
    split at e
    · simp only [Option.some.injEq, Prod.mk.injEq] at e; obtain ⟨⟨rfl, _⟩, _⟩ := e; exact f'
    · simp only [Option.some.injEq, Prod.mk.injEq] at e; obtain ⟨⟨rfl, _⟩, _⟩ := e; exact f'

theorem combineLoop_kind (n : Ptr) : ∀ (nns : List Ptr) (h : Heap) (buf : List Bytes) (p : Ptr), (combineLoop n h nns buf).1.kind p = h.kind p
  | [], _, _, _ => rfl
  | m :: ms, h, buf, p => by
    unfold combineLoop
    split
    · exact combineLoop_kind n ms h buf p
    · rw [combineLoop_kind n ms _ _ p]
      exact ((sameData_isolate h m).2 p).2.1

theorem deferCombine_free (o : Foreign K) {h h' : Heap} {b : List Ptr} (f : ∀ p, ¬ K p (h.kind p)) (e : deferCombine h b .paramType = some h') :
    ∀ p, ¬ K p (h'.kind p) := by
  cases b with
  | nil =>
    simp only [deferCombine, Option.some.injEq] at e
    subst e; exact f
  | cons n rest =>
    unfold deferCombine at e
    simp only at e
    split at e
    · cases e
    · rename_i h2 n2 ec
      simp only [Option.some.injEq] at e
      subst e
      intro p
      rw [((sameData_replaceNext h2 n2 _).2 p).2.1]
      have f1 : ∀ p, ¬ K p ((h.setKind n .paramType).kind p) := fun p => (show Free K ⟨h, []⟩ from f).setKind n o.type p
      unfold combineNext at ec
      simp only at ec
      split at ec
      · simp only [Option.some.injEq, Prod.mk.injEq] at ec
        obtain ⟨rfl, _⟩ := ec
        exact f1 p
      · rename_i nn0 rest'
        split at ec
        · cases ec
        · simp only [Option.some.injEq, Prod.mk.injEq] at ec
          obtain ⟨rfl, _⟩ := ec
          rw [kind_setText, combineLoop_kind]
          exact f1 p

/-- The functions that label parameters, results and names of functions. -/
structure FreeFns (K : Ptr → Kind → Prop) (d : Nat) : Prop where
  paren : ∀ {skip w head hooks w' r}, Free K w → parenRun d skip false w head hooks = some (w', r) → Free K w'
  param : ∀ {w head hooks w' r}, Free K w → parenParam d false w head hooks = some (w', r) → Free K w'
  func : ∀ {w head hooks w' r}, Free K w → funcRun d { isParameter := true } w head hooks = some (w', r) → Free K w'
  general : ∀ {w head rk hooks w' r}, Free K w → generalFunc d w head rk hooks = some (w', r) → Free K w'
  pfunc : ∀ {w head hooks w' r}, Free K w → parameterFunc d w head hooks = some (w', r) → Free K w'
  single : ∀ {w head hooks w' r}, Free K w → singleReturn d w head hooks = some (w', r) → Free K w'

theorem freeFns (o : Foreign K) : ∀ d, FreeFns K d
  | 0 => by
    constructor <;> intros <;> rename_i e <;> simp [parenRun, parenParam, funcRun, generalFunc, parameterFunc, singleReturn] at e
  | d + 1 => by
    have ih := freeFns o d
    constructor
    · intro skip w head hooks w' r f e
      unfold parenRun at e
      split at e
      · exact skipNest_free o f e
      split at e
      · simp only [Option.some.injEq, Prod.mk.injEq] at e
        obtain ⟨rfl, _⟩ := e
        exact Free.hooks o _ hooks f
      · refine jumpLoop_free o (fun w s a w' s' c f e => ?_) f e
        split at e
        iterate 7 (simp only [Option.some.injEq, Prod.mk.injEq] at e; obtain ⟨rfl, _⟩ := e; exact f)
        obtain ⟨p, e⟩ := toJump_ret e
        exact ih.param f e
    · intro w head hooks w' r f e
      unfold parenParam at e
      simp only [Bool.false_eq_true, if_false] at e
      split at e
      · cases e
      · refine jumpLoop_free o (fun w s a w' s' c f e => ?_) f e
        have setr : ∀ {t : Bool} {k : Kind}, (∀ p, ¬ K p k) → some ({ w with heap := w.heap.setKind (some a) k }, t, Ctl.cont) = some (w', s', c) → Free K w' := by
          intro t k hk e
          simp only [Option.some.injEq, Prod.mk.injEq] at e
          obtain ⟨rfl, _⟩ := e
          exact f.setKind _ hk
        have same : ∀ {t : Bool} {k : Ctl}, some (w, t, k) = some (w', s', c) → Free K w' := by
          intro t k e
          simp only [Option.some.injEq, Prod.mk.injEq] at e
          obtain ⟨rfl, _⟩ := e
          exact f
        have word : ∀ {q : Prop} [Decidable q], (if q then some ({ w with heap := w.heap.setKind (some a) .paramType }, s, Ctl.cont)
          else if s = false then some ({ w with heap := w.heap.setKind (some a) .paramName }, true, .cont)
          else some ({ w with heap := w.heap.setKind (some a) .paramType }, s, .cont)) = some (w', s', c) → Free K w' := by
          intro q _ e
          split at e
          · exact setr o.type e
          split at e
          · exact setr o.param e
          · exact setr o.type e
        split at e
        · exact same e
        · exact same e
        · obtain ⟨p, e⟩ := toJump_ret e
          exact skipNest_free o f e
        iterate 5 exact same e
        · obtain ⟨p, e⟩ := toJump_ret e
          exact ih.func f e
        iterate 3 exact word e
        · exact same e
    · intro w head hooks w' r f e
      unfold funcRun at e
      simp only [if_true] at e
      exact ih.pfunc f e
    · intro w head rk hooks w' r f e
      unfold generalFunc at e
      simp only at e
      have f0 : Free K (if decide (w.heap.kind head = .func_) = true then handleHook w head hooks else w) := by
        split
        · exact Free.hooks o _ hooks f
        · exact f
      generalize (if rk.length ≠ 0 then CharSet.new rk else CharSet.new [.newLine]) = set at e
      refine jumpLoop_free o (fun w s a w' s' c f e => ?_) f0 e
      have same : ∀ {t : Bool × Bool} {k : Ctl}, some (w, t, k) = some (w', s', c) → Free K w' := by
        intro t k e
        simp only [Option.some.injEq, Prod.mk.injEq] at e
        obtain ⟨rfl, _⟩ := e
        exact f
      split at e
      · exact same e
      split at e
      · exact same e
      · split at e
        · simp only [Option.some.injEq, Prod.mk.injEq] at e
          obtain ⟨rfl, _⟩ := e
          exact f.setKind _ o.name
        · exact same e
      · split at e
        · obtain ⟨p, e⟩ := toJump_ret e
          exact ih.single f e
        · exact same e
      · obtain ⟨p, e⟩ := toJump_ret e
        exact ih.paren f e
      · obtain ⟨p, e⟩ := toJump_ret e
        exact skipNest_free o f e
      · obtain ⟨p, e⟩ := toJump_ret e
        exact skipNest_free o f e
      · exact same e
    · intro w head hooks w' r f e
      unfold parameterFunc at e
      split at e
      · cases e
      · rename_i w1 n1 e1
        have f1 := ih.general f e1
        split at e
        · simp only [Option.some.injEq, Prod.mk.injEq] at e
          obtain ⟨rfl, _⟩ := e
          exact Free.hooks o _ hooks f1
        · simp only [Option.some.injEq, Prod.mk.injEq] at e
          obtain ⟨rfl, _⟩ := e
          exact f1
    · intro w head hooks w' r f e
      unfold singleReturn at e
      split at e
      · simp only [Option.some.injEq, Prod.mk.injEq] at e
        obtain ⟨rfl, _⟩ := e
        exact Free.hooks o _ hooks f
      · simp only at e
        split at e
        · cases e
        · rename_i w1 found e1
          have f1 := findNext_free o f e1
          split at e
          · exact ih.paren f1 e
          · exact ih.pfunc f1 e
          · split at e
            · cases e
            · rename_i w2 buf ret e2
              have f2 : Free K w2 := by
                refine iterW_free (fun w s a w' s' b f e => ?_) f1 e2
                have f' := Free.hooks o (some a) hooks f
                simp only at e
                split at e <;> (simp only [Option.some.injEq, Prod.mk.injEq] at e; obtain ⟨⟨rfl, _⟩, _⟩ := e; exact f')
              split at e
              · cases e
              · rename_i h3 e3
                simp only [Option.some.injEq, Prod.mk.injEq] at e
                obtain ⟨rfl, _⟩ := e
                exact deferCombine_free o f2 e3

end Goast
