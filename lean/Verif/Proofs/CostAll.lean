import Verif.Proofs.CostType
import Verif.Props.Scope

/-! # Proofs: how many steps `ParseScope` takes -/

set_option linter.unusedSimpArgs false
set_option linter.unusedVariables false

namespace Goast

/-- The steps of `resetKind` for each node of a scope, with fewer than `N` nodes in all. -/
def resetCost (N : Nat) : Nat := 43313 * (N * N)

theorem D3_le (c : RCtx) : 1 + (c.D3 (8 * c.N) + 100 * c.N) ≤ resetCost c.N := by
  have hN : 1 ≤ c.N := by simp [RCtx.N]
  have e : c.D (8 * c.N) = 800 * (c.N * c.N) := by
    simp only [RCtx.D]
    rw [Nat.mul_assoc, ← Nat.mul_assoc c.N 8, Nat.mul_comm c.N 8, Nat.mul_assoc 8, ← Nat.mul_assoc 100]
  have h1 := Nat.mul_le_mul hN (Nat.le_refl c.N)
  simp only [RCtx.D3, RCtx.D2, e, resetCost]
  omega

theorem behind_chain {h : Heap} (ac : Acyclic h) {a : Addr} {l : List Addr} (ch : Chain h (a :: l)) : behind h ac a = l.length := by
  have ha := ch.1 a (by simp)
  simp only [behind, ha, dif_pos]
  rw [Fwd.det (Classical.choose_spec (ac a ha)) ch.fwd]
  simp

theorem count_resetAll : ∀ (gs : List (List Addr)) (scs : List ScopeRec) (h : Heap), scs.map (·.node) = gs.map List.head? →
    WF h → Acyclic h → (∀ g ∈ gs, g ≠ []) → gs.flatten.Nodup → (∀ g ∈ gs, Chain h g) →
    (Code.resetAll (h.size + 1) (8 * (h.size + 1)) scs).count h ≤ resetCost (h.size + 1) * gs.flatten.length := by
  intro gs
  induction gs with
  | nil =>
    intro scs h e w ac _ _ _
    simp at e; subst e
    simp [Code.resetAll, count_pure]
  | cons g gs ih =>
    intro scs h e w ac hne nd hch
    cases scs with
    | nil => simp at e
    | cons sc scs =>
      simp only [List.map_cons, List.cons.injEq] at e
      obtain ⟨x, xs, rfl⟩ := List.exists_cons_of_ne_nil (hne g (by simp))
      have chg := hch _ (List.mem_cons_self)
      obtain ⟨h1, r, er⟩ := C16_resetKind_total w ac (n := some x) (valid_some (chg.1 x (by simp)))
      obtain ⟨l1, l2, l3, l4, l5, l6, l7⟩ := C17_resetKind_local w ac chg (a := x) (by simp) er
      rw [List.flatten_cons, List.nodup_append] at nd
      have oth : ∀ g' ∈ gs, SameOn (· ∈ g') h h1 := by
        intro g' hg' a ha
        exact l4 a ((hch g' (by simp [hg'])).1 a ha) (fun hm => nd.2.2 a hm a (List.mem_flatten.2 ⟨g', hg', ha⟩) rfl)
      have rest := ih scs h1 e.2 l1 l2 (fun g' hg' => hne g' (by simp [hg'])) nd.2.1
        (fun g' hg' => (hch g' (by simp [hg'])).same (oth g' hg') (by omega) (fun a ha => ha))
      rw [l3] at rest
      obtain ⟨w', u, k, t1, t2, -, t3⟩ := takes_resetKind w ac chg (a := x) (by simp) (d := 8 * (h.size + 1)) (by omega)
      obtain ⟨b, t4, -⟩ := execT_resetKind (F := h.size + 1) rfl er
      have hD := D3_le (rctx h ac (x :: xs) fun _ => True)
      have hN : (rctx h ac (x :: xs) fun _ => True).N = h.size + 1 := rfl
      rw [hN] at hD
      rw [behind_chain ac chg] at t3
      have t5 : k ≤ resetCost (h.size + 1) * (xs.length + 1) := by
        have h1 := Nat.mul_le_mul_right (xs.length + 1) hD
        rw [Nat.add_mul] at h1
        omega
      unfold Code.resetAll
      rw [count_bind, e.1]
      simp only [List.head?_cons]
      rw [t4]
      dsimp only at t2 ⊢
      rw [List.flatten_cons, List.length_append, Nat.mul_add (resetCost (h.size + 1))]
      simp only [List.length_cons, List.length_nil] at t2 ⊢
      omega

/-! ## The split -/

theorem count_tryAppendScope (s : Code.ParseVars) (h : Heap) : (Code.tryAppendScope s).count h ≤ 11 := by
  unfold Code.tryAppendScope
  refine count_bind_le (a := 1) (b := 10) ?_ fun h s => count_bind_le (a := 1) (b := 9) (count_prev ..) fun h p => ?_
  · split
    · exact count_bind_le (a := 1) (b := 0) (count_line ..) fun h l => Nat.le_refl 0
    · simp [count_pure]
  · split
    · exact count_bind_le (a := 9) (b := 0) (count_removePrev ..) fun h l => Nat.le_refl 0
    · simp [count_pure]

theorem count_parseStep (s : Code.ParseVars) (a : Ptr) (h : Heap) : (Code.parseStep s a).count h ≤ 14 := by
  unfold Code.parseStep
  refine count_bind_le (a := 1) (b := 13) (count_line ..) fun h l => ?_
  split
  · simp [count_pure]
  · refine count_bind_le (a := 1) (b := 12) (count_line ..) fun h l => count_bind_le (a := 1) (b := 11) (count_text ..) fun h t => ?_
    dsimp only
    split
    · simp [count_pure]
    · exact count_bind_le (a := 11) (b := 0) (count_tryAppendScope ..) fun h s => Nat.le_refl 0

theorem count_split : ∀ (fuel : Nat) (s : Code.ParseVars) (n : Ptr) (h : Heap), (Code.iterNext fuel Code.parseStep s n).count h ≤ 15 * fuel
  | fuel, s, none, h => by cases fuel <;> exact Nat.zero_le _
  | 0, s, some a, h => Nat.zero_le _
  | fuel + 1, s, some a, h => by
    refine Nat.le_trans (count_bind_le (a := 14) (b := 1 + 15 * fuel) (count_parseStep ..) fun h r => ?_) (by omega)
    dsimp only
    split
    · exact count_bind_le (a := 1) (b := 15 * fuel) (count_next ..) fun h n => count_split fuel _ _ h
    · simp [count_pure]

/-! ## The extraction -/

/-- What holds of a run that returns, and of the number of its steps. -/
def Within {α : Type} (p : Code α) (h : Heap) (Q : Heap → α → Nat → Prop) : Prop := ∀ h' x, p.execT h = some (h', x) → Q h' x (p.count h)

theorem Within.mono {α : Type} {p : Code α} {h : Heap} {Q Q' : Heap → α → Nat → Prop} (t : Within p h Q) (hq : ∀ h' x k, Q h' x k → Q' h' x k) : Within p h Q' :=
  fun h' x e => hq _ _ _ (t h' x e)

theorem Within.bind {α β : Type} {p : Code α} {g : α → Code β} {h : Heap} {Q : Heap → β → Nat → Prop}
    (t : Within p h fun h1 x k1 => Within (g x) h1 fun h2 y k2 => Q h2 y (k1 + k2)) : Within (p >>= g) h Q := by
  intro h' y e
  rw [execT_bind] at e
  rw [count_bind]
  cases hp : p.execT h with
  | none => rw [hp] at e; cases e
  | some r =>
    rw [hp] at e
    exact t r.1 r.2 hp h' y e

theorem Within.pure {α : Type} {x : α} {h : Heap} {Q : Heap → α → Nat → Prop} (hq : Q h x 0) : Within (Pure.pure x : Code α) h Q := by
  intro h' y e
  simp only [execT_pure, Option.some.injEq, Prod.mk.injEq] at e
  obtain ⟨rfl, rfl⟩ := e
  exact hq

theorem within_count {α : Type} {p : Code α} {h : Heap} {b : Nat} (hb : p.count h ≤ b) : Within p h fun _ _ k => k ≤ b := fun _ _ _ => hb

theorem count_newNode (h : Heap) (line : Int) (text : Bytes) (ks : List Kind) : (Code.newNode line text ks).count h ≤ 1 := by
  cases ks <;> simp [Code.newNode, Code.count]

theorem count_last (h : Heap) (F : Nat) (n : Ptr) : (Code.last F n).count h ≤ 2 * F := by
  have main : ∀ (fuel : Nat) (n : Ptr) (h : Heap),
      (Code.iterNext fuel (fun () a => do let p ← Code.next a; pure ((), decide (p ≠ none))) () n).count h ≤ 2 * fuel := by
    intro fuel
    induction fuel with
    | zero => intro n h; cases n <;> exact Nat.zero_le _
    | succ fuel ih =>
      intro n h
      cases n with
      | none => exact Nat.zero_le _
      | some a =>
        refine Nat.le_trans (count_bind_le (a := 1) (b := 1 + 2 * fuel) ?_ fun h r => ?_) (by omega)
        · exact count_bind_le (a := 1) (b := 0) (count_next ..) fun h r => Nat.le_refl 0
        · dsimp only
          split
          · exact count_bind_le (a := 1) (b := 2 * fuel) (count_next ..) fun h n => ih _ h
          · simp [count_pure]
  exact count_bind_le (a := 2 * F) (b := 0) (main F n h) fun h r => Nat.le_refl 0

theorem count_insertNode (h : Heap) (F : Nat) (l : Local) (n : Ptr) : (Code.insertNode F l n).count h ≤ 2 * F + 19 := by
  unfold Code.insertNode
  split
  · simp [count_pure]
  · dsimp only
    split
    · refine Nat.le_trans (count_bind_le (a := 19) (b := 2 * F) (count_replaceNext ..) fun h r => ?_) (by omega)
      exact count_bind_le (a := 2 * F) (b := 0) (count_last ..) fun h r => Nat.le_refl 0
    · exact Nat.le_trans (count_bind_le (a := 2 * F) (b := 0) (count_last ..) fun h r => Nat.le_refl 0) (by omega)

/-- The steps of one `pushNode`. -/
def pushCost (F : Nat) : Nat := 2 * F + 20

theorem within_pushNode (h : Heap) (F : Nat) (s : Code.Cursor) (l : Local) (b : Bool) (ks : List Kind) :
    Within (Code.pushNode F s l b ks) h fun _ r k => r.1.i = s.i ∧ k ≤ pushCost F := by
  unfold Code.pushNode pushCost
  split
  · exact Within.pure ⟨rfl, by omega⟩
  · refine Within.bind ((within_count (count_newNode ..)).mono fun h1 n k1 hk1 => Within.bind ((within_count (count_insertNode ..)).mono fun h2 l k2 hk2 => Within.pure ⟨rfl, ?_⟩))
    omega

theorem within_newInsert (h : Heap) (F : Nat) (line : Int) (t : Bytes) (l : Local) (s : Code.Cursor) :
    Within (do
      let n ← Code.newNode line t
      let l ← Code.insertNode F l n
      pure (s, l)) h fun _ r k => r.1 = s ∧ k ≤ pushCost F := by
  unfold pushCost
  refine Within.bind ((within_count (count_newNode ..)).mono fun h1 n k1 hk1 => Within.bind ((within_count (count_insertNode ..)).mono fun h2 l k2 hk2 => Within.pure ⟨rfl, ?_⟩))
  omega

theorem i_lineStep (char : UInt8) (s : Code.Cursor) : (Code.lineStep char s).i = s.i := by unfold Code.lineStep; split <;> rfl

theorem within_runLoop (ord : Nat → List (Bytes × Ext)) (text : Bytes) (F : Nat) : ∀ (fuel : Nat) (e : Ext) (s : Code.Cursor) (l : Local) (h : Heap),
    Within (Code.runLoop ord text F fuel e s l) h fun _ r k => s.i ≤ r.1.i ∧
      k ≤ 3 * pushCost F * (2 * (min r.1.i text.length - min s.i text.length) + 1) := by
  intro fuel
  have unit : ∀ (x k : Nat), k ≤ 3 * pushCost F → k ≤ 3 * pushCost F * (2 * x + 1) := fun x k hk => by
    rw [Nat.mul_add]; omega
  induction fuel with
  | zero => intro e s l h h' x e; cases e
  | succ fuel ih =>
    intro e s l h
    -- going on behind this byte
    have on : ∀ (x y k0 : Nat), s.i < text.length → s.i + 1 ≤ y → k0 ≤ 3 * pushCost F → x ≤ 3 * pushCost F * (2 * (min y text.length - min (s.i + 1) text.length) + 1) →
        k0 + x ≤ 3 * pushCost F * (2 * (min y text.length - min s.i text.length) + 1) := by
      intro x y k0 hs hy hk hx
      have : 2 * (min y text.length - min s.i text.length) + 1 = (2 * (min y text.length - min (s.i + 1) text.length) + 1) + 2 := by omega
      rw [this, Nat.mul_add]
      omega
    unfold Code.runLoop
    split
    · refine Within.bind (Within.mono (within_pushNode _ _ _ _ _ _) ?_)
      rintro h1 r k1 ⟨hi, hk⟩
      exact Within.pure ⟨Nat.le_of_eq hi.symm, unit _ _ (by omega)⟩
    · rename_i char hc
      have hs : s.i < text.length := by
        apply Classical.byContradiction
        intro hn
        rw [List.getElem?_eq_none (by omega)] at hc
        cases hc
      split
      · rename_i ee _
        refine Within.bind (Within.mono (within_pushNode _ _ _ _ _ _) ?_)
        rintro h1 r1 k1 ⟨hi1, hk1⟩
        refine Within.bind (Within.mono (Q := fun _ r k => r.1.i = s.i ∧ k ≤ pushCost F) ?_ ?_)
        · split
          · exact Within.pure ⟨hi1, Nat.zero_le _⟩
          · exact Within.mono (within_newInsert _ _ _ _ _ _) fun h2 r k hr => ⟨by rw [hr.1]; exact hi1, hr.2⟩
        · rintro h2 r2 k2 ⟨hi2, hk2⟩
          dsimp only
          refine Within.bind (Within.mono (ih _ _ _ _) ?_)
          rintro h3 r3 k3 ⟨hi3, hk3⟩
          refine Within.bind ((within_count (count_insertNode ..)).mono fun h4 l4 k4 hk4 => Within.mono (ih _ _ _ _) ?_)
          rintro h5 r5 k5 ⟨hi5, hk5⟩
          dsimp only at hi3 hk3 hi5 hk5
          rw [hi2] at hi3 hk3
          refine ⟨by omega, ?_⟩
          have e1 : pushCost F = 2 * F + 20 := rfl
          have : 2 * (min r5.1.i text.length - min s.i text.length) ≥ (2 * (min r3.1.i text.length - min (s.i + 1) text.length) + 1) +
            (2 * (min r5.1.i text.length - min (r3.1.i + 1) text.length) + 1) := by omega
          have := Nat.mul_le_mul_left (3 * pushCost F) this
          rw [Nat.mul_add] at this
          rw [Nat.mul_add _ _ 1]
          omega
      · dsimp only
        split
        · refine Within.mono (ih _ _ _ _) ?_
          rintro h1 r k ⟨hi, hk⟩
          rw [i_lineStep] at hi hk
          refine ⟨by dsimp only at hi; omega, ?_⟩
          have := on _ _ 0 hs hi (Nat.zero_le _) hk
          rwa [Nat.zero_add] at this
        · split
          · refine Within.bind (Within.mono (Q := fun _ r k => r.1.i = s.i ∧ k ≤ 2 * pushCost F) ?_ ?_)
            · split
              · exact Within.mono (within_pushNode _ _ _ _ _ _) fun h1 r k hr => ⟨hr.1, by omega⟩
              · refine Within.bind (Within.mono (within_pushNode _ _ _ _ _ _) ?_)
                rintro h1 r1 k1 ⟨hi1, hk1⟩
                exact Within.mono (within_newInsert _ _ _ _ _ _) fun h2 r k hr => ⟨by rw [hr.1]; exact hi1, by omega⟩
            · rintro h1 r k ⟨hi, hk⟩
              refine Within.pure ⟨by dsimp only; rw [i_lineStep]; omega, unit _ _ (by omega)⟩
          · refine Within.bind (Within.mono (Q := fun _ r k => r.1.i = s.i ∧ k ≤ 2 * pushCost F) ?_ ?_)
            · split
              · refine Within.bind (Within.mono (within_pushNode _ _ _ _ _ _) ?_)
                rintro h1 r1 k1 ⟨hi1, hk1⟩
                exact Within.mono (within_newInsert _ _ _ _ _ _) fun h2 r k hr => ⟨by rw [hr.1]; exact hi1, by omega⟩
              · exact Within.pure ⟨rfl, Nat.zero_le _⟩
            · rintro h1 r k ⟨hi, hk⟩
              refine Within.mono (ih _ _ _ _) ?_
              rintro h2 r2 k2 ⟨hi2, hk2⟩
              rw [i_lineStep, hi] at hi2 hk2
              refine ⟨by dsimp only at hi2; omega, ?_⟩
              exact on _ _ _ hs hi2 (by omega) hk2

/-- The nodes of a text have at least a byte each. -/
theorem length_le_textOf {h : Heap} : ∀ {l : List Addr}, (∀ a ∈ l, h.text (some a) ≠ []) → l.length ≤ (textOf h l).length
  | [], _ => Nat.zero_le _
  | a :: l, hn => by
    have h1 := length_le_textOf (l := l) fun b hb => hn b (by simp [hb])
    have h2 := List.length_pos_iff.2 (hn a (by simp))
    simp only [textOf, List.map_cons, List.flatten_cons, List.length_append, List.length_cons] at *
    omega

/-- `ParseScope` on an empty heap: at most one node for each byte of the text, and the number of steps. -/
theorem count_parseScope {ord : Nat → List (Bytes × Ext)} (ho : MapOrder ord) {h' : Heap} {sl : Int} {text : Bytes} {scs : List ScopeRec}
    (e : parseScopeOrd ord Heap.empty sl text = some (h', scs)) :
    h'.size ≤ text.length ∧ (Code.parseScope ord (h'.size + 1) sl text).count Heap.empty ≤ 50000 * (text.length + 1) ^ 3 := by
  obtain ⟨h1, p, l, st, h2, pd⟩ := parsed ho wf_empty acyclic_empty sl text
  rw [pd.parse] at e
  simp only [Option.some.injEq, Prod.mk.injEq] at e
  obtain ⟨rfl, rfl⟩ := e
  have s3 := pd.size3
  have s2 : h1.size = st.heap.size := by
    have hs := pd.split
    unfold splitScopes at hs
    simp only [Option.map_eq_some_iff] at hs
    obtain ⟨⟨s₁, p⟩, hl, rfl⟩ := hs
    obtain ⟨-, i1⟩ := execT_split _ _ _ hl
    dsimp only at i1 ⊢
    rw [size_tryAppendScope, i1]
  -- at most one node for each byte
  have s1 : h1.size ≤ text.length := by
    obtain ⟨ts, h1', p', l', e1', eh, -, el, f', -⟩ := extract_nodes ho Heap.empty text
    rw [pd.extract] at e1'
    simp only [Option.some.injEq, Prod.mk.injEq] at e1'
    obtain ⟨rfl, rfl⟩ := e1'
    cases pd.fwd.det f'
    have hl : l.length ≤ text.length := by
      have := length_le_textOf (h := h1) (l := l) fun a ha => C05_nonempty ho pd.extract pd.fwd a ha
      rwa [pd.texts] at this
    have hsz : h1.size = Heap.empty.size + ts.length := by simp [eh]
    have : l.length = ts.length := by rw [el]; simp
    have : Heap.empty.size = 0 := rfl
    omega
  refine ⟨by omega, ?_⟩
  have hn : h2.size + 1 ≤ text.length + 1 := by omega
  -- the extraction
  have c0 : (Code.extract ord (h2.size + 1) text).execT Heap.empty = some (h1, p) ∧
      (Code.extract ord (h2.size + 1) text).count Heap.empty ≤ 3 * pushCost (h2.size + 1) * (2 * text.length + 1) := by
    have hx := pd.extract
    unfold extractOrd run at hx
    simp only [Option.map_eq_some_iff, Prod.mk.injEq] at hx
    obtain ⟨⟨s', p'⟩, hrun, rfl, rfl⟩ := hx
    have hr := execT_runLoop (F := h2.size + 1) ord text _ _ _ _ (by dsimp only at s2; omega) hrun
    have w := within_runLoop ord text (h2.size + 1) (text.length + 2) .common { buf := [], i := 0, line := 0 } { head := none, cur := none, bufLine := 0 } Heap.empty _ _ hr
    constructor
    · unfold Code.extract
      rw [execT_bind]
      simp only [Shared.cursor] at hr
      rw [hr]
      rfl
    · refine Nat.le_trans (count_bind_le (b := 0) w.2 fun _ _ => Nat.le_refl 0) (Nat.mul_le_mul_left _ ?_)
      dsimp only
      omega
  -- the rest
  have hs := pd.split
  unfold splitScopes at hs
  simp only [Option.map_eq_some_iff] at hs
  obtain ⟨⟨s₁, q⟩, hl, hst⟩ := hs
  obtain ⟨e1, i1⟩ := execT_split _ _ _ hl
  have e3 := execT_tryAppendScope s₁
  have hst : tryAppendScope s₁ = st := hst
  rw [hst] at e3
  have c3 := count_resetAll (divide h1 (sl - 1) l).2 st.scs st.heap (by rw [pd.scs]; simp [scopeOf, Function.comp_def]) pd.wf2 pd.acyc2
    (divide_ne_nil h1 l (sl - 1)) (groups_nodup pd.chain _) pd.groups
  have c4 : (divide h1 (sl - 1) l).2.flatten.length ≤ text.length := by
    refine Nat.le_trans (nodup_length_le st.heap.size _ (groups_nodup pd.chain _) fun a ha => ?_) (by omega)
    obtain ⟨g, hg, ha⟩ := List.mem_flatten.1 ha
    exact (pd.groups g hg).1 a ha
  unfold Code.parseScope
  rw [count_bind, c0.1]
  dsimp only
  simp only [ParseSt.vars] at e1
  rw [show h1.size + 1 = h2.size + 1 by omega] at e1
  rw [count_bind, e1]
  dsimp only
  simp only [ParseSt.vars] at e3
  rw [count_bind, e3]
  dsimp only
  rw [show h2.size + 1 = st.heap.size + 1 by omega]
  have c1 := count_split (st.heap.size + 1) { scs := [], head := p, k := .unknown, line := sl - 1 } p h1
  have c2 := count_tryAppendScope { scs := s₁.scs, head := s₁.head, k := s₁.k, line := s₁.line } s₁.heap
  have c5 := count_bind_le (g := fun _ => (Pure.pure st.scs : Code (List ScopeRec))) (b := 0) c3 fun _ _ => Nat.le_refl 0
  rw [show h2.size + 1 = st.heap.size + 1 by omega] at c0
  generalize hn : text.length + 1 = n at *
  have hF : st.heap.size + 1 ≤ n := by omega
  have b0 : 3 * pushCost (st.heap.size + 1) * (2 * text.length + 1) ≤ 66 * n * (2 * n) := Nat.mul_le_mul (by simp only [pushCost]; omega) (by omega)
  have b3 : resetCost (st.heap.size + 1) * (divide h1 (sl - 1) l).2.flatten.length ≤ 43313 * (n * n) * n :=
    Nat.mul_le_mul (Nat.mul_le_mul_left _ (Nat.mul_le_mul hF hF)) (by omega)
  have n1 : 1 ≤ n := by omega
  have n2 : n ≤ n * n := by have := Nat.mul_le_mul_left n n1; omega
  have n3 : n * n ≤ n * n * n := by have := Nat.mul_le_mul_left (n * n) n1; omega
  have e4 : 66 * n * (2 * n) = 132 * (n * n) := by
    rw [Nat.mul_assoc, ← Nat.mul_assoc n, Nat.mul_comm n 2, Nat.mul_assoc 2, ← Nat.mul_assoc]
  have e5 : 43313 * (n * n) * n = 43313 * (n * n * n) := Nat.mul_assoc ..
  have e6 : n ^ 3 = n * n * n := by simp [Nat.pow_succ]
  rw [e6]
  omega

end Goast
