import Verif.Proofs.Split
import Verif.Props.Reset

/-!
# Resetting the kinds of all scopes
-/

set_option linter.unusedSimpArgs false
set_option linter.unusedVariables false

namespace Goast
open Heap

theorem SameOn.refl {R : Addr → Prop} (h : Heap) : SameOn R h h := fun _ _ => ⟨rfl, rfl, rfl⟩

theorem SameOn.sub {R R' : Addr → Prop} {h h' : Heap} (s : SameOn R h h') (hr : ∀ a, R' a → R a) : SameOn R' h h' :=
  fun a ra => s a (hr a ra)

/-- What happened to the nodes `g` of one scope: they reached `resetKind` as they were in `h`, and in
`h'` they are as `resetKind` left them. -/
structure GroupReset (h h' : Heap) (g : List Addr) : Prop where
  ex : ∃ h1 h2 r, WF h1 ∧ Acyclic h1 ∧ Chain h1 g ∧ h1.size = h.size ∧ SameOn (· ∈ g) h h1 ∧
    resetKind h1 g.head? = some (h2, r) ∧ SameOn (· ∈ g) h2 h' ∧ h'.size = h.size

theorem chain_of_head {h : Heap} (w : WF h) (ac : Acyclic h) {a : Addr} (ha : a < h.size) (hp : h.prev (some a) = none) :
    ∃ l, Chain h (a :: l) := by
  obtain ⟨l, f⟩ := ac a ha
  cases f with
  | @cons _ l _ f =>
    exact ⟨l, Fwd.chain w (l := a :: l) (.cons ha f) hp⟩

/-- `resetKind` on the first node of a chain: the first node stays first, and its new chain consists of
nodes of the old one. -/
theorem resetKind_chain {h h' : Heap} {r : Ptr} (w : WF h) (ac : Acyclic h) {a : Addr} {l : List Addr}
    (ch : Chain h (a :: l)) (e : resetKind h (some a) = some (h', r)) :
    ∃ l', Chain h' (a :: l') ∧ ∀ b ∈ l', b ∈ l := by
  obtain ⟨h1, r1, e1, g⟩ := resetKind_inv w ac ch (List.mem_cons_self)
  rw [e] at e1; cases e1
  have ok := ok_true ac ch
  have loc := C17_resetKind_local w ac ch (List.mem_cons_self) e
  have hp : h'.prev (some a) = none := by
    cases hp : h'.prev (some a) with
    | none => rfl
    | some b =>
      have hb := loc.2.2.2.2.2.2 a b (by simp) hp
      have hlt : behind h ac a < behind h ac b := g.rank b a ((g.wf.inverse b a).2 hp)
      -- but `a` is first in the chain
      have hle : ∀ b ∈ a :: l, behind h ac b ≤ behind h ac a := by
        have key : ∀ (l : List Addr) (p : Ptr), Fwd h p l → ∀ x, p = some x → ∀ b ∈ l, behind h ac b ≤ behind h ac x := by
          intro l p f
          induction f with
          | nil => intro x hx; cases hx
          | @cons y l hy f ih =>
            intro x hx b hb
            cases hx
            rcases List.mem_cons.1 hb with rfl | hb
            · exact Nat.le_refl _
            · cases hn : h.next (some y) with
              | none =>
                rw [hn] at f; cases f; cases hb
              | some z =>
                have := ih z hn b hb
                have := behind_next w ac y z hn
                omega
        exact key _ _ ch.fwd a rfl
      have := hle b hb
      omega
  obtain ⟨l', ch'⟩ := chain_of_head loc.1 loc.2.1 (by rw [loc.2.2.1]; exact ch.1 a (by simp)) hp
  refine ⟨l', ch', ?_⟩
  have sub : ∀ (m : List Addr) (p : Ptr), Fwd h' p m → (∀ x, p = some x → x ∈ a :: l) → ∀ b ∈ m, b ∈ a :: l := by
    intro m p f
    induction f with
    | nil => intro _ b hb; cases hb
    | @cons y m hy f ih =>
      intro hx b hb
      rcases List.mem_cons.1 hb with rfl | hb
      · exact hx b rfl
      · exact ih (fun z hz => loc.2.2.2.2.2.1 y z (hx y rfl) hz) b hb
  intro b hb
  have hb' := sub _ _ ch'.fwd (fun x hx => by cases hx; simp) b (by simp [hb])
  rcases List.mem_cons.1 hb' with rfl | hb'
  · have nd := ch'.nodup
    exact absurd hb (List.nodup_cons.1 nd).1
  · exact hb'

theorem resetAll_post : ∀ (gs : List (List Addr)) (scs : List ScopeRec) (h : Heap), scs.map (·.node) = gs.map List.head? →
    WF h → Acyclic h → (∀ g ∈ gs, g ≠ []) → gs.flatten.Nodup → (∀ g ∈ gs, Chain h g) →
    ∃ h', resetAll h scs = some h' ∧ WF h' ∧ Acyclic h' ∧ h'.size = h.size ∧ (∀ p, h'.line p = h.line p) ∧
      SameOn (fun a => a < h.size ∧ a ∉ gs.flatten) h h' ∧ ∀ g ∈ gs, GroupReset h h' g := by
  intro gs
  induction gs with
  | nil =>
    intro scs h e w ac _ _ _
    simp at e; subst e
    exact ⟨h, rfl, w, ac, rfl, fun _ => rfl, .refl h, by simp⟩
  | cons g gs ih =>
    intro scs h e w ac hne nd hch
    cases scs with
    | nil => simp at e
    | cons sc scs =>
      simp only [List.map_cons, List.cons.injEq] at e
      obtain ⟨x, xs, rfl⟩ := List.exists_cons_of_ne_nil (hne g (by simp))
      have chg := hch _ (List.mem_cons_self)
      obtain ⟨h1, r, er⟩ := C16_resetKind_total w ac (n := some x) (valid_some (chg.1 x (by simp)))
      have loc := C17_resetKind_local w ac chg (a := x) (by simp) er
      obtain ⟨l1, l2, l3, l4, l5, l6, l7⟩ := loc
      rw [List.flatten_cons, List.nodup_append] at nd
      -- the other groups are untouched
      have oth : ∀ g' ∈ gs, SameOn (· ∈ g') h h1 := by
        intro g' hg' a ha
        exact l4 a ((hch g' (by simp [hg'])).1 a ha) (fun hm => nd.2.2 a hm a (List.mem_flatten.2 ⟨g', hg', ha⟩) rfl)
      obtain ⟨h', e', w', ac', sz', ln', same', grp'⟩ := ih scs h1 e.2 l1 l2 (fun g' hg' => hne g' (by simp [hg'])) nd.2.1
        (fun g' hg' => (hch g' (by simp [hg'])).same (oth g' hg') (by omega) (fun a ha => ha))
      refine ⟨h', ?_, w', ac', by omega, fun p => (ln' p).trans (l5 p), ?_, ?_⟩
      · simp only [resetAll, e.1, List.head?_cons, er, e']
      · intro a ⟨h1', h2'⟩
        rw [List.flatten_cons, List.mem_append, not_or] at h2'
        have s1 := l4 a h1' h2'.1
        have s2 := same' a ⟨by omega, h2'.2⟩
        exact ⟨s2.1.trans s1.1, s2.2.1.trans s1.2.1, s2.2.2.trans s1.2.2⟩
      · intro g' hg'
        rcases List.mem_cons.1 hg' with rfl | hg'
        · refine ⟨h, h1, r, w, ac, chg, rfl, .refl h, er, ?_, by omega⟩
          intro a ha
          exact same' a ⟨by have := chg.1 a ha; omega, fun hm => nd.2.2 a ha a hm rfl⟩
        · obtain ⟨a1, a2, r', b1, b2, b3, b4, b5, b6, b7, b8⟩ := (grp' g' hg').ex
          exact ⟨a1, a2, r', b1, b2, b3, by omega, (oth g' hg').trans b5, b6, b7, by omega⟩

/-- The chain of a scope after all kinds were reset. -/
theorem GroupReset.chain {h h' : Heap} {a : Addr} {l : List Addr} (g : GroupReset h h' (a :: l)) :
    ∃ l', Chain h' (a :: l') ∧ ∀ b ∈ l', b ∈ l := by
  obtain ⟨h1, h2, r, w, ac, ch, sz, s1, e, s2, sz'⟩ := g.ex
  obtain ⟨l', ch', sub⟩ := resetKind_chain w ac ch e
  have loc := C17_resetKind_local w ac ch (a := a) (by simp) e
  refine ⟨l', ch'.same s2 (by rw [loc.2.2.1]; omega) ?_, sub⟩
  intro b hb
  rcases List.mem_cons.1 hb with rfl | hb
  · simp
  · simp [sub b hb]

end Goast
