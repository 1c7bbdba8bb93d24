import Verif.Proofs.Parse

/-!
# Resetting kinds preserves the text of a chain, comments aside
-/

set_option linter.unusedSimpArgs false
set_option linter.unusedVariables false

namespace Goast
open Heap

theorem textOf_append (h : Heap) (l m : List Addr) : textOf h (l ++ m) = textOf h l ++ textOf h m := by
  simp [textOf]

theorem textOf_cons (h : Heap) (a : Addr) (l : List Addr) : textOf h (a :: l) = h.text (some a) ++ textOf h l := rfl

theorem textOf_flatMap {h h0 : Heap} {K : Addr → List Addr} : ∀ (l : List Addr),
    (∀ a ∈ l, h.text (some a) = textOf h0 (K a)) → textOf h l = textOf h0 (l.flatMap K)
  | [], _ => rfl
  | a :: l, hk => by
    rw [textOf_cons, List.flatMap_cons, textOf_append, hk a (by simp),
      textOf_flatMap l (fun b hb => hk b (by simp [hb]))]

/-- The chain `l` of `h0` has become the chain `l'` of `h`, each node of `l'` holding the text of the nodes
`K a` of `l`, and only comments are lost. -/
structure Reduct (h0 : Heap) (l : List Addr) (h : Heap) (l' : List Addr) (K : Addr → List Addr) : Prop where
  chain : Chain h l'
  head : l'.head? = l.head?
  sub : l'.Sublist l
  off : ∀ a ∈ l, a ∉ l' → h0.kind (some a) ≠ .comment → h.next (some a) = none ∧ ∀ y, h.next (some y) ≠ some a
  text : ∀ a ∈ l', h.text (some a) = textOf h0 (K a)
  comm : ∀ a ∈ l', h0.kind (some a) = .comment → K a = [a]
  kept : (l'.flatMap K).Sublist l
  lost : ∀ a ∈ l, a ∉ l'.flatMap K → h0.kind (some a) = .comment

/-- The property carried through the resetters. -/
def Red (h0 : Heap) (l : List Addr) (h : Heap) : Prop := ∃ l' K, Reduct h0 l h l' K

theorem Red.start {h : Heap} {l : List Addr} (ch : Chain h l) : Red h l h := by
  refine ⟨l, fun a => [a], ch, rfl, .refl _, fun a ha hn => absurd ha hn, ?_, fun _ _ _ => rfl, ?_, ?_⟩
  · intro a _; simp [textOf]
  · simp
  · intro a ha hn; simp at hn; exact absurd ha hn

/-- The same links and texts. -/
theorem Reduct.same {h0 h h' : Heap} {l l' : List Addr} {K : Addr → List Addr} (r : Reduct h0 l h l' K) (w : WF h)
    (w' : WF h') (hs : h'.size = h.size) (hn : ∀ p, h'.next p = h.next p) (ht : ∀ p, h'.text p = h.text p) :
    Reduct h0 l h' l' K := by
  have f : Fwd h' l'.head? l' := r.chain.fwd.congr (fun a ha => by rw [hs]; exact r.chain.1 a ha) (fun a _ => hn _)
  refine ⟨f.chain w' ?_, r.head, r.sub, ?_, fun a ha => by rw [ht]; exact r.text a ha, r.comm, r.kept, r.lost⟩
  · cases hh : l'.head? with
    | none => rfl
    | some a =>
      cases hp : h'.prev (some a) with
      | none => rfl
      | some b =>
        have := (w'.inverse b a).2 hp
        rw [hn] at this
        have := (w.inverse b a).1 this
        rw [r.chain.2.1 a hh] at this; cases this
  · intro a ha h1 h2
    obtain ⟨x, y⟩ := r.off a ha h1 h2
    exact ⟨by rw [hn]; exact x, fun z => by rw [hn]; exact y z⟩

theorem Path.prefix {h : Heap} : ∀ (m : List Addr) (n : Addr) (l₂ : List Addr), Path h (n :: m) →
    Fwd h (h.next (some n)) l₂ → ∃ l₃, l₂ = m ++ l₃
  | [], n, l₂, _, _ => ⟨l₂, rfl⟩
  | b :: m, n, l₂, p, f => by
    rw [p.1] at f
    cases l₂ with
    | nil => cases f
    | cons x l₂ =>
      obtain ⟨hx, hb, f'⟩ := Fwd.cons_iff.1 f
      cases hx
      obtain ⟨l₃, rfl⟩ := Path.prefix m b l₂ p.2 f'
      exact ⟨l₃, rfl⟩

theorem Fwd.splice {h h' : Heap} {n : Addr} {q q' : List Addr} : ∀ (l₁ : List Addr) (p : Ptr),
    Fwd h p (l₁ ++ n :: q) → (∀ a ∈ l₁, a < h'.size) → (∀ a ∈ l₁, h'.next (some a) = h.next (some a)) →
    Fwd h' (some n) (n :: q') → Fwd h' p (l₁ ++ n :: q')
  | [], p, f, _, _, f' => by
    cases (Fwd.cons_iff.1 f).1
    exact f'
  | a :: l₁, p, f, hs, hn, f' => by
    obtain ⟨rfl, ha, f⟩ := Fwd.cons_iff.1 f
    refine .cons (hs a (by simp)) ?_
    rw [hn a (by simp)]
    exact Fwd.splice l₁ _ f (fun b hb => hs b (by simp [hb])) (fun b hb => hn b (by simp [hb])) f'

theorem flatMap_sublist (K : Addr → List Addr) {a b : List Addr} (h : a.Sublist b) : (a.flatMap K).Sublist (b.flatMap K) := by
  induction h with
  | slnil => exact .refl _
  | cons x _ ih => exact ih.trans (List.sublist_append_right _ _)
  | cons_cons x _ ih => exact (List.Sublist.refl _).append ih

/-- A contiguous merge. -/
theorem Reduct.merge {h0 h h' : Heap} {l l' : List Addr} {K : Addr → List Addr} (r : Reduct h0 l h l' K) (w : WF h)
    (comm : ∀ p, h.kind p = .comment ↔ h0.kind p = .comment) {n : Addr} {m rest : List Addr} {k : Kind} (hn : n ∈ l)
    (nc : h.kind (some n) ≠ .comment) (path : Path h (n :: m)) (sub : rest.Sublist m)
    (miss : ∀ a ∈ m, a ∉ rest → h.kind (some a) = .comment)
    (e : deferCombine h (some n :: rest.map some) k = some h') (hlt : n < h.size) : Red h0 l h' := by
  have nc0 : h0.kind (some n) ≠ .comment := fun hh => nc ((comm _).2 hh)
  by_cases hr : rest = []
  · subst hr
    obtain ⟨h1, e1, w1, s1, _, t1, n1⟩ := deferCombine_one w hlt k
    simp only [List.map_nil] at e
    rw [e] at e1; cases e1
    exact ⟨l', K, r.same w w1 s1 n1 t1⟩
  · by_cases hm : n ∈ l'
    · obtain ⟨l₁, l₂, rfl⟩ := List.append_of_mem hm
      have f2 : Fwd h (some n) (n :: l₂) := r.chain.fwd.drop l₁
      obtain ⟨l₃, rfl⟩ := Path.prefix m n l₂ path (Fwd.cons_iff.1 f2).2.2
      obtain ⟨r₁, x, rfl⟩ : ∃ r₁ x, rest = r₁ ++ [x] := by
        rcases rest.eq_nil_or_concat with h1 | ⟨r₁, x, h1⟩
        · exact absurd h1 hr
        · exact ⟨r₁, x, by rw [h1, List.concat_eq_append]⟩
      -- the merged part `m₁ ++ [x]`, the rest `q₂`
      obtain ⟨m₁, q₂, rfl, hsub⟩ : ∃ m₁ q₂, m = m₁ ++ x :: q₂ ∧ (r₁ ++ [x]).Sublist (m₁ ++ [x]) := by
        obtain ⟨p, q, rfl, hp, hq⟩ := List.append_sublist_iff.1 sub
        obtain ⟨q₁, q₂, rfl⟩ := List.append_of_mem (List.singleton_sublist.1 hq)
        exact ⟨p ++ q₁, q₂, by simp, (hp.trans (List.sublist_append_left _ _)).append (.refl _)⟩
      have el : l₁ ++ n :: (m₁ ++ x :: q₂ ++ l₃) = l₁ ++ (n :: m₁) ++ x :: (q₂ ++ l₃) := by simp
      have nd : (l₁ ++ n :: (m₁ ++ x :: q₂ ++ l₃)).Nodup := r.chain.nodup
      rw [el] at nd
      have nd1 := List.nodup_append.1 nd
      have nd2 := List.nodup_append.1 nd1.1
      have nd3 := List.nodup_cons.1 nd1.2.1
      have nd4 := List.nodup_cons.1 nd2.2.1
      have restmem : ∀ z ∈ r₁ ++ [x], z = x ∨ z ∈ m₁ := by
        intro z hz
        have := hsub.mem hz
        simpa [or_comm] using this
      have notrest1 : ∀ z, (z ∈ l₁ ∨ z = n) → z ∉ r₁ ++ [x] := by
        intro z hz hh
        rcases restmem z hh with rfl | hh
        · refine nd1.2.2 z ?_ z (by simp) rfl
          rcases hz with hz | rfl <;> simp [*]
        · rcases hz with hz | rfl
          · exact nd2.2.2 z hz z (by simp [hh]) rfl
          · exact nd4.1 hh
      have notrest2 : ∀ z ∈ q₂ ++ l₃, z ∉ r₁ ++ [x] := by
        intro z hz hh
        rcases restmem z hh with rfl | hh
        · exact nd3.1 hz
        · exact nd1.2.2 z (by simp [hh]) z (by simp only [List.mem_cons]; exact .inr hz) rfl
      have fx : Fwd h (some x) (x :: (q₂ ++ l₃)) := by
        have := r.chain.fwd
        rw [el] at this
        exact this.drop (l₁ ++ n :: m₁)
      have fx' := (Fwd.cons_iff.1 fx).2.2
      have nxn : h.next (some x) ≠ some n := by
        intro hh
        rw [hh] at fx'
        have hmem : n ∈ q₂ ++ l₃ := by
          cases hql : q₂ ++ l₃ with
          | nil => rw [hql] at fx'; cases fx'
          | cons y t => rw [hql] at fx'; cases (Fwd.cons_iff.1 fx').1; simp
        exact nd1.2.2 n (by simp) n (by simp only [List.mem_cons]; exact .inr hmem) rfl
      have lts := r.chain.1
      obtain ⟨h1, e1, w1, s1, k1, t1, n1⟩ := deferCombine_links w hlt (rest := r₁ ++ [x])
        (fun z hz => by
          rcases restmem z hz with rfl | hz
          · exact lts z (by simp)
          · exact lts z (by simp [hz]))
        (notrest1 n (.inr rfl)) (x := x) (by simp) nxn k
      rw [e] at e1; cases e1
      -- the new chain
      have nextl1 : ∀ a ∈ l₁, h'.next (some a) = h.next (some a) := by
        intro a ha
        have ne : a ≠ n := by rintro rfl; exact nd2.2.2 a ha a (by simp) rfl
        rw [n1, if_neg ne, if_neg]
        rintro (hh | ⟨z, hz, hh⟩)
        · exact notrest1 a (.inl ha) hh
        · -- the successor of `a` is in `l₁` or `n`
          obtain ⟨b₁, b₂, hb⟩ := List.append_of_mem ha
          have : ∃ y, (y ∈ l₁ ∨ y = n) ∧ h.next (some a) = some y := by
            cases b₂ with
            | nil => exact ⟨n, .inr rfl, r.chain.fwd.adj (l₁ := b₁) (by rw [hb]; simp; rfl)⟩
            | cons y b₂ => exact ⟨y, .inl (by rw [hb]; simp), r.chain.fwd.adj (l₁ := b₁) (by rw [hb]; simp; rfl)⟩
          obtain ⟨y, hy, hy'⟩ := this
          rw [hh] at hy'; cases hy'
          exact notrest1 z hy hz
      have fn : Fwd h' (some n) (n :: (q₂ ++ l₃)) := by
        refine .cons (by rw [s1]; exact hlt) ?_
        rw [n1, if_pos rfl]
        refine fx'.congr (fun a ha => by rw [s1]; exact fx'.lt a ha) ?_
        intro a ha
        have ne : a ≠ n := by
          rintro rfl
          exact nd1.2.2 a (by simp) a (by simp only [List.mem_cons]; exact .inr ha) rfl
        rw [n1, if_neg ne, if_neg]
        rintro (hh | ⟨z, hz, hh⟩)
        · exact notrest2 a ha hh
        · obtain ⟨b₁, b₂, hb⟩ := fx'.next_mem ha hh
          exact notrest2 z (by rw [hb]; simp) hz
      have ff := Fwd.splice l₁ _ r.chain.fwd (fun a ha => by rw [s1]; exact lts a (by simp [ha])) nextl1 fn
      have hhead : (l₁ ++ n :: (q₂ ++ l₃)).head? = (l₁ ++ n :: (m₁ ++ x :: q₂ ++ l₃)).head? := by
        cases l₁ <;> simp
      rw [← hhead] at ff
      have chain' : Chain h' (l₁ ++ n :: (q₂ ++ l₃)) := by
        refine ff.chain w1 ?_
        cases hd : (l₁ ++ n :: (q₂ ++ l₃)).head? with
        | none => rfl
        | some a =>
          cases hp : h'.prev (some a) with
          | none => rfl
          | some b =>
            have hb := (w1.inverse b a).2 hp
            have pa := r.chain.2.1 a (by rw [← hhead]; exact hd)
            rw [n1] at hb
            split at hb
            · rw [(w.inverse _ _).1 hb] at pa; cases pa
            · split at hb
              · cases hb
              · rw [(w.inverse _ _).1 hb] at pa; cases pa
      have sub' : (l₁ ++ n :: (q₂ ++ l₃)).Sublist (l₁ ++ n :: (m₁ ++ x :: q₂ ++ l₃)) := by
        refine (List.Sublist.refl l₁).append (List.Sublist.cons_cons n ?_)
        refine List.Sublist.append ?_ (.refl _)
        exact (List.sublist_cons_self x q₂).trans (List.sublist_append_right _ _)
      refine ⟨l₁ ++ n :: (q₂ ++ l₃), fun y => if y = n then K n ++ (r₁ ++ [x]).flatMap K else K y, chain', ?_, sub'.trans r.sub,
        ?_, ?_, ?_, ?_, ?_⟩
      · rw [hhead, r.head]
      · -- nodes off the chain
        intro a ha hna hnc
        have stay : ∀ y, h'.next (some y) = some a → h.next (some y) = some a ∨ h.next (some x) = some a := by
          intro y hy
          rw [n1] at hy
          split at hy
          · exact .inr hy
          · split at hy
            · cases hy
            · exact .inl hy
        by_cases hal : a ∈ l₁ ++ n :: (m₁ ++ x :: q₂ ++ l₃)
        · -- it was merged
          have hax : a = x ∨ a ∈ m₁ := by
            simp only [List.mem_append, List.mem_cons, not_or] at hal hna
            rcases hal with h1 | h1 | (h1 | h1 | h1) | h1
            · exact absurd h1 hna.1
            · exact absurd h1 hna.2.1
            · exact .inr h1
            · exact .inl h1
            · exact absurd h1 hna.2.2.1
            · exact absurd h1 hna.2.2.2
          have har : a ∈ r₁ ++ [x] := by
            apply Classical.byContradiction
            intro hh
            have := miss a (by rcases hax with rfl | hax <;> simp [*]) hh
            exact hnc ((comm _).1 this)
          have hne : a ≠ n := by rintro rfl; exact notrest1 a (.inr rfl) har
          refine ⟨by rw [n1, if_neg hne, if_pos (.inl har)], ?_⟩
          intro y hy
          have hxa : h.next (some x) ≠ some a := by
            intro hh
            obtain ⟨b₁, b₂, hb⟩ := fx.next_mem (by simp) hh
            have : a ∈ q₂ ++ l₃ := by
              have hm : a ∈ x :: (q₂ ++ l₃) := by rw [hb]; simp
              rcases List.mem_cons.1 hm with rfl | hm
              · exact absurd hh (w.irrefl a)
              · exact hm
            exact notrest2 a this har
          rcases stay y hy with hy' | hy'
          · rw [n1] at hy
            split at hy
            · exact hxa hy
            · rw [if_pos (.inr ⟨a, har, hy'⟩)] at hy; cases hy
          · exact hxa hy'
        · obtain ⟨o1, o2⟩ := r.off a ha hal hnc
          have hne : a ≠ n := by rintro rfl; exact hal hm
          refine ⟨?_, ?_⟩
          · rw [n1, if_neg hne]
            split
            · rfl
            · exact o1
          · intro y hy
            rcases stay y hy with hy' | hy'
            · exact o2 _ hy'
            · exact o2 _ hy'
      · intro a ha
        rw [t1]
        by_cases hne : a = n
        · subst hne
          simp only [if_true]
          rw [textOf_append h0, r.text a (by simp), textOf_flatMap (h := h) (r₁ ++ [x])]
          intro b hb
          refine r.text b ?_
          rcases restmem b hb with rfl | hb <;> simp [*]
        · have : some a ≠ some n := by simpa using hne
          simp only [this, if_false, hne]
          exact r.text a (sub'.mem ha)
      · intro a ha hc
        by_cases hne : a = n
        · subst hne; exact absurd hc nc0
        · simp only [hne, if_false]
          exact r.comm a (sub'.mem ha) hc
      · -- kept nodes
        have fm : ∀ t : List Addr, n ∉ t → t.flatMap (fun y => if y = n then K n ++ (r₁ ++ [x]).flatMap K else K y) = t.flatMap K := by
          intro t ht
          rw [List.flatMap_def, List.flatMap_def]
          congr 1
          apply List.map_congr_left
          intro y hy
          rw [if_neg (by rintro rfl; exact ht hy)]
        have n1' : n ∉ l₁ := fun hh => nd2.2.2 n hh n (by simp) rfl
        have n2' : n ∉ q₂ ++ l₃ := fun hh => nd1.2.2 n (by simp) n (by simp only [List.mem_cons]; exact .inr hh) rfl
        rw [List.flatMap_append, List.flatMap_cons, fm _ n1', fm _ n2', if_pos rfl]
        refine List.Sublist.trans ?_ r.kept
        have : (l₁ ++ n :: (m₁ ++ x :: q₂ ++ l₃)).flatMap K = l₁.flatMap K ++ (K n ++ (m₁ ++ [x]).flatMap K ++ (q₂ ++ l₃).flatMap K) := by
          simp [List.flatMap_append, List.flatMap_cons]
        rw [this]
        refine (List.Sublist.refl _).append (List.Sublist.append ((List.Sublist.refl _).append ?_) (.refl _))
        exact flatMap_sublist K hsub
      · intro a ha hna
        by_cases hal : a ∈ (l₁ ++ n :: (m₁ ++ x :: q₂ ++ l₃)).flatMap K
        · rw [List.mem_flatMap] at hal
          obtain ⟨y, hy, hay⟩ := hal
          have hna' : ∀ z ∈ l₁ ++ n :: (q₂ ++ l₃), a ∉ (if z = n then K n ++ (r₁ ++ [x]).flatMap K else K z) := by
            intro z hz hh
            exact hna (List.mem_flatMap.2 ⟨z, hz, hh⟩)
          have hn' := hna' n (by simp)
          rw [if_pos rfl, List.mem_append, not_or] at hn'
          have hyr : y ∉ r₁ ++ [x] := fun hh => hn'.2 (List.mem_flatMap.2 ⟨y, hh, hay⟩)
          have hyn : y ≠ n := by rintro rfl; exact hn'.1 hay
          have hyl : y ∉ l₁ ++ n :: (q₂ ++ l₃) := by
            intro hh
            have := hna' y hh
            rw [if_neg hyn] at this
            exact this hay
          have hym : y ∈ m₁ ++ x :: q₂ := by
            simp only [List.mem_append, List.mem_cons, not_or] at hy hyl ⊢
            rcases hy with h1 | h1 | h1 | h1
            · exact absurd h1 hyl.1
            · exact absurd h1 hyl.2.1
            · exact h1
            · exact absurd h1 hyl.2.2.2
          have hyc := (comm _).1 (miss y hym hyr)
          rw [r.comm y hy hyc] at hay
          simp at hay
          subst hay; exact hyc
        · exact r.lost a ha hal
    · -- a node off the chain has nothing behind it
      have := (r.off n hn hm nc0).1
      cases m with
      | nil => exact absurd (List.sublist_nil.1 sub) hr
      | cons b m => rw [path.1] at this; cases this

theorem nonComments_sublist (h : Heap) (m : List Addr) : (nonComments h m).Sublist m := List.filter_sublist

/-- The text of a chain survives the resetters. -/
theorem ok_red {h : Heap} (ac : Acyclic h) {l : List Addr} (ch : Chain h l) : (rctx h ac l (Red h l)).OK where
  lt := ch.1
  bound a ha := behind_lt ac (ch.1 a ha)
  xKind g a k gd _ _ _ _ := by
    obtain ⟨l', K, r⟩ := gd.x
    exact ⟨l', K, r.same gd.wf (wf_setKind gd.wf _ _) (by simp) (by simp) (by simp)⟩
  xMerge g n m g' gd hn _ nc path e := by
    obtain ⟨l', K, r⟩ := gd.x
    refine r.merge gd.wf gd.comm hn nc path (nonComments_sublist g m) ?_ e (by
      rw [show g.size = h.size from gd.size]; exact ch.1 n hn)
    intro a ha hna
    apply Classical.byContradiction
    intro hk
    exact hna (List.mem_filter.2 ⟨ha, by simpa using hk⟩)

/-- A func scope keeps its text, comments aside. -/
theorem resetKind_red_func {h : Heap} (w : WF h) (ac : Acyclic h) {l : List Addr} (ch : Chain h l) {a : Addr}
    (ha : a ∈ l) (hk : h.kind (some a) ≠ .type_) :
    ∃ h' r, resetKind h (some a) = some (h', r) ∧ Red h l h' := by
  obtain ⟨h', r, e, g⟩ := resetKind_good w ac ch ha (Red.start ch) (ok_red ac ch) (fun hh => absurd hh hk)
  exact ⟨h', r, e, g.x⟩

end Goast
