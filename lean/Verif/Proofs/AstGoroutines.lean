import Verif.Proofs.Goroutines
import Verif.Spec.AstGoroutines

/-!
# Goroutines that work on files of their own do not meet
-/

set_option linter.unusedSimpArgs false
set_option linter.unusedVariables false

namespace Goast
open Heap

theorem ScopeRec.at_default (φ : Addr → Addr) : (default : ScopeRec).at φ = default := rfl

/-- As `Pl`, and the arrays `A` of `st` are those of `k` at the indices `β`. -/
structure PlA (φ : Addr → Addr) (D : Addr → Prop) (β : Nat → Nat) (A : Nat → Prop) (st k : AState) : Prop where
  pl : Pl φ D st.heap k.heap
  lt : ∀ {x}, A x → x < st.arrs.length
  inj : ∀ {x y}, A x → A y → β x = β y → x = y
  cell : ∀ {x}, A x → k.arrs[β x]? = (st.arrs[x]?).map (List.map (ScopeRec.at φ))
  ins : ∀ {x l}, A x → st.arrs[x]? = some l → ∀ sc ∈ l, In D sc.node

/-- The embedding grew, and only the embedded things changed. -/
structure GrowA (φ : Addr → Addr) (D : Addr → Prop) (β : Nat → Nat) (A : Nat → Prop) (k : AState)
    (φ' : Addr → Addr) (D' : Addr → Prop) (β' : Nat → Nat) (A' : Nat → Prop) (st' k' : AState) : Prop where
  pla : PlA φ' D' β' A' st' k'
  heap : Grow φ D k.heap φ' D' st'.heap k'.heap
  sub : ∀ {x}, A x → A' x
  old : ∀ {x}, A x → β' x = β x
  new : ∀ {x}, A' x → ¬ A x → k.arrs.length ≤ β' x
  size : k.arrs.length ≤ k'.arrs.length
  frame : ∀ y, y < k.arrs.length → (∀ x, A x → β x ≠ y) → k'.arrs[y]? = k.arrs[y]?

variable {φ φ' φ'' : Addr → Addr} {D D' D'' : Addr → Prop} {β β' β'' : Nat → Nat} {A A' A'' : Nat → Prop} {st st' st'' k k' k'' : AState}

theorem PlA.lt' (P : PlA φ D β A st k) {x : Nat} (hx : A x) : β x < k.arrs.length := by
  have := P.cell hx
  rw [List.getElem?_eq_getElem (P.lt hx)] at this
  exact (List.getElem?_eq_some_iff.1 this).1

theorem GrowA.refl (P : PlA φ D β A st k) : GrowA φ D β A k φ D β A st k :=
  ⟨P, .refl P.pl, id, fun _ => rfl, fun a b => absurd a b, Nat.le_refl _, fun _ _ _ => rfl⟩

theorem GrowA.trans (X : GrowA φ D β A k φ' D' β' A' st' k') (Y : GrowA φ' D' β' A' k' φ'' D'' β'' A'' st'' k'') :
    GrowA φ D β A k φ'' D'' β'' A'' st'' k'' where
  pla := Y.pla
  heap := X.heap.trans Y.heap
  sub h := Y.sub (X.sub h)
  old h := (Y.old (X.sub h)).trans (X.old h)
  new {x} h hn := by
    by_cases hx : A' x
    · rw [Y.old hx]; exact X.new hx hn
    · exact Nat.le_trans X.size (Y.new h hx)
  size := Nat.le_trans X.size Y.size
  frame y hy hn := by
    rw [Y.frame y (Nat.lt_of_lt_of_le hy X.size), X.frame y hy hn]
    intro x hx e
    by_cases h0 : A x
    · exact hn x h0 ((X.old h0).symm.trans e)
    · have := X.new hx h0; omega

/-- Scopes of `D` keep their place. -/
theorem Grow.at_list {h' kh kh' : Heap} (G : Grow φ D kh φ' D' h' kh') {l : List ScopeRec} (hl : ∀ sc ∈ l, In D sc.node) :
    l.map (ScopeRec.at φ') = l.map (ScopeRec.at φ) :=
  List.map_congr_left fun sc hsc => by simp only [ScopeRec.at, G.map (hl sc hsc)]

/-- Only nodes change. -/
theorem PlA.heap (P : PlA φ D β A st k) {h' kh' : Heap} (G : Grow φ D k.heap φ' D' h' kh') :
    GrowA φ D β A k φ' D' β A { st with heap := h' } { k with heap := kh' } where
  pla :=
    { pl := G.pl
      lt := P.lt
      inj := P.inj
      cell := fun {x} hx => by
        show k.arrs[β x]? = (st.arrs[x]?).map _
        rw [P.cell hx]
        cases e : st.arrs[x]? with
        | none => rfl
        | some l => simp only [Option.map_some, G.at_list (P.ins hx e)]
      ins := fun hx e sc hsc => G.in_ (P.ins hx e sc hsc) }
  heap := G
  sub := id
  old _ := rfl
  new a b := absurd a b
  size := Nat.le_refl _
  frame _ _ _ := rfl

/-- The same slice, its array elsewhere. -/
def Slice.at (β : Nat → Nat) (s : Slice) : Slice := { s with arr := β s.arr }

/-- A new array. -/
theorem PlA.push (P : PlA φ D β A st k) {l : List ScopeRec} (hl : ∀ sc ∈ l, In D sc.node) :
    GrowA φ D β A k φ D (fun x => if x = st.arrs.length then k.arrs.length else β x) (fun x => A x ∨ x = st.arrs.length)
      { st with arrs := st.arrs ++ [l] } { k with arrs := k.arrs ++ [l.map (ScopeRec.at φ)] } where
  pla :=
    { pl := P.pl
      lt := by
        rintro x (hx | rfl)
        · have := P.lt hx
          simp; omega
        · simp
      inj := by
        rintro x y (hx | rfl) (hy | rfl)
        · have := P.lt hx; have := P.lt hy
          simp only [show x ≠ st.arrs.length by omega, show y ≠ st.arrs.length by omega, if_false]
          exact P.inj hx hy
        · have := P.lt hx; have := P.lt' hx
          simp only [show x ≠ st.arrs.length by omega, if_false, if_true]
          omega
        · have := P.lt hy; have := P.lt' hy
          simp only [show y ≠ st.arrs.length by omega, if_false, if_true]
          omega
        · intro _; rfl
      cell := by
        rintro x (hx | rfl)
        · have := P.lt hx; have := P.lt' hx
          simp only [show x ≠ st.arrs.length by omega, if_false]
          rw [List.getElem?_append_left (P.lt' hx), List.getElem?_append_left (P.lt hx), P.cell hx]
        · simp
      ins := by
        rintro x l' (hx | rfl) e
        · have := P.lt hx
          simp only [List.getElem?_append_left this] at e
          exact P.ins hx e
        · simp at e
          subst e
          exact hl }
  heap := .refl P.pl
  sub := .inl
  old {x} hx := by have := P.lt hx; simp only [show x ≠ st.arrs.length by omega, if_false]
  new {x} hx hn := by
    rcases hx with hx | rfl
    · exact absurd hx hn
    · simp
  size := by simp
  frame y hy _ := by simp only [List.getElem?_append_left hy]

/-- An array changes. -/
theorem PlA.modify (P : PlA φ D β A st k) {x : Nat} (hx : A x) {f f' : List ScopeRec → List ScopeRec}
    (hf : ∀ l, f' (l.map (ScopeRec.at φ)) = (f l).map (ScopeRec.at φ)) (hi : ∀ l, st.arrs[x]? = some l → ∀ sc ∈ f l, In D sc.node) :
    GrowA φ D β A k φ D β A { st with arrs := st.arrs.modify x f } { k with arrs := k.arrs.modify (β x) f' } where
  pla :=
    { pl := P.pl
      lt := fun h => by simpa using P.lt h
      inj := P.inj
      cell := fun {y} hy => by
        simp only [List.getElem?_modify]
        by_cases e : y = x
        · subst e
          simp only [if_true, P.cell hy]
          cases st.arrs[y]? with
          | none => rfl
          | some l => simp [hf]
        · have : β x ≠ β y := fun h => e (P.inj hy hx h.symm)
          simp only [this, if_false, Ne.symm e, P.cell hy]
          cases st.arrs[y]? <;> simp
      ins := fun {y l} hy e => by
        simp only [List.getElem?_modify] at e
        by_cases exy : x = y
        · subst exy
          obtain ⟨l0, e0, e1⟩ := Option.map_eq_some_iff.1 e
          simp only [if_true] at e1
          subst e1
          exact hi l0 e0
        · simp only [exy, if_false, id_map'] at e
          exact P.ins hy e }
  heap := .refl P.pl
  sub := id
  old _ := rfl
  new a b := absurd a b
  size := by simp
  frame y _ hn := by
    simp only [List.getElem?_modify, hn x hx, if_false, id_map']

theorem PlA.elems (P : PlA φ D β A st k) {s : Slice} (hs : A s.arr) : k.elems (s.at β) = (st.elems s).map (ScopeRec.at φ) := by
  simp only [AState.elems, Slice.at, P.cell hs]
  cases st.arrs[s.arr]? with
  | none => simp
  | some l => simp [List.map_drop, List.map_take]

theorem PlA.elems_in (P : PlA φ D β A st k) {s : Slice} (hs : A s.arr) : ∀ sc ∈ st.elems s, In D sc.node := by
  intro sc hsc
  rw [AState.elems] at hsc
  cases e : st.arrs[s.arr]? with
  | none => simp [e] at hsc
  | some l =>
    rw [e] at hsc
    exact P.ins hs e sc (List.mem_of_mem_drop (List.mem_of_mem_take hsc))

theorem PlA.newSlice (P : PlA φ D β A st k) {l : List ScopeRec} (hl : ∀ sc ∈ l, In D sc.node) (spare : Nat) :
    ∃ β' A', GrowA φ D β A k φ D β' A' (st.newSlice l spare).1 (k.newSlice (l.map (ScopeRec.at φ)) spare).1 ∧
      A' (st.newSlice l spare).2.arr ∧ (k.newSlice (l.map (ScopeRec.at φ)) spare).2 = (st.newSlice l spare).2.at β' := by
  have := P.push (l := l ++ List.replicate spare default) (by
    intro sc hsc
    rcases List.mem_append.1 hsc with h | h
    · exact hl sc h
    · rw [(List.mem_replicate.1 h).2]
      exact In.none)
  rw [List.map_append, List.map_replicate, ScopeRec.at_default] at this
  exact ⟨_, _, this, .inr rfl, by simp [AState.newSlice, Slice.at]⟩

theorem map_overwrite (l xs : List ScopeRec) (i : Nat) :
    AState.overwrite (l.map (ScopeRec.at φ)) i (xs.map (ScopeRec.at φ)) = (AState.overwrite l i xs).map (ScopeRec.at φ) := by
  simp [AState.overwrite, List.map_take, List.map_drop]

theorem PlA.append (P : PlA φ D β A st k) {s : Slice} (hs : A s.arr) {xs : List ScopeRec} (hx : ∀ sc ∈ xs, In D sc.node) (grow : Nat → Nat) :
    ∃ β' A', GrowA φ D β A k φ D β' A' (st.append grow s xs).1 (k.append grow (s.at β) (xs.map (ScopeRec.at φ))).1 ∧
      A' (st.append grow s xs).2.arr ∧ (k.append grow (s.at β) (xs.map (ScopeRec.at φ))).2 = (st.append grow s xs).2.at β' := by
  by_cases h : s.len + xs.length ≤ s.cap
  · refine ⟨β, A, ?_, ?_, ?_⟩
    · simp only [AState.append, Slice.at, List.length_map, h, if_true]
      refine P.modify hs (fun l => map_overwrite l xs _) (fun l e sc hsc => ?_)
      simp only [AState.overwrite, List.mem_append] at hsc
      rcases hsc with (hsc | hsc) | hsc
      · exact P.ins hs e sc (List.mem_of_mem_take hsc)
      · exact hx sc hsc
      · exact P.ins hs e sc (List.mem_of_mem_drop hsc)
    · simpa only [AState.append, h, if_true] using hs
    · simp only [AState.append, Slice.at, List.length_map, h, if_true]
  · have hl : ∀ sc ∈ st.elems s ++ xs ++ List.replicate (grow (s.len + xs.length) - (s.len + xs.length)) default, In D sc.node := by
      intro sc hsc
      rcases List.mem_append.1 hsc with hsc | hsc
      · rcases List.mem_append.1 hsc with hsc | hsc
        · exact P.elems_in hs sc hsc
        · exact hx sc hsc
      · rw [(List.mem_replicate.1 hsc).2]
        exact In.none
    have G := P.push hl
    rw [List.map_append, List.map_append, List.map_replicate, ScopeRec.at_default, ← P.elems hs] at G
    refine ⟨fun x => if x = st.arrs.length then k.arrs.length else β x, fun x => A x ∨ x = st.arrs.length, ?_, ?_, ?_⟩
    rotate_left
    · simp only [AState.append, h, if_false, or_true]
    · simp [AState.append, Slice.at, h]
    · simpa only [AState.append, show (s.at β).len = s.len from rfl, show (s.at β).cap = s.cap from rfl, List.length_map, h, if_false] using G

/-! ## Package names and texts -/

theorem Pl.loop {σ : Type} {h kh : Heap} (P : Pl φ D h kh) {fn fn' : σ → Addr → σ × Bool} (hf : ∀ s a, D a → fn' s (φ a) = fn s a) :
    ∀ {fuel fuel' : Nat}, fuel ≤ fuel' → ∀ {s : σ} {p : Ptr} {r : σ × Ptr}, In D p →
      Goast.loop (fun _ a => h.next (some a)) (fun s a => some (fn s a)) fuel s p = some r →
      Goast.loop (fun _ a => kh.next (some a)) (fun s a => some (fn' s a)) fuel' s (p.map φ) = some (r.1, r.2.map φ) ∧ In D r.2
  | fuel, fuel', _, s, none, r, _, e => by
    rw [Goast.loop] at e
    cases e
    exact ⟨by rw [Option.map_none, Goast.loop], In.none⟩
  | 0, fuel', _, s, some a, r, _, e => by cases e
  | fuel + 1, 0, hle, _, _, _, _, _ => by omega
  | fuel + 1, fuel' + 1, hle, s, some a, r, hp, e => by
    have ha := hp a rfl
    rw [Goast.loop] at e
    rw [Option.map_some, Goast.loop]
    rw [hf s a ha]
    rcases hx : fn s a with ⟨s1, b⟩
    simp only [hx] at e ⊢
    cases b with
    | true =>
      have := Pl.loop P hf (fuel := fuel) (fuel' := fuel') (by omega) (P.in_next hp) e
      rw [← P.next hp] at this
      exact this
    | false =>
      simp only [Option.some.injEq] at e
      subst e
      exact ⟨rfl, hp⟩

theorem Pl.iterNext {σ : Type} {h kh : Heap} (P : Pl φ D h kh) {fn fn' : σ → Addr → σ × Bool} (hf : ∀ s a, D a → fn' s (φ a) = fn s a)
    {s : σ} {p : Ptr} {r : σ × Ptr} (hp : In D p) (e : h.iterNext fn s p = some r) :
    kh.iterNext fn' s (p.map φ) = some (r.1, r.2.map φ) ∧ In D r.2 := P.loop hf (by have := P.le; omega) hp e

theorem Pl.findPackageName {h kh : Heap} (P : Pl φ D h kh) {scs : List ScopeRec} (hs : ∀ sc ∈ scs, In D sc.node) {r : Except Err Bytes}
    (e : findPackageName h scs = some r) : findPackageName kh (scs.map (ScopeRec.at φ)) = some r := by
  have hfind : (scs.map (ScopeRec.at φ)).find? (fun sc => sc.kind = .package_) = (scs.find? (fun sc => sc.kind = .package_)).map (ScopeRec.at φ) := by
    rw [List.find?_map]
    rfl
  rw [Goast.findPackageName] at e ⊢
  rw [hfind]
  cases e0 : scs.find? (fun sc => sc.kind = .package_) with
  | none => rw [e0] at e; exact e
  | some sc =>
    rw [e0] at e
    obtain ⟨p, e1, e2⟩ := Option.map_eq_some_iff.1 e
    obtain ⟨⟨b, p'⟩, e3, e4⟩ := Option.map_eq_some_iff.1 e1
    simp only at e4
    subst e4
    obtain ⟨e5, i5⟩ := P.iterNext (fn' := fun (appeared : Bool) a =>
      if appeared && decide (kh.kind (some a) = .raw) then (appeared, false)
      else if kh.kind (some a) = .package_ then (true, true)
      else (appeared, true)) (by
        intro s a ha
        have : kh.kind (some (φ a)) = h.kind (some a) := P.kind (p := some a) (by simpa using ha)
        simp only [this]) (hs sc (List.mem_of_find?_eq_some e0)) e3
    simp only [Option.map_some, findPackageNode, ScopeRec.at, e5]
    rw [← e2, P.text i5]

theorem Pl.chainText {h kh : Heap} (P : Pl φ D h kh) {p : Ptr} (hp : In D p) {t : Bytes} (e : chainText h p = some t) : chainText kh (p.map φ) = some t := by
  obtain ⟨⟨b, p'⟩, e3, e4⟩ := Option.map_eq_some_iff.1 e
  simp only at e4
  subst e4
  obtain ⟨e5, _⟩ := P.iterNext (fn' := fun (buf : Bytes) a => (buf ++ kh.text (some a), true)) (by
        intro s a ha
        have : kh.text (some (φ a)) = h.text (some a) := P.text (p := some a) (by simpa using ha)
        simp only [this]) hp e3
  simp only [Goast.chainText, e5, Option.map_some]

theorem Pl.scopesText {h kh : Heap} (P : Pl φ D h kh) : ∀ {scs : List ScopeRec}, (∀ sc ∈ scs, In D sc.node) → ∀ {t : Bytes}, scopesText h scs = some t →
    scopesText kh (scs.map (ScopeRec.at φ)) = some t
  | [], _, t, e => e
  | sc :: scs, hs, t, e => by
    rw [Goast.scopesText] at e
    cases e1 : Goast.chainText h sc.node with
    | none => rw [e1] at e; cases e
    | some t1 =>
      rw [e1] at e
      obtain ⟨t2, e2, e3⟩ := Option.map_eq_some_iff.1 e
      rw [List.map_cons, Goast.scopesText]
      simp only [ScopeRec.at, P.chainText (hs sc (by simp)) e1]
      rw [Pl.scopesText P (fun x hx => hs x (by simp [hx])) e2, Option.map_some, e3]

theorem copyScopes_sim : ∀ {scs : List ScopeRec} {φ : Addr → Addr} {D : Addr → Prop} {h kh : Heap} (P : Pl φ D h kh), (∀ sc ∈ scs, In D sc.node) →
    ∀ {h' : Heap} {rs : List ScopeRec}, copyScopes h scs = some (h', rs) →
    ∃ φ' D' kh', copyScopes kh (scs.map (ScopeRec.at φ)) = some (kh', rs.map (ScopeRec.at φ')) ∧ Grow φ D kh φ' D' h' kh' ∧ ∀ sc ∈ rs, In D' sc.node
  | [], φ, D, h, kh, P, _, h', rs, e => by
    rw [copyScopes] at e
    cases e
    exact ⟨φ, D, kh, rfl, .refl P, by simp⟩
  | sc :: scs, φ, D, h, kh, P, hs, h', rs, e => by
    rw [copyScopes] at e
    cases e1 : sc.copy h with
    | none => rw [e1] at e; cases e
    | some x =>
      obtain ⟨h1, sc1⟩ := x
      rw [e1] at e
      obtain ⟨⟨h2, rs2⟩, e2, e3⟩ := Option.map_eq_some_iff.1 e
      simp only [Prod.mk.injEq] at e3
      obtain ⟨rfl, rfl⟩ := e3
      rw [ScopeRec.copy] at e1
      obtain ⟨⟨h3, p⟩, e4, e5⟩ := Option.map_eq_some_iff.1 e1
      simp only [Prod.mk.injEq] at e5
      obtain ⟨rfl, rfl⟩ := e5
      obtain ⟨φ1, D1, k1, e6, G1, i1⟩ := P.copy (hs sc (by simp)) true e4
      have hs1 : ∀ x ∈ scs, In D x.node := fun x hx => hs x (by simp [hx])
      obtain ⟨φ2, D2, k2, e7, G2, i2⟩ := copyScopes_sim G1.pl (fun x hx => G1.in_ (hs1 x hx)) e2
      rw [G1.at_list hs1] at e7
      refine ⟨φ2, D2, k2, ?_, G1.trans G2, ?_⟩
      · rw [List.map_cons, copyScopes]
        simp only [ScopeRec.copy, show (sc.at φ).node = sc.node.map φ from rfl, e6, Option.map_some, e7]
        simp only [List.map_cons, Option.some.injEq, Prod.mk.injEq, true_and, List.cons.injEq, and_true]
        simp only [ScopeRec.at, G2.map i1]
      · intro x hx
        rcases List.mem_cons.1 hx with rfl | hx
        · exact G2.in_ i1
        · exact i2 x hx

/-! ## Files -/

/-- What `SaveFile` answers does not depend on the files, and it changes at most the file it names. -/
theorem saveFile_alike (env : Env) (file data : Bytes) (auto : List Bool) :
    ∃ (e : Option Err) (c : Option Bytes), ∀ fs : FS, saveFile env fs file data auto = ((fun f => if f = goFileName file then c.or (fs f) else fs f), e) := by
  by_cases h0 : data.length = 0
  · refine ⟨some .saveEmptyData, none, fun fs => ?_⟩
    simp only [saveFile, h0, if_true, Option.none_or]
    congr 1
    funext f
    simp
  cases h1 : env.mkdirOk (env.dir (goFileName file)) with
  | false =>
    refine ⟨some .mkdir, none, fun fs => ?_⟩
    simp only [saveFile, h0, if_false, h1, Option.none_or]
    simp
  | true =>
    cases h2 : env.createOk (goFileName file) with
    | false =>
      refine ⟨some .create, none, fun fs => ?_⟩
      simp only [saveFile, h0, if_false, h1, h2, Option.none_or]
      simp
    | true =>
      cases h3 : env.writeFailsAfter (goFileName file) (formattedData env (goFileName file) data auto) with
      | some n =>
        refine ⟨some .write, some ((formattedData env (goFileName file) data auto).take n), fun fs => ?_⟩
        simp only [saveFile, h0, if_false, h1, h2, h3, FS.put]
        simp only [Bool.not_true, Bool.false_eq_true, if_false, Prod.mk.injEq, and_true]
        funext f
        by_cases hf : f = goFileName file <;> simp [FS.put, hf]
      | none =>
        refine ⟨none, some (formattedData env (goFileName file) data auto), fun fs => ?_⟩
        simp only [saveFile, h0, if_false, h1, h2, h3, FS.put]
        simp only [Bool.not_true, Bool.false_eq_true, if_false, Prod.mk.injEq, and_true]
        funext f
        by_cases hf : f = goFileName file <;> simp [FS.put, hf]

theorem readFile_alike (env : Env) {fs fs' : FS} {file : Bytes} (h : fs' (goFileName file) = fs (goFileName file)) :
    readFile env fs' file = readFile env fs file := by
  simp only [readFile, h]

/-! ## Steps -/

/-- The same `Ast`, its array elsewhere. -/
def AstRec.at (β : Nat → Nat) (a : AstRec) : AstRec := { a with scope := a.scope.at β }

/-- The same goroutine, its nodes and arrays elsewhere. -/
def Gor2.at (φ : Addr → Addr) (β : Nat → Nat) (g : Gor2) : Gor2 :=
  ⟨g.nodes.map (Option.map φ), g.scopes.map (ScopeRec.at φ), g.slices.map (Slice.at β), g.asts.map (AstRec.at β), g.seen⟩

/-- All variables hold nodes of `D` and arrays of `A`. -/
structure Holds2 (D : Addr → Prop) (A : Nat → Prop) (g : Gor2) : Prop where
  nodes : ∀ p ∈ g.nodes, In D p
  scopes : ∀ sc ∈ g.scopes, In D sc.node
  slices : ∀ s ∈ g.slices, A s.arr
  asts : ∀ a ∈ g.asts, A a.scope.arr

theorem Holds2.base {g : Gor2} (H : Holds2 D A g) : Holds D g.base := ⟨H.nodes, H.scopes⟩

theorem Slice.at_grow (G : GrowA φ D β A k φ' D' β' A' st' k') {s : Slice} (hs : A s.arr) : s.at β' = s.at β := by
  simp only [Slice.at, G.old hs]

theorem Gor2.at_grow (G : GrowA φ D β A k φ' D' β' A' st' k') {g : Gor2} (H : Holds2 D A g) : g.at φ' β' = g.at φ β := by
  simp only [Gor2.at, Gor2.mk.injEq, and_true]
  refine ⟨List.map_congr_left (fun p hp => G.heap.map (H.nodes p hp)), G.heap.at_list H.scopes,
    List.map_congr_left (fun s hs => Slice.at_grow G (H.slices s hs)), List.map_congr_left (fun a ha => ?_)⟩
  simp only [AstRec.at, Slice.at_grow G (H.asts a ha)]

theorem Holds2.grow (G : GrowA φ D β A k φ' D' β' A' st' k') {g : Gor2} (H : Holds2 D A g) : Holds2 D' A' g :=
  ⟨fun p hp => G.heap.in_ (H.nodes p hp), fun sc hsc => G.heap.in_ (H.scopes sc hsc), fun s hs => G.sub (H.slices s hs), fun a ha => G.sub (H.asts a ha)⟩

theorem Holds2.see {g : Gor2} (H : Holds2 D A g) (o : Obs2) : Holds2 D A (g.see o) := ⟨H.nodes, H.scopes, H.slices, H.asts⟩

theorem Holds2.putScopes {g : Gor2} (H : Holds2 D A g) {l : List ScopeRec} (hl : ∀ sc ∈ l, In D sc.node) : Holds2 D A (g.putScopes l) :=
  ⟨H.nodes, fun sc hsc => by
    rcases List.mem_append.1 (show sc ∈ g.scopes ++ l from hsc) with h | h
    · exact H.scopes sc h
    · exact hl sc h, H.slices, H.asts⟩

theorem Holds2.putSlice {g : Gor2} (H : Holds2 D A g) {s : Slice} (hs : A s.arr) : Holds2 D A (g.putSlice s) :=
  ⟨H.nodes, H.scopes, fun x hx => by
    rcases List.mem_append.1 (show x ∈ g.slices ++ [s] from hx) with h | h
    · exact H.slices x h
    · rw [List.mem_singleton] at h; subst h; exact hs, H.asts⟩

theorem Holds2.putAst {g : Gor2} (H : Holds2 D A g) {a : AstRec} (ha : A a.scope.arr) : Holds2 D A (g.putAst a) :=
  ⟨H.nodes, H.scopes, H.slices, fun x hx => by
    rcases List.mem_append.1 (show x ∈ g.asts ++ [a] from hx) with h | h
    · exact H.asts x h
    · rw [List.mem_singleton] at h; subst h; exact ha⟩

theorem Holds2.setAst {g : Gor2} (H : Holds2 D A g) (i : Nat) {a : AstRec} (ha : A a.scope.arr) : Holds2 D A (g.setAst i a) :=
  ⟨H.nodes, H.scopes, H.slices, fun x hx => by
    rcases List.mem_or_eq_of_mem_set (show x ∈ g.asts.set i a from hx) with h | h
    · exact H.asts x h
    · subst h; exact ha⟩

theorem Gor2.putScopes_at (g : Gor2) (l : List ScopeRec) : (g.at φ β).putScopes (l.map (ScopeRec.at φ)) = (g.putScopes l).at φ β := by
  simp [Gor2.at, Gor2.putScopes]

theorem Gor2.putSlice_at (g : Gor2) (s : Slice) : (g.at φ β).putSlice (s.at β) = (g.putSlice s).at φ β := by
  simp [Gor2.at, Gor2.putSlice, Slice.at]

theorem Gor2.putAst_at (g : Gor2) (a : AstRec) : (g.at φ β).putAst (a.at β) = (g.putAst a).at φ β := by
  simp [Gor2.at, Gor2.putAst]

theorem Gor2.setAst_at (g : Gor2) (i : Nat) (a : AstRec) : (g.at φ β).setAst i (a.at β) = (g.setAst i a).at φ β := by
  simp [Gor2.at, Gor2.setAst, List.map_set]

theorem Gor2.slices_at (g : Gor2) (i : Nat) : (g.at φ β).slices[i]? = (g.slices[i]?).map (Slice.at β) := by simp [Gor2.at]
theorem Gor2.asts_at (g : Gor2) (i : Nat) : (g.at φ β).asts[i]? = (g.asts[i]?).map (AstRec.at β) := by simp [Gor2.at]
theorem Gor2.scopes_at (g : Gor2) (i : Nat) : (g.at φ β).scopes[i]? = (g.scopes[i]?).map (ScopeRec.at φ) := by simp [Gor2.at]

/-- What a step of one goroutine means for the shared things: it is shown the same, its part of the shared things stays an image of
what it would have alone, the files it may touch are as they would be, and files it does not write stay. -/
structure Sim (env : Env) (caps : Caps) (φ : Addr → Addr) (D : Addr → Prop) (β : Nat → Nat) (A : Nat → Prop) (F : Bytes → Prop)
    (k : Shared2) (g : Gor2) (act : Act2) (w' : Shared2) (g' : Gor2)
    (φ' : Addr → Addr) (D' : Addr → Prop) (β' : Nat → Nat) (A' : Nat → Prop) (k' : Shared2) : Prop where
  step : act.step env caps k (g.at φ β) = some (k', g'.at φ' β')
  grow : GrowA φ D β A k.st φ' D' β' A' w'.st k'.st
  holds : Holds2 D' A' g'
  files : ∀ f, F f → k'.fs f = w'.fs f
  others : ∀ f, f ∉ act.writes → k'.fs f = k.fs f

theorem save_files {env : Env} {F : Bytes → Prop} {fs kfs : FS} (hF : ∀ f, F f → kfs f = fs f) (file data : Bytes) (auto : List Bool) :
    (saveFile env kfs file data auto).2 = (saveFile env fs file data auto).2 ∧
    (∀ f, F f → (saveFile env kfs file data auto).1 f = (saveFile env fs file data auto).1 f) ∧
    (∀ f, f ∉ [goFileName file] → (saveFile env kfs file data auto).1 f = kfs f) := by
  obtain ⟨e, c, h⟩ := saveFile_alike env file data auto
  rw [h, h]
  refine ⟨rfl, fun f hf => by simp only [hF f hf], fun f hf => ?_⟩
  rw [List.mem_singleton] at hf
  simp only [hf, if_false]

theorem Act2.sim {env : Env} {caps : Caps} {F : Bytes → Prop} {w k : Shared2} (P : PlA φ D β A w.st k.st) (hF : ∀ f, F f → k.fs f = w.fs f)
    {g g' : Gor2} (H : Holds2 D A g) (act : Act2) (hact : ∀ f ∈ act.files, F f) {w' : Shared2} (e : act.step env caps w g = some (w', g')) :
    ∃ φ' D' β' A' k', Sim env caps φ D β A F k g act w' g' φ' D' β' A' k' := by
  cases act with
  | base a =>
    obtain ⟨⟨h1, g1⟩, e1, e2⟩ := Option.map_eq_some_iff.1 e
    simp only [Prod.mk.injEq] at e2
    obtain ⟨rfl, rfl⟩ := e2
    obtain ⟨φ', D', k', e3, G, H'⟩ := Act.sim P.pl H.base a e1
    refine ⟨φ', D', β, A, ⟨{ k.st with heap := k' }, k.fs⟩, ?_, P.heap G, ⟨H'.nodes, H'.scopes, H.slices, H.asts⟩, hF, fun _ _ => rfl⟩
    have : (g.at φ β).base = g.base.at φ := rfl
    simp only [Act2.step, this, e3, Option.map_some]
    rfl
  | readFile file =>
    simp only [Act2.step, Option.some.injEq, Prod.mk.injEq] at e
    obtain ⟨rfl, rfl⟩ := e
    have hr := readFile_alike env (hF (goFileName file) (hact _ (by simp [Act2.files])))
    refine ⟨φ, D, β, A, k, ?_, .refl P, H.see _, hF, fun _ _ => rfl⟩
    simp only [Act2.step, hr]
    rfl
  | saveFile file data auto =>
    simp only [Act2.step, Option.some.injEq, Prod.mk.injEq] at e
    obtain ⟨rfl, rfl⟩ := e
    obtain ⟨s1, s2, s3⟩ := save_files (env := env) hF file data auto
    refine ⟨φ, D, β, A, ⟨k.st, (Goast.saveFile env k.fs file data auto).1⟩, ?_, .refl P, H.see _, s2, s3⟩
    simp only [Act2.step, s1]
    rfl
  | parseAst file =>
    have hr := readFile_alike env (hF (goFileName file) (hact _ (by simp [Act2.files])))
    obtain ⟨r, e1, e2⟩ := Option.map_eq_some_iff.1 e
    rw [Goast.parseAst] at e1
    cases e0 : Goast.readFile env w.fs file with
    | error er =>
      rw [e0] at e1
      simp only [Option.some.injEq] at e1
      subst e1
      simp only [Prod.mk.injEq] at e2
      obtain ⟨rfl, rfl⟩ := e2
      refine ⟨φ, D, β, A, k, ?_, .refl P, H.see _, hF, fun _ _ => rfl⟩
      simp only [Act2.step, Goast.parseAst, hr, e0, Option.map_some]
      rfl
    | ok data =>
      rw [e0] at e1
      cases ep : parseScope w.st.heap 0 data with
      | none => simp [ep] at e1
      | some x =>
        obtain ⟨h1, scs⟩ := x
        simp only [ep] at e1
        obtain ⟨r1, e3, e4⟩ := Option.map_eq_some_iff.1 e1
        -- the parse
        obtain ⟨φ1, D1, k1, e5, G, H1⟩ := Act.sim (g := ⟨[], [], []⟩) P.pl ⟨by simp, by simp⟩ (.parse 0 data) (h' := h1)
          (g' := ⟨[], scs, [.scopes scs.length]⟩) (by simp [Act.step, ep, Gor.putScopes])
        have ek : parseScope k.st.heap 0 data = some (k1, scs.map (ScopeRec.at φ1)) := by
          obtain ⟨⟨h2, scs2⟩, e6, e7⟩ := Option.map_eq_some_iff.1 e5
          simp only [Gor.at, Gor.putScopes, List.map_nil, List.nil_append, Prod.mk.injEq, Gor.mk.injEq, true_and] at e7
          rw [e6, e7.1, e7.2.1]
        have hin : ∀ sc ∈ scs, In D1 sc.node := H1.scopes
        have ef := G.pl.findPackageName hin e3
        cases r1 with
        | error er =>
          simp only at e4
          subst e4
          simp only [Prod.mk.injEq] at e2
          obtain ⟨rfl, rfl⟩ := e2
          refine ⟨φ, D, β, A, k, ?_, .refl P, H.see _, hF, fun _ _ => rfl⟩
          simp only [Act2.step, Goast.parseAst, hr, e0, Option.map_some, ek, ef]
          rfl
        | ok nm =>
          simp only at e4
          subst e4
          simp only [Prod.mk.injEq] at e2
          obtain ⟨rfl, rfl⟩ := e2
          have G1 := P.heap G
          obtain ⟨β2, A2, G2, a2, e8⟩ := G1.pla.newSlice hin (caps.spare ((Except.toOption (.ok data : Except Err Bytes)).getD []))
          have G3 := G1.trans G2
          refine ⟨φ1, D1, β2, A2, ⟨_, k.fs⟩, ?_, G3, (H.grow G3).putAst a2, hF, fun _ _ => rfl⟩
          rw [← Gor2.putAst_at, Gor2.at_grow G3 H]
          simp only [Act2.step, Goast.parseAst, hr, e0, Option.map_some, ek, ef, AstRec.at, ← e8]
  | slice is =>
    simp only [Act2.step, Option.some.injEq, Prod.mk.injEq] at e
    obtain ⟨rfl, rfl⟩ := e
    have hl : ∀ sc ∈ is.filterMap (g.scopes[·]?), In D sc.node := by
      intro sc hsc
      obtain ⟨i, _, e⟩ := List.mem_filterMap.1 hsc
      exact H.scopes sc (List.mem_of_getElem? e)
    have hm : is.filterMap ((g.at φ β).scopes[·]?) = (is.filterMap (g.scopes[·]?)).map (ScopeRec.at φ) := by
      rw [List.map_filterMap]
      congr 1
      funext i
      exact Gor2.scopes_at g i
    obtain ⟨β1, A1, G, a1, e1⟩ := P.newSlice hl 0
    refine ⟨φ, D, β1, A1, ⟨_, k.fs⟩, ?_, G, (H.grow G).putSlice a1, hF, fun _ _ => rfl⟩
    rw [← Gor2.putSlice_at, Gor2.at_grow G H]
    simp only [Act2.step, hm, ← e1]
  | cut s i j =>
    simp only [Act2.step, Option.bind_eq_bind, Option.bind_eq_some_iff, Option.some.injEq, Prod.mk.injEq] at e
    obtain ⟨s0, e0, s1, e1, rfl, rfl⟩ := e
    have ec : (s0.at β).cut i j = some (s1.at β) := by
      rw [Slice.cut] at e1 ⊢
      by_cases hc : i ≤ j ∧ j ≤ s0.cap
      · rw [if_pos hc] at e1
        cases e1
        rw [if_pos (show i ≤ j ∧ j ≤ (s0.at β).cap from hc)]
        rfl
      · rw [if_neg hc] at e1; cases e1
    have ha : A s1.arr := by
      rw [Slice.cut] at e1
      split at e1
      · cases e1
        exact H.slices s0 (List.mem_of_getElem? e0)
      · cases e1
    refine ⟨φ, D, β, A, k, ?_, .refl P, H.putSlice ha, hF, fun _ _ => rfl⟩
    simp only [Act2.step, Gor2.slices_at, e0, Option.map_some, Option.bind_eq_bind, Option.bind_some, ec, Gor2.putSlice_at]
  | write s i sc =>
    simp only [Act2.step, Option.bind_eq_bind, Option.bind_eq_some_iff, Option.some.injEq, Prod.mk.injEq] at e
    obtain ⟨s0, e0, sc0, e1, st1, e2, rfl, rfl⟩ := e
    rw [AState.write] at e2
    split at e2
    case isFalse => cases e2
    case isTrue hi =>
    cases e2
    have G := P.modify (H.slices s0 (List.mem_of_getElem? e0)) (f := fun l => l.set (s0.off + i) sc0) (f' := fun l => l.set (s0.off + i) (sc0.at φ))
      (fun l => by simp [List.map_set]) (by
        intro l hl x hx
        rcases List.mem_or_eq_of_mem_set hx with h | h
        · exact P.ins (H.slices s0 (List.mem_of_getElem? e0)) hl x h
        · subst h; exact H.scopes x (List.mem_of_getElem? e1))
    refine ⟨φ, D, β, A, ⟨_, k.fs⟩, ?_, G, H.see _, hF, fun _ _ => rfl⟩
    simp only [Act2.step, Gor2.slices_at, Gor2.scopes_at, e0, e1, Option.map_some, Option.bind_eq_bind, Option.bind_some, AState.write,
      show (s0.at β).len = s0.len from rfl, hi, if_true]
    rfl
  | elems s =>
    simp only [Act2.step, Option.bind_eq_bind, Option.bind_eq_some_iff, Option.some.injEq, Prod.mk.injEq] at e
    obtain ⟨s0, e0, rfl, rfl⟩ := e
    have ha := H.slices s0 (List.mem_of_getElem? e0)
    refine ⟨φ, D, β, A, k, ?_, .refl P, H.putScopes (P.elems_in ha), hF, fun _ _ => rfl⟩
    simp only [Act2.step, Gor2.slices_at, e0, Option.map_some, Option.bind_eq_bind, Option.bind_some, P.elems ha, Gor2.putScopes_at]
  | newAst s =>
    simp only [Act2.step, Option.bind_eq_bind, Option.bind_eq_some_iff] at e
    obtain ⟨s0, e0, r, e1, e2⟩ := e
    have ha := H.slices s0 (List.mem_of_getElem? e0)
    obtain ⟨r1, e3, e4⟩ := Option.map_eq_some_iff.1 e1
    have ef := P.pl.findPackageName (P.elems_in ha) e3
    rw [← P.elems ha] at ef
    cases r1 with
    | error er =>
      simp only at e4
      subst e4
      simp only [Option.some.injEq, Prod.mk.injEq] at e2
      obtain ⟨rfl, rfl⟩ := e2
      refine ⟨φ, D, β, A, k, ?_, .refl P, H.see _, hF, fun _ _ => rfl⟩
      simp only [Act2.step, Gor2.slices_at, e0, Option.map_some, Option.bind_eq_bind, Option.bind_some, Goast.newAst, ef]
      rfl
    | ok nm =>
      simp only at e4
      subst e4
      simp only [Option.some.injEq, Prod.mk.injEq] at e2
      obtain ⟨rfl, rfl⟩ := e2
      refine ⟨φ, D, β, A, k, ?_, .refl P, H.putAst ha, hF, fun _ _ => rfl⟩
      rw [← Gor2.putAst_at]
      simp only [Act2.step, Gor2.slices_at, e0, Option.map_some, Option.bind_eq_bind, Option.bind_some, Goast.newAst, ef]
      rfl
  | scope a =>
    simp only [Act2.step, Option.bind_eq_bind, Option.bind_eq_some_iff, Option.some.injEq, Prod.mk.injEq] at e
    obtain ⟨a0, e0, rfl, rfl⟩ := e
    refine ⟨φ, D, β, A, k, ?_, .refl P, H.putSlice (H.asts a0 (List.mem_of_getElem? e0)), hF, fun _ _ => rfl⟩
    simp only [Act2.step, Gor2.asts_at, e0, Option.map_some, Option.bind_eq_bind, Option.bind_some, AstRec.at, Gor2.putSlice_at]
  | setScope a s =>
    simp only [Act2.step, Option.bind_eq_bind, Option.bind_eq_some_iff, Option.some.injEq, Prod.mk.injEq] at e
    obtain ⟨a0, e0, s0, e1, rfl, rfl⟩ := e
    refine ⟨φ, D, β, A, k, ?_, .refl P, H.putAst (H.slices s0 (List.mem_of_getElem? e1)), hF, fun _ _ => rfl⟩
    rw [← Gor2.putAst_at]
    simp only [Act2.step, Gor2.asts_at, Gor2.slices_at, e0, e1, Option.map_some, Option.bind_eq_bind, Option.bind_some]
    rfl
  | appendScope a s =>
    simp only [Act2.step, Option.bind_eq_bind, Option.bind_eq_some_iff, Option.some.injEq, Prod.mk.injEq] at e
    obtain ⟨a0, e0, s0, e1, rfl, rfl⟩ := e
    have hs := H.slices s0 (List.mem_of_getElem? e1)
    obtain ⟨β1, A1, G, a1, e2⟩ := P.append (H.asts a0 (List.mem_of_getElem? e0)) (P.elems_in hs) caps.grow
    refine ⟨φ, D, β1, A1, ⟨_, k.fs⟩, ?_, G, (H.grow G).setAst a a1, hF, fun _ _ => rfl⟩
    rw [← Gor2.setAst_at, Gor2.at_grow G H]
    simp only [Act2.step, Gor2.asts_at, Gor2.slices_at, e0, e1, Option.map_some, Option.bind_eq_bind, Option.bind_some, AstRec.appendScope,
      P.elems hs, AstRec.at, e2]
  | copyAst a =>
    simp only [Act2.step, Option.bind_eq_bind, Option.bind_eq_some_iff, Option.some.injEq, Prod.mk.injEq] at e
    obtain ⟨a0, e0, ⟨st1, a1⟩, e1, rfl, rfl⟩ := e
    have ha := H.asts a0 (List.mem_of_getElem? e0)
    obtain ⟨⟨h1, scs⟩, e2, e3⟩ := Option.map_eq_some_iff.1 e1
    simp only [Prod.mk.injEq] at e3
    obtain ⟨rfl, rfl⟩ := e3
    obtain ⟨φ1, D1, k1, e4, G, hin⟩ := copyScopes_sim P.pl (P.elems_in ha) e2
    rw [← P.elems ha] at e4
    have G1 := P.heap G
    obtain ⟨β2, A2, G2, a2, e8⟩ := G1.pla.newSlice hin 0
    have G3 := G1.trans G2
    refine ⟨φ1, D1, β2, A2, ⟨_, k.fs⟩, ?_, G3, (H.grow G3).putAst a2, hF, fun _ _ => rfl⟩
    rw [← Gor2.putAst_at, Gor2.at_grow G3 H]
    simp only [Act2.step, Gor2.asts_at, e0, Option.map_some, Option.bind_eq_bind, Option.bind_some, AstRec.copy, AstRec.scopes, AstRec.at, e4, ← e8]
  | save a file auto =>
    simp only [Act2.step, Option.bind_eq_bind, Option.bind_eq_some_iff, Option.some.injEq, Prod.mk.injEq] at e
    obtain ⟨a0, e0, r, e1, rfl, rfl⟩ := e
    have ha := H.asts a0 (List.mem_of_getElem? e0)
    obtain ⟨data, e2, rfl⟩ := Option.map_eq_some_iff.1 e1
    have e3 := P.pl.scopesText (P.elems_in ha) e2
    rw [← P.elems ha] at e3
    obtain ⟨s1, s2, s3⟩ := save_files (env := env) hF file data auto
    refine ⟨φ, D, β, A, ⟨k.st, (Goast.saveFile env k.fs file data auto).1⟩, ?_, .refl P, H.see _, s2, s3⟩
    simp only [Act2.step, Gor2.asts_at, e0, Option.map_some, Option.bind_eq_bind, Option.bind_some, AstRec.save, AstRec.scopes, AstRec.at, e3, s1]
    rfl
  | names a =>
    simp only [Act2.step, Option.bind_eq_bind, Option.bind_eq_some_iff, Option.some.injEq, Prod.mk.injEq] at e
    obtain ⟨a0, e0, rfl, rfl⟩ := e
    refine ⟨φ, D, β, A, k, ?_, .refl P, H.see _, hF, fun _ _ => rfl⟩
    simp only [Act2.step, Gor2.asts_at, e0, Option.map_some, Option.bind_eq_bind, Option.bind_some, AstRec.at]
    rfl
  | show_ a =>
    simp only [Act2.step, Option.bind_eq_bind, Option.bind_eq_some_iff, Option.some.injEq, Prod.mk.injEq] at e
    obtain ⟨a0, e0, t, e1, rfl, rfl⟩ := e
    have ha := H.asts a0 (List.mem_of_getElem? e0)
    have hd := P.elems_in ha
    have fw := fwd_of_text P.pl hd e1
    have hl : ∀ sc ∈ w.st.elems a0.scope, ∃ l, Fwd w.st.heap sc.node l ∧ ∀ a, sc.node = some a → D a := fun sc hsc => (fw sc hsc).imp fun l f => ⟨f, hd sc hsc⟩
    have e3 := P.pl.scopesText hd e1
    have ev := (P.pl.emb.scopesView hl).1
    rw [show (w.st.elems a0.scope).map _ = k.st.elems (a0.scope.at β) from (P.elems ha).symm] at e3 ev
    refine ⟨φ, D, β, A, k, ?_, .refl P, H.see _, hF, fun _ _ => rfl⟩
    simp only [Act2.step, Gor2.asts_at, e0, Option.map_some, Option.bind_eq_bind, Option.bind_some, AstRec.scopes, AstRec.at, e3, ev]
    rfl

/-! ## Schedules -/

/-- Other nodes and arrays change. -/
theorem PlA.other (P : PlA φ D β A st k) (hs : k.heap.size ≤ k'.heap.size) (same : ∀ a, D a → k'.heap.cells[φ a]? = k.heap.cells[φ a]?)
    (same' : ∀ x, A x → k'.arrs[β x]? = k.arrs[β x]?) : PlA φ D β A st k' :=
  ⟨P.pl.other hs same, P.lt, P.inj, fun hx => (same' _ hx).trans (P.cell hx), P.ins⟩

theorem together2_sim (env : Env) (caps : Caps) (progs : Nat → Prog2) (fa : FilesApart progs) :
    ∀ (sched : List Nat) (k : Shared2) (W : Nat → Shared2) (G : Nat → Gor2) (φ : Nat → Addr → Addr) (D : Nat → Addr → Prop) (β : Nat → Nat → Nat)
      (A : Nat → Nat → Prop),
    (∀ i, PlA (φ i) (D i) (β i) (A i) (W i).st k.st) → (∀ i, Holds2 (D i) (A i) (G i)) →
    (∀ i j a b, i ≠ j → D i a → D j b → φ i a ≠ φ j b) → (∀ i j x y, i ≠ j → A i x → A j y → β i x ≠ β j y) →
    (∀ i seen, ∀ f ∈ (progs i seen).files, k.fs f = (W i).fs f) →
    (∀ i, ∃ r, solo2 env caps (progs i) (sched.count i) (W i) (G i) = some r) →
    ∃ k' gs', together2 env caps progs sched k (fun i => (G i).at (φ i) (β i)) = some (k', gs') ∧
      (∀ i w' g', solo2 env caps (progs i) (sched.count i) (W i) (G i) = some (w', g') →
        (gs' i).seen = g'.seen ∧ ∀ seen, ∀ f ∈ (progs i seen).files, k'.fs f = w'.fs f) ∧
      (∀ f, (∀ i seen, f ∉ (progs i seen).writes) → k'.fs f = k.fs f) ∧
      k.st.heap.size ≤ k'.st.heap.size ∧
      (∀ b, b < k.st.heap.size → (∀ i a, D i a → φ i a ≠ b) → k'.st.heap.cells[b]? = k.st.heap.cells[b]?) ∧
      (∀ y, y < k.st.arrs.length → (∀ i x, A i x → β i x ≠ y) → k'.st.arrs[y]? = k.st.arrs[y]?)
  | [], k, W, G, φ, D, β, A, pl, ho, dis, dis', fl, ok => by
    refine ⟨k, _, rfl, fun i w' g' e => ?_, fun _ _ => rfl, Nat.le_refl _, fun _ _ _ => rfl, fun _ _ _ => rfl⟩
    simp only [List.count_nil, solo2, Option.some.injEq, Prod.mk.injEq] at e
    obtain ⟨rfl, rfl⟩ := e
    exact ⟨rfl, fl i⟩
  | i :: sched, k, W, G, φ, D, β, A, pl, ho, dis, dis', fl, ok => by
    have ci : (i :: sched).count i = sched.count i + 1 := List.count_cons_self
    have cj : ∀ j, j ≠ i → (i :: sched).count j = sched.count j := fun j hj => List.count_cons_of_ne (Ne.symm hj)
    obtain ⟨r, er⟩ := ok i
    rw [ci, solo2] at er
    cases es : (progs i (G i).seen).step env caps (W i) (G i) with
    | none => rw [es] at er; cases er
    | some x =>
      obtain ⟨w1, g1⟩ := x
      rw [es] at er
      simp only at er
      obtain ⟨φ1, D1, β1, A1, k1, S⟩ := Act2.sim (F := fun f => ∃ seen, f ∈ (progs i seen).files) (pl i) (fun f ⟨seen, hf⟩ => fl i seen f hf) (ho i) _
        (fun f hf => ⟨_, hf⟩) es
      have Gr := S.grow
      let W' : Nat → Shared2 := fun j => if j = i then w1 else W j
      let G' : Nat → Gor2 := fun j => if j = i then g1 else G j
      let φ' : Nat → Addr → Addr := fun j => if j = i then φ1 else φ j
      let D' : Nat → Addr → Prop := fun j => if j = i then D1 else D j
      let β' : Nat → Nat → Nat := fun j => if j = i then β1 else β j
      let A' : Nat → Nat → Prop := fun j => if j = i then A1 else A j
      have other : ∀ j, j ≠ i → ∀ a, D j a → k1.st.heap.cells[φ j a]? = k.st.heap.cells[φ j a]? := by
        intro j hj a ha
        exact Gr.heap.fr.frame _ ((pl j).pl.lt' ha) (fun c hc => dis i j c a (Ne.symm hj) hc ha)
      have otherA : ∀ j, j ≠ i → ∀ x, A j x → k1.st.arrs[β j x]? = k.st.arrs[β j x]? := by
        intro j hj x hx
        exact Gr.frame _ ((pl j).lt' hx) (fun c hc => dis' i j c x (Ne.symm hj) hc hx)
      have apart : ∀ j, j ≠ i → ∀ a b, D1 a → D j b → φ1 a ≠ φ j b := by
        intro j hj a b ha hb e
        by_cases hd : D i a
        · rw [Gr.heap.old hd] at e
          exact dis i j a b (Ne.symm hj) hd hb e
        · have := Gr.heap.new ha hd
          have := (pl j).pl.lt' hb
          omega
      have apartA : ∀ j, j ≠ i → ∀ x y, A1 x → A j y → β1 x ≠ β j y := by
        intro j hj x y hx hy e
        by_cases hd : A i x
        · rw [Gr.old hd] at e
          exact dis' i j x y (Ne.symm hj) hd hy e
        · have := Gr.new hx hd
          have := (pl j).lt' hy
          omega
      obtain ⟨k', gs', e2, seen, fs', sz, fr, frA⟩ := together2_sim env caps progs fa sched k1 W' G' φ' D' β' A' (by
          intro j
          by_cases hj : j = i
          · simp only [W', φ', D', β', A', hj, if_true]; exact Gr.pla
          · simp only [W', φ', D', β', A', hj, if_false]
            exact (pl j).other Gr.heap.fr.size (other j hj) (otherA j hj)) (by
          intro j
          by_cases hj : j = i
          · simp only [G', D', A', hj, if_true]; exact S.holds
          · simp only [G', D', A', hj, if_false]; exact ho j) (by
          intro j l a b hjl ha hb
          by_cases hj : j = i
          · by_cases hl : l = i
            · exact absurd (hj.trans hl.symm) hjl
            · simp only [φ', D', hj, hl, if_true, if_false] at ha hb ⊢
              exact apart l hl a b ha hb
          · by_cases hl : l = i
            · simp only [φ', D', hj, hl, if_true, if_false] at ha hb ⊢
              exact fun e => apart j hj b a hb ha e.symm
            · simp only [φ', D', hj, hl, if_false] at ha hb ⊢
              exact dis j l a b hjl ha hb) (by
          intro j l a b hjl ha hb
          by_cases hj : j = i
          · by_cases hl : l = i
            · exact absurd (hj.trans hl.symm) hjl
            · simp only [β', A', hj, hl, if_true, if_false] at ha hb ⊢
              exact apartA l hl a b ha hb
          · by_cases hl : l = i
            · simp only [β', A', hj, hl, if_true, if_false] at ha hb ⊢
              exact fun e => apartA j hj b a hb ha e.symm
            · simp only [β', A', hj, hl, if_false] at ha hb ⊢
              exact dis' j l a b hjl ha hb) (by
          intro j seen f hf
          by_cases hj : j = i
          · subst hj
            simp only [W', if_true]
            exact S.files f ⟨seen, hf⟩
          · simp only [W', hj, if_false]
            rw [S.others f (fun hw => fa i j _ seen f (Ne.symm hj) hw hf), fl j seen f hf]) (by
          intro j
          by_cases hj : j = i
          · simp only [W', G', hj, if_true]; exact ⟨r, er⟩
          · simp only [W', G', hj, if_false]
            have := ok j
            rwa [cj j hj] at this)
      refine ⟨k', gs', ?_, ?_, ?_, Nat.le_trans Gr.heap.fr.size sz, ?_, ?_⟩
      · rw [together2]
        simp only [show ((G i).at (φ i) (β i)).seen = (G i).seen from rfl, S.step]
        rw [← e2]
        congr 1
        funext j
        by_cases hj : j = i <;> simp [G', φ', β', hj]
      · intro j w' g' e
        by_cases hj : j = i
        · subst hj
          rw [ci, solo2, es] at e
          exact seen j w' g' (by simpa [W', G'] using e)
        · rw [cj j hj] at e
          exact seen j w' g' (by simpa [W', G', hj] using e)
      · intro f hf
        rw [fs' f hf, S.others f (hf i _)]
      · intro b hb hd
        rw [fr b (Nat.lt_of_lt_of_le hb Gr.heap.fr.size) ?_, Gr.heap.fr.frame b hb (hd i)]
        intro j a ha e
        by_cases hj : j = i
        · simp only [φ', D', hj, if_true] at ha e
          by_cases h0 : D i a
          · exact hd i a h0 ((Gr.heap.old h0).symm.trans e)
          · have := Gr.heap.new ha h0; omega
        · simp only [φ', D', hj, if_false] at ha e
          exact hd j a ha e
      · intro b hb hd
        rw [frA b (Nat.lt_of_lt_of_le hb Gr.size) ?_, Gr.frame b hb (hd i)]
        intro j a ha e
        by_cases hj : j = i
        · simp only [β', A', hj, if_true] at ha e
          by_cases h0 : A i a
          · exact hd i a h0 ((Gr.old h0).symm.trans e)
          · have := Gr.new ha h0; omega
        · simp only [β', A', hj, if_false] at ha e
          exact hd j a ha e

end Goast
