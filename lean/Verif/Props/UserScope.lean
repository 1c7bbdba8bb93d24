import Verif.Spec.UserScope
import Verif.Props.Ast

/-!
# C90: an `Ast` over scopes of the program's own types
-/

set_option linter.unusedSimpArgs false
set_option linter.unusedVariables false

namespace Goast

variable {World : Type} {I : Scopes World}

theorem looks_eq {h : Heap} {p : Ptr} {l : List Addr} (f : Fwd h p l) :
    h.iterNext (fun (buf : Bytes) a => (buf ++ h.describe (some a), true)) [] p = some ((l.map fun a => h.describe (some a)).flatten, none) := by
  rw [C32_iterNext h _ f]
  have : ∀ (l : List Addr) (b : Bytes), walk (fun (buf : Bytes) a => (buf ++ h.describe (some a), true)) b l =
      (b ++ (l.map fun a => h.describe (some a)).flatten, none) := by
    intro l
    induction l with
    | nil => intro b; simp [walk]
    | cons a l ih => intro b; simp [walk, ih]
  simp [this]

theorem text_calls : ∀ {l : List (Nat × Ptr × World × Bytes)} {w w' : World},
    Calls I w (l.map fun x => (.node x.1 x.2.1, x.2.2.1)) w' → (∀ x ∈ l, TextFrom (I.heap x.2.2.1) x.2.1 x.2.2.2) →
    I.text (l.map (·.1)) w = some ((l.map (·.2.2.2)).flatten, w')
  | [], _, _, hc, _ => by cases hc; rfl
  | (sc, p, v, t) :: l, w, w', hc, ht => by
    cases hc with
    | cons hm hc =>
      obtain ⟨as, f, e⟩ := ht _ (List.mem_cons_self ..)
      have hm : I.node sc w = some (p, v) := hm
      have f : Fwd (I.heap v) p as := f
      have ih := text_calls hc fun x hx => ht x (List.mem_cons_of_mem _ hx)
      simp only [List.map_cons, Scopes.text, hm, chainText_eq f, ih, Option.map_some, List.flatten_cons]
      rw [← e]

/-- **C90** `Save` calls `Node()` on each scope once, in order, and nothing else; what is saved is the texts of the nodes found from the answers,
each as it was when the call returned. -/
theorem C90_save (env : Env) (fs : FS) (file : Bytes) (autoImport : List Bool) {l : List (Nat × Ptr × World × Bytes)} {w w' : World}
    (hc : Calls I w (l.map fun x => (.node x.1 x.2.1, x.2.2.1)) w') (ht : ∀ x ∈ l, TextFrom (I.heap x.2.2.1) x.2.1 x.2.2.2) :
    I.save env fs (l.map (·.1)) file autoImport w = some (saveFile env fs file (l.map (·.2.2.2)).flatten autoImport, w') := by
  simp only [Scopes.save, text_calls hc ht, Option.map_some]

/-- **C90** There is no other way for `Save` to return. -/
theorem C90_save_only (hv : ∀ sc w p w', I.node sc w = some (p, w') → WF (I.heap w') ∧ Valid (I.heap w') p)
    (env : Env) (fs : FS) (scs : List Nat) (file : Bytes) (autoImport : List Bool) {w w' : World} {r : FS × Option Err}
    (h : I.save env fs scs file autoImport w = some (r, w')) :
    ∃ l : List (Nat × Ptr × World × Bytes), l.map (·.1) = scs ∧ Calls I w (l.map fun x => (.node x.1 x.2.1, x.2.2.1)) w' ∧
      (∀ x ∈ l, TextFrom (I.heap x.2.2.1) x.2.1 x.2.2.2) ∧ r = saveFile env fs file (l.map (·.2.2.2)).flatten autoImport := by
  have key : ∀ (scs : List Nat) (w w' : World) (t : Bytes), I.text scs w = some (t, w') →
      ∃ l : List (Nat × Ptr × World × Bytes), l.map (·.1) = scs ∧ Calls I w (l.map fun x => (.node x.1 x.2.1, x.2.2.1)) w' ∧
        (∀ x ∈ l, TextFrom (I.heap x.2.2.1) x.2.1 x.2.2.2) ∧ t = (l.map (·.2.2.2)).flatten := by
    intro scs
    induction scs with
    | nil =>
      intro w w' t h
      simp only [Scopes.text, Option.some.injEq, Prod.mk.injEq] at h
      obtain ⟨rfl, rfl⟩ := h
      exact ⟨[], rfl, .nil, by simp, rfl⟩
    | cons sc scs ih =>
      intro w w' t h
      simp only [Scopes.text] at h
      cases hn : I.node sc w with
      | none => rw [hn] at h; simp at h
      | some r =>
        obtain ⟨p, v⟩ := r
        rw [hn] at h
        simp only at h
        cases ht : chainText (I.heap v) p with
        | none => rw [ht] at h; simp at h
        | some t1 =>
          rw [ht] at h
          simp only [Option.map_eq_some_iff, Prod.mk.injEq] at h
          obtain ⟨⟨t2, v2⟩, h2, e1, e2⟩ := h
          obtain ⟨l, l1, l2, l3, l4⟩ := ih v v2 t2 h2
          obtain ⟨wf, va⟩ := hv _ _ _ _ hn
          obtain ⟨as, fw⟩ : ∃ as, Fwd (I.heap v) p as := by
            unfold chainText at ht
            cases hi : (I.heap v).iterNext (fun (buf : Bytes) a => (buf ++ (I.heap v).text (some a), true)) [] p with
            | none => rw [hi] at ht; simp at ht
            | some r => exact C32_iterNext_returns _ wf _ _ _ va (by simp) r hi
          rw [chainText_eq fw, Option.some.injEq] at ht
          simp only at e1 e2
          subst e2
          refine ⟨(sc, p, v, t1) :: l, by simp [l1], .cons hn l2, ?_, ?_⟩
          · intro x hx
            rcases List.mem_cons.1 hx with rfl | hx
            · exact ⟨as, fw, ht.symm⟩
            · exact l3 x hx
          · rw [← e1, l4]; simp
  simp only [Scopes.save, Option.map_eq_some_iff, Prod.mk.injEq] at h
  obtain ⟨⟨t, v⟩, h1, h2, h3⟩ := h
  simp only at h3
  subst h3
  obtain ⟨l, a, b, c, d⟩ := key scs w v t h1
  exact ⟨l, a, b, c, by rw [← h2, d]⟩

/-- **C90** If a `Node()` does not return (it panics, say), then neither does `Save`: it has not touched a file. -/
theorem C90_save_panic (env : Env) (fs : FS) (file : Bytes) (autoImport : List Bool) {l : List (Nat × Ptr × World × Bytes)} {w w' : World}
    (hc : Calls I w (l.map fun x => (.node x.1 x.2.1, x.2.2.1)) w') (ht : ∀ x ∈ l, TextFrom (I.heap x.2.2.1) x.2.1 x.2.2.2)
    {sc : Nat} (hn : I.node sc w' = none) (post : List Nat) :
    I.save env fs (l.map (·.1) ++ sc :: post) file autoImport w = none := by
  have app : ∀ (a b : List Nat) (w v : World) (t : Bytes), I.text a w = some (t, v) → I.text b v = none → I.text (a ++ b) w = none := by
    intro a
    induction a with
    | nil =>
      intro b w v t h1 h2
      simp only [Scopes.text, Option.some.injEq, Prod.mk.injEq] at h1
      rw [List.nil_append, h1.2]; exact h2
    | cons x a ih =>
      intro b w v t h1 h2
      simp only [List.cons_append, Scopes.text] at h1 ⊢
      cases hx : I.node x w with
      | none => rfl
      | some r =>
        obtain ⟨p, u⟩ := r
        rw [hx] at h1
        simp only at h1 ⊢
        cases hct : chainText (I.heap u) p with
        | none => rfl
        | some t1 =>
          rw [hct] at h1
          simp only [Option.map_eq_some_iff, Prod.mk.injEq] at h1
          obtain ⟨⟨t2, v2⟩, h3, _, h4⟩ := h1
          simp only at h4
          simp [ih b u v t2 (by rw [h3, h4]) h2]
  simp only [Scopes.save, app _ (sc :: post) _ _ _ (text_calls hc ht) (by simp [Scopes.text, hn]), Option.map_none]

theorem findPackage_calls : ∀ {l : List (Nat × ScopeKind × World)} {w w' : World}, Calls I w (l.map fun x => (.kind x.1 x.2.1, x.2.2)) w' →
    (∀ x ∈ l, x.2.1 ≠ .package_) → ∀ post, I.findPackage (l.map (·.1) ++ post) w = I.findPackage post w'
  | [], _, _, hc, _, post => by cases hc; rfl
  | (sc, k, v) :: l, w, w', hc, hk, post => by
    cases hc with
    | cons hm hc =>
      have hm : I.kind sc w = some (k, v) := hm
      have h1 : k ≠ .package_ := hk _ (List.mem_cons_self ..)
      have ih := findPackage_calls hc (fun x hx => hk x (List.mem_cons_of_mem _ hx)) post
      simp only [List.map_cons, List.cons_append, Scopes.findPackage, hm, if_neg h1, ih]

/-- **C90** `NewAst` and `Package` call `Kind()` on the scopes in order up to the first that answers `Package`, then `Node()` on that one, and
nothing else; the name is the text of the first `Raw` node behind the first package keyword found from that answer. -/
theorem C90_package {l : List (Nat × ScopeKind × World)} {w w1 w2 w3 : World} (hc : Calls I w (l.map fun x => (.kind x.1 x.2.1, x.2.2)) w1)
    (hk : ∀ x ∈ l, x.2.1 ≠ .package_) {sc : Nat} {p : Ptr} {as : List Addr} (hs : Calls I w1 [(.kind sc .package_, w2), (.node sc p, w3)] w3)
    (hf : Fwd (I.heap w3) p as) (post : List Nat) :
    I.packageName (l.map (·.1) ++ sc :: post) w = some (.ok ((I.heap w3).text (packageNode (I.heap w3) as)), w3) ∧
    I.newAst (l.map (·.1) ++ sc :: post) w = some (none, w3) := by
  cases hs with
  | cons h1 hs =>
    cases hs with
    | cons h2 hs =>
      have h1 : I.kind sc w1 = some (.package_, w2) := h1
      have h2 : I.node sc w2 = some (p, w3) := h2
      have : I.packageName (l.map (·.1) ++ sc :: post) w = some (.ok ((I.heap w3).text (packageNode (I.heap w3) as)), w3) := by
        simp only [Scopes.packageName, findPackage_calls hc hk, Scopes.findPackage, h1, if_true, h2, findPackageNode_eq hf, Option.map_some]
      exact ⟨this, by simp only [Scopes.newAst, this, Option.map_some]⟩

/-- **C90** They fail, with `ErrNoPackage`, when every scope was asked and none answered `Package`. -/
theorem C90_no_package {l : List (Nat × ScopeKind × World)} {w w1 : World} (hc : Calls I w (l.map fun x => (.kind x.1 x.2.1, x.2.2)) w1)
    (hk : ∀ x ∈ l, x.2.1 ≠ .package_) :
    I.packageName (l.map (·.1)) w = some (.error .ErrNoPackage, w1) ∧ I.newAst (l.map (·.1)) w = some (some .ErrNoPackage, w1) := by
  have := findPackage_calls hc hk []
  rw [List.append_nil] at this
  have : I.packageName (l.map (·.1)) w = some (.error .ErrNoPackage, w1) := by
    simp only [Scopes.packageName, this, Scopes.findPackage]
  exact ⟨this, by simp only [Scopes.newAst, this, Option.map_some]⟩

/-- **C90** `Description` calls `Description()` and then `Node()` on each scope, in order. -/
theorem C90_description : ∀ {l : List (Nat × Bytes × World × Ptr × World × Bytes)} {w w' : World},
    Calls I w (l.flatMap fun x => [(.description x.1 x.2.1, x.2.2.1), (.node x.1 x.2.2.2.1, x.2.2.2.2.1)]) w' →
    (∀ x ∈ l, LooksFrom (I.heap x.2.2.2.2.1) x.2.2.2.1 x.2.2.2.2.2) →
    I.describe (l.map (·.1)) w = some ((l.map fun x => x.2.1 ++ x.2.2.2.2.2).flatten, w')
  | [], _, _, hc, _ => by cases hc; rfl
  | (sc, d, u, p, v, t) :: l, w, w', hc, ht => by
    rw [List.flatMap_cons] at hc
    cases hc with
    | cons h1 hc =>
      cases hc with
      | cons h2 hc =>
        obtain ⟨as, f, e⟩ := ht _ (List.mem_cons_self ..)
        have h1 : I.description sc w = some (d, u) := h1
        have h2 : I.node sc u = some (p, v) := h2
        have f : Fwd (I.heap v) p as := f
        have ih := C90_description hc fun x hx => ht x (List.mem_cons_of_mem _ hx)
        simp only [List.map_cons, Scopes.describe, h1, h2, looks_eq f, ih, Option.map_some, List.flatten_cons]
        rw [← e]

/-- **C90** `Copy` calls `Copy()` on each scope once, in order; the copy has the answers for scopes. -/
theorem C90_copy : ∀ {l : List (Nat × Nat × World)} {w w' : World}, Calls I w (l.map fun x => (.copy x.1 x.2.1, x.2.2)) w' →
    I.copies (l.map (·.1)) w = some (l.map (·.2.1), w')
  | [], _, _, hc => by cases hc; rfl
  | (sc, c, v) :: l, w, w', hc => by
    cases hc with
    | cons hm hc =>
      have hm : I.copy sc w = some (c, v) := hm
      simp only [List.map_cons, Scopes.copies, hm, C90_copy hc, Option.map_some]

/-- **C90** Scopes that answer `Kind()` and `Node()` as the scopes of /repo do (values that embed such a scope and replace other methods)
are as good as these: `NewAst`, `Package` and `Save` do the same. -/
theorem C90_embedded (env : Env) (fs : FS) (file : Bytes) (autoImport : List Bool) (st : AState) (f : AstRec) (w : World) (scs : List Nat)
    (inner : Nat → ScopeRec) (hh : I.heap w = st.heap) (hs : f.scopes st = scs.map inner)
    (hk : ∀ sc ∈ scs, I.kind sc w = some ((inner sc).kind, w)) (hn : ∀ sc ∈ scs, I.node sc w = some ((inner sc).node, w)) :
    I.save env fs scs file autoImport w = (f.save env fs st file autoImport).map (·, w) ∧
    I.packageName scs w = (f.package st).map (·, w) ∧
    (I.newAst scs w = some (none, w) ↔ ∃ g, newAst st f.scope = some (.ok g)) := by
  have ht : ∀ scs : List Nat, (∀ sc ∈ scs, I.node sc w = some ((inner sc).node, w)) →
      I.text scs w = (scopesText st.heap (scs.map inner)).map (·, w) := by
    intro scs
    induction scs with
    | nil => intro _; rfl
    | cons sc scs ih =>
      intro hn
      simp only [Scopes.text, hn sc (List.mem_cons_self ..), hh, List.map_cons, scopesText,
        ih fun x hx => hn x (List.mem_cons_of_mem _ hx)]
      cases chainText st.heap (inner sc).node with
      | none => rfl
      | some t => simp only; cases scopesText st.heap (scs.map inner) <;> rfl
  have hp : ∀ scs : List Nat, (∀ sc ∈ scs, I.kind sc w = some ((inner sc).kind, w)) → (∀ sc ∈ scs, I.node sc w = some ((inner sc).node, w)) →
      I.packageName scs w = (findPackageName st.heap (scs.map inner)).map (·, w) := by
    intro scs
    induction scs with
    | nil => intro _ _; rfl
    | cons sc scs ih =>
      intro hk hn
      by_cases hpk : (inner sc).kind = .package_
      · simp only [Scopes.packageName, Scopes.findPackage, hk sc (List.mem_cons_self ..), hpk, if_true, hn sc (List.mem_cons_self ..), hh,
          findPackageName, List.map_cons, List.find?_cons, decide_true]
        cases findPackageNode st.heap (inner sc).node <;> rfl
      · have := ih (fun x hx => hk x (List.mem_cons_of_mem _ hx)) fun x hx => hn x (List.mem_cons_of_mem _ hx)
        simp only [findPackageName, List.map_cons, List.find?_cons, hpk, decide_false]
        simp only [findPackageName] at this
        rw [← this]
        simp only [Scopes.packageName, Scopes.findPackage, hk sc (List.mem_cons_self ..), if_neg hpk]
  have hp := hp scs hk hn
  rw [← hs] at hp
  refine ⟨?_, hp, ?_⟩
  · simp only [Scopes.save, ht scs hn, AstRec.save, hs]
    cases scopesText st.heap (scs.map inner) <;> rfl
  · simp only [Scopes.newAst, hp, newAst]
    show _ ↔ ∃ g, Option.map _ (findPackageName st.heap (f.scopes st)) = _
    cases findPackageName st.heap (f.scopes st) with
    | none => simp
    | some r => cases r <;> simp

/-- Scopes whose `Node()` makes new nodes at every call, and counts the calls. -/
def counting : Scopes (Heap × Nat) where
  heap w := w.1
  kind sc w := if sc = 9 then none else some (if sc = 0 then .package_ else .func_, w)
  node sc w :=
    if sc = 9 then none
    else
      let r := w.1.newNodes 0 (if sc = 0 then [b!"package", b!" ", b!"foo", b!"\n"] else [natDigits w.2, b!"\n"])
      some (r.2, (r.1, w.2 + 1))
  description sc w := some (natDigits sc, w)
  copy sc w := some (sc + 10, (w.1, w.2 + 1))

/-- What such an `Ast` does: the texts are those of the nodes made for this call. -/
theorem C90_example :
    (counting.text [0, 1, 2] (Heap.empty, 5)).map (fun r => (r.1, r.2.2)) = some (b!"package foo\n6\n7\n", 8) ∧
    (counting.packageName [1, 0, 9] (Heap.empty, 0)).map (fun r => (r.1.toOption, r.2.2)) = some (some b!"foo", 1) ∧
    (counting.newAst [1, 0, 9] (Heap.empty, 0)).map (·.1) = some none ∧
    (counting.newAst [1, 2] (Heap.empty, 0)).map (·.1) = some (some .ErrNoPackage) ∧
    counting.text [0, 9] (Heap.empty, 0) = none ∧
    (counting.copies [1, 2] (Heap.empty, 0)).map (fun r => (r.1, r.2.2)) = some ([11, 12], 2) := by decide +kernel

/-- The hypotheses of `C90_save`, `C90_save_panic` are met by them. -/
theorem C90_met : ∃ (l : List (Nat × Ptr × (Heap × Nat) × Bytes)) (w' : Heap × Nat), l.map (·.1) = [1, 2] ∧
    Calls counting (Heap.empty, 0) (l.map fun x => (.node x.1 x.2.1, x.2.2.1)) w' ∧
    (∀ x ∈ l, TextFrom (counting.heap x.2.2.1) x.2.1 x.2.2.2) ∧ l.map (·.2.2.2) = [b!"0\n", b!"1\n"] ∧ counting.node 9 w' = none := by
  let r1 := Heap.empty.newNodes 0 [natDigits 0, b!"\n"]
  let r2 := r1.1.newNodes 0 [natDigits 1, b!"\n"]
  have fwd : ∀ (h : Heap) (a b : Nat), h.next (some a) = some b → h.next (some b) = none → a < h.size → b < h.size → Fwd h (some a) [a, b] :=
    fun h a b h1 h2 la lb => .cons la (by rw [h1]; exact .cons lb (by rw [h2]; exact .nil))
  have e1 : counting.node 1 (Heap.empty, 0) = some (r1.2, (r1.1, 1)) := by decide +kernel
  have e2 : counting.node 2 (r1.1, 1) = some (r2.2, (r2.1, 2)) := by decide +kernel
  have e3 : counting.node 9 (r2.1, 2) = none := by decide +kernel
  have t1 : TextFrom r1.1 r1.2 b!"0\n" :=
    ⟨[0, 1], fwd r1.1 0 1 (by decide +kernel) (by decide +kernel) (by decide +kernel) (by decide +kernel), by decide +kernel⟩
  have t2 : TextFrom r2.1 r2.2 b!"1\n" :=
    ⟨[2, 3], fwd r2.1 2 3 (by decide +kernel) (by decide +kernel) (by decide +kernel) (by decide +kernel), by decide +kernel⟩
  clear_value r1 r2
  refine ⟨[(1, r1.2, (r1.1, 1), b!"0\n"), (2, r2.2, (r2.1, 2), b!"1\n")], (r2.1, 2), rfl, .cons (c := .node 1 r1.2) (w1 := (r1.1, 1)) e1 (.cons (c := .node 2 r2.2) (w1 := (r2.1, 2)) e2 .nil), ?_, rfl, e3⟩
  intro x hx
  rcases List.mem_cons.1 hx with rfl | hx
  · exact t1
  · rw [List.mem_singleton] at hx
    subst hx
    exact t2

end Goast
