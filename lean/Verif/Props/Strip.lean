import Verif.Model.Example
import Verif.Props.Iterate

/-!
# C63: taking the comments out of a file, as the repository's example does
-/

set_option linter.unusedSimpArgs false
set_option linter.unusedVariables false

namespace Goast
open Heap

/-! ## Specification -/

/-- Scopes that are declarations: everything but comments (and the kinds that `ParseScope` never gives). -/
def isDeclaration : ScopeKind → Bool
  | .package_ | .import_ | .variable | .const_ | .type_ | .func_ => true
  | .unknown | .comment | .innerComment | .other _ => false

theorem mem_keptKinds (k : ScopeKind) : k ∈ keptKinds ↔ isDeclaration k = true := by
  cases k <;> simp [keptKinds, isDeclaration]

/-- The nodes of a scope without its comments; a comment at the very end of the scope stays. -/
def withoutComments (h : Heap) : List Addr → List Addr
  | [] => []
  | [a] => [a]
  | a :: b :: l => if h.kind (some a) = .comment then withoutComments h (b :: l) else a :: withoutComments h (b :: l)

/-- The nodes left of a document: scopes that are comments go, the others lose their comments. -/
def strippedNodes (h : Heap) (scs : List ScopeRec) (lss : List (List Addr)) : List (List Addr) :=
  ((scs.zip lss).filter fun x => isDeclaration x.1.kind).map fun x => withoutComments h x.2

/-! ## Lemmas -/

theorem takePrev_fwd {h : Heap} (w : WF h) {q : Ptr} {B C : List Addr} {b m n : Addr} (f : Fwd h q (B ++ b :: m :: n :: C)) :
    Fwd (h.takePrev (some n)).1 q (B ++ b :: n :: C) ∧ WF (h.takePrev (some n)).1 ∧ SameData h (h.takePrev (some n)).1 ∧
      ∀ x, x ∉ B ++ b :: m :: n :: C → (h.takePrev (some n)).1.next (some x) = h.next (some x) := by
  have d : Doc ⟨h, [[⟨0, .package_, q⟩]]⟩ ⟨[], [], [], [], ⟨0, 0, 1, 1⟩⟩ ([] ++ (B ++ b :: m :: n :: C) :: []) :=
    ⟨w, .cons f .nil, by simpa using f.nodup⟩
  have r := (C61_takePrev d).1
  obtain ⟨lb, nb, fn0⟩ := f.at
  obtain ⟨lm, nm, fn⟩ := Fwd.at (B := []) fn0
  obtain ⟨ln, nx, fC⟩ := Fwd.at (B := []) fn
  have pn := (w.inverse m n).1 nm
  have pm := (w.inverse b m).1 nb
  have fw : Fwd (h.takePrev (some n)).1 q (B ++ b :: n :: C) := by
    have := r.nodes
    generalize hs : ([] ++ (B ++ b :: n :: C) :: [] : List (List Addr)) = L at this
    cases this with
    | cons f' _ =>
      simp only [List.nil_append, List.cons.injEq] at hs
      rw [hs.1]
      exact f'
  refine ⟨fw, r.wf, sameData_takePrev .., fun x hx => ?_⟩
  rw [(takePrev_links w (valid_some ln) x).2, pn, pm]
  simp only [List.mem_append, List.mem_cons, not_or] at hx
  rw [if_neg (by simp [hx]), if_neg (by simp [hx])]

theorem withoutComments_data {h h' : Heap} (sd : SameData h h') : ∀ l, withoutComments h' l = withoutComments h l
  | [] => rfl
  | [a] => rfl
  | a :: b :: l => by rw [withoutComments, withoutComments, (sd.2 _).2.1, withoutComments_data sd (b :: l)]

theorem withoutComments_sublist (h : Heap) : ∀ l, (withoutComments h l).Sublist l
  | [] => List.Sublist.refl _
  | [a] => List.Sublist.refl _
  | a :: b :: l => by
    rw [withoutComments]
    split
    · exact (withoutComments_sublist h (b :: l)).cons a
    · exact (withoutComments_sublist h (b :: l)).cons_cons a

/-- The rest `l` of a scope is still to be visited; `b` is the last node visited. -/
theorem strip_run : ∀ (l : List Addr) {h : Heap} {q : Ptr} {P : List Addr} {b : Addr} {fuel : Nat}, WF h → Fwd h q (P ++ b :: l) →
    (h.kind (some b) = .comment → P ≠ []) → l.length < fuel →
    ∃ h' t, loop (fun (w : Heap × Bool) a => w.1.next (some a)) (fun w a => some (stripStep w a)) fuel
        (h, decide (h.kind (some b) = .comment)) l.head? = some ((h', t), none) ∧
      WF h' ∧ SameData h h' ∧ Fwd h' q (P ++ withoutComments h (b :: l)) ∧
      ∀ x, x ∉ P ++ b :: l → h'.next (some x) = h.next (some x)
  | [], h, q, P, b, fuel, w, f, hP, hf => by
    refine ⟨h, decide (h.kind (some b) = .comment), ?_, w, ⟨rfl, fun _ => ⟨rfl, rfl, rfl⟩⟩, f, fun _ _ => rfl⟩
    cases fuel <;> rfl
  | a :: l, h, q, P, b, fuel, w, f, hP, hf => by
    obtain ⟨fuel, rfl⟩ : ∃ n, fuel = n + 1 := ⟨fuel - 1, by omega⟩
    simp only [List.length_cons] at hf
    by_cases hc : h.kind (some b) = .comment
    · obtain ⟨P, c, rfl⟩ : ∃ P' c, P = P' ++ [c] := ⟨_, _, (List.dropLast_concat_getLast (hP hc)).symm⟩
      simp only [List.append_assoc, List.singleton_append, List.cons_append, List.nil_append] at f
      obtain ⟨f1, w1, sd1, fr1⟩ := takePrev_fwd w f
      obtain ⟨h', t, e, w2, sd2, f2, fr2⟩ := strip_run l (P := P ++ [c]) (fuel := fuel) w1 (by simpa using f1) (fun _ => by simp) (by omega)
      refine ⟨h', t, ?_, w2, ⟨sd2.1.trans sd1.1, fun p => ⟨(sd2.2 p).1.trans (sd1.2 p).1, (sd2.2 p).2.1.trans (sd1.2 p).2.1, (sd2.2 p).2.2.trans (sd1.2 p).2.2⟩⟩, ?_, ?_⟩
      · have nx : (h.takePrev (some a)).1.next (some a) = l.head? :=
          (Fwd.at (B := P ++ [c]) (n := a) (C := l) (by simpa using f1)).2.1
        simp only [List.head?_cons, loop, stripStep, hc, decide_true, if_true, nx]
        exact e
      · rw [withoutComments_data sd1] at f2
        simpa [withoutComments, hc] using f2
      · intro x hx
        rw [fr2 x (by simp at hx ⊢; grind), fr1 x (by simp at hx ⊢; grind)]
    · obtain ⟨h', t, e, w2, sd2, f2, fr2⟩ := strip_run l (P := P ++ [b]) (fuel := fuel) w (by simpa using f) (fun _ => by simp) (by omega)
      refine ⟨h', t, ?_, w2, sd2, ?_, ?_⟩
      · have nx : h.next (some a) = l.head? := (Fwd.at (B := P ++ [b]) (n := a) (C := l) (by simpa using f)).2.1
        simp only [List.head?_cons, loop, stripStep, hc, decide_false, Bool.false_eq_true, if_false, nx]
        exact e
      · simpa [withoutComments, hc] using f2
      · intro x hx
        rw [fr2 x (by simp at hx ⊢; grind)]

/-- One scope. -/
theorem strip_scope {h : Heap} (w : WF h) {q : Ptr} {l : List Addr} (f : Fwd h q l) (hd : ∀ a, l.head? = some a → h.kind (some a) ≠ .comment) :
    ∃ h' t, h.iterEdit stripStep false q = some ((h', t), none) ∧ WF h' ∧ SameData h h' ∧ Fwd h' q (withoutComments h l) ∧
      ∀ x, x ∉ l → h'.next (some x) = h.next (some x) := by
  cases l with
  | nil =>
    cases f
    exact ⟨h, false, rfl, w, ⟨rfl, fun _ => ⟨rfl, rfl, rfl⟩⟩, .nil, fun _ _ => rfl⟩
  | cons a l =>
    obtain rfl := f.head
    have hk := hd a rfl
    have hlen := f.length_le
    simp only [List.length_cons] at hlen
    obtain ⟨h', t, e, w', sd, f', fr⟩ := strip_run l (P := []) (fuel := h.size) w f (fun hh => absurd hh hk) (by omega)
    refine ⟨h', t, ?_, w', sd, f', fr⟩
    have nx : h.next (some a) = l.head? := (Fwd.at (B := []) f).2.1
    simp only [iterEdit, List.head?_cons, loop, stripStep, Bool.false_eq_true, if_false, nx]
    exact e

/-- All scopes. -/
theorem strip_scopes {h : Heap} {scs : List ScopeRec} {lss : List (List Addr)} (w : WF h) (sn : ScopeNodes h scs lss) (nd : lss.flatten.Nodup)
    (hd : ∀ x ∈ scs.zip lss, isDeclaration x.1.kind = true → ∀ a, x.2.head? = some a → h.kind (some a) ≠ .comment) (acc : List ScopeRec) :
    ∃ h', AstRec.iterScope stripScope scs (some h, acc) = (some h', acc ++ scs.filter fun sc => isDeclaration sc.kind) ∧
      WF h' ∧ SameData h h' ∧ ScopeNodes h' (scs.filter fun sc => isDeclaration sc.kind) (strippedNodes h scs lss) ∧
      ∀ x, x ∉ lss.flatten → h'.next (some x) = h.next (some x) := by
  induction scs generalizing h lss acc with
  | nil =>
    cases sn
    exact ⟨h, by simp [AstRec.iterScope], w, ⟨rfl, fun _ => ⟨rfl, rfl, rfl⟩⟩, .nil, fun _ _ => rfl⟩
  | cons sc scs ih =>
    cases sn with
    | cons f sn =>
      rename_i l lss
      simp only [List.flatten_cons, List.nodup_append] at nd
      obtain ⟨n1, n2, n3⟩ := nd
      by_cases hk : isDeclaration sc.kind = true
      · obtain ⟨h1, t, e, w1, sd1, f1, fr1⟩ := strip_scope w f (hd (sc, l) (by simp) hk)
        have sn1 : ScopeNodes h1 scs lss := sn.frame sd1.1 (fun x hx => fr1 x (fun hl => n3 x hl x hx rfl))
        obtain ⟨h', e', w', sd', sn', fr'⟩ := ih w1 sn1 n2 (fun x hx hkx a ha => by
          rw [(sd1.2 _).2.1]; exact hd x (by simp [hx]) hkx a ha) (acc ++ [sc])
        refine ⟨h', ?_, w', ⟨sd'.1.trans sd1.1, fun p => ⟨(sd'.2 p).1.trans (sd1.2 p).1, (sd'.2 p).2.1.trans (sd1.2 p).2.1, (sd'.2 p).2.2.trans (sd1.2 p).2.2⟩⟩, ?_, ?_⟩
        · simp only [AstRec.iterScope, stripScope, mem_keptKinds, hk, if_true, e, e']
          simp [hk]
        · have eq : strippedNodes h (sc :: scs) (l :: lss) = withoutComments h l :: strippedNodes h1 scs lss := by
            simp only [strippedNodes, List.zip_cons_cons, List.filter_cons, hk, decide_true, if_true, List.map_cons]
            congr 1
            exact List.map_congr_left (fun x _ => (withoutComments_data sd1 x.2).symm)
          rw [eq, List.filter_cons, if_pos (by simp [hk])]
          refine .cons (f1.congr (fun x hx => ?_) (fun x hx => ?_)) sn'
          · rw [sd'.1]; exact f1.lt x hx
          · exact fr' x (fun hh => n3 x ((withoutComments_sublist h l).subset hx) x hh rfl)
        · intro x hx
          simp only [List.flatten_cons, List.mem_append, not_or] at hx
          rw [fr' x hx.2, fr1 x hx.1]
      · obtain ⟨h', e', w', sd', sn', fr'⟩ := ih w sn n2 (fun x hx hkx a ha => hd x (by simp [hx]) hkx a ha) acc
        refine ⟨h', ?_, w', sd', ?_, ?_⟩
        · simp [AstRec.iterScope, stripScope, mem_keptKinds, hk, e']
        · have eq : strippedNodes h (sc :: scs) (l :: lss) = strippedNodes h scs lss := by
            simp [strippedNodes, hk]
          rw [eq, List.filter_cons, if_neg (by simp [hk])]
          exact sn'
        · intro x hx
          simp only [List.flatten_cons, List.mem_append, not_or] at hx
          exact fr' x hx.2

/-- Resetting kinds makes nothing a comment, and no comment something else. -/
theorem resetAll_comment : ∀ {scs : List ScopeRec} {h h' : Heap}, WF h → Acyclic h → (∀ sc ∈ scs, Valid h sc.node) → resetAll h scs = some h' →
    ∀ p, h'.kind p = .comment ↔ h.kind p = .comment
  | [], h, h', w, ac, v, e, p => by simp only [resetAll, Option.some.injEq] at e; rw [e]
  | sc :: scs, h, h', w, ac, v, e, p => by
    simp only [resetAll] at e
    split at e
    · simp at e
    · rename_i h1 r hr
      have c := (C18_resetKind_relabels w ac (v sc (by simp)) hr p).1
      cases hn : sc.node with
      | none =>
        rw [hn] at hr
        simp only [resetKind, kind, Option.some.injEq, Prod.mk.injEq] at hr
        obtain ⟨rfl, _⟩ := hr
        exact resetAll_comment w ac (fun s hs => v s (by simp [hs])) e p
      | some a =>
        rw [hn] at hr
        obtain ⟨l, ch, ha⟩ := Acyclic.exists_chain w ac a (v sc (by simp) a hn)
        obtain ⟨w1, ac1, sz, _⟩ := C17_resetKind_local w ac ch ha hr
        rw [resetAll_comment w1 ac1 (fun s hs x hx => by rw [sz]; exact v s (by simp [hs]) x hx) e p, c]

/-- A scope that does not begin with a comment sign does not begin with a comment. -/
theorem parsed_heads {ord : Nat → List (Bytes × Ext)} (ho : MapOrder ord) {h h' : Heap} (w : WF h) (ac : Acyclic h) {startLine : Int} {text : Bytes}
    {scs : List ScopeRec} (e : parseScopeOrd ord h startLine text = some (h', scs)) (sc : ScopeRec) (hsc : sc ∈ scs) (hk : isDeclaration sc.kind = true)
    (a : Addr) (ha : sc.node = some a) : h'.kind (some a) ≠ .comment := by
  intro hc
  obtain ⟨h1, p, l, st, h'', P⟩ := parsed ho w ac startLine text
  have e' := P.parse
  rw [e] at e'; cases e'
  have hl : ∀ sc ∈ st.scs, ∃ a, sc.node = some a ∧ a ∈ l := by
    intro sc hsc
    rw [P.scs, List.mem_map] at hsc
    obtain ⟨g, hg, rfl⟩ := hsc
    obtain ⟨a, g', rfl⟩ := List.exists_cons_of_ne_nil (divide_ne_nil _ _ _ g hg)
    refine ⟨a, rfl, ?_⟩
    rw [← divide_flatten h1 l (startLine - 1)]
    exact List.mem_append_right _ (List.mem_flatten.2 ⟨_, hg, by simp⟩)
  obtain ⟨a', ha', hal⟩ := hl sc hsc
  rw [ha] at ha'; cases ha'
  have hc1 : h1.kind (some a) = .comment := by
    rw [← (P.data2.2 _).2.1]
    refine (resetAll_comment P.wf2 P.acyc2 (fun s hs x hx => ?_) P.reset _).1 hc
    obtain ⟨b, hb, hbl⟩ := hl s hs
    rw [hx] at hb; cases hb
    rw [P.data2.1]
    exact P.fwd.lt x hbl
  have hnew : newScopeKind (h1.text (some a)) = sc.kind := by
    rw [P.scs, List.mem_map] at hsc
    obtain ⟨g, hg, rfl⟩ := hsc
    obtain ⟨b, g', rfl⟩ := List.exists_cons_of_ne_nil (divide_ne_nil _ _ _ g hg)
    cases ha
    rfl
  have kk : ∀ k, isDeclaration k = true → k ≠ .unknown ∧ ∀ p ∈ scopeKeywords, p.2 = k → p.1.head? ≠ some 47 ∧ p.1 ≠ [] := by
    intro k hk
    cases k <;> simp_all [isDeclaration, scopeKeywords]
  obtain ⟨kw, t, hkw, ht⟩ := (C45_newScopeKind_some _ _ (kk _ hk).1).1 hnew
  obtain ⟨h47, hne⟩ := (kk _ hk).2 _ hkw rfl
  rcases C07_kind ho P.extract P.fwd a hal with ⟨_, hi⟩ | hn
  · have : (h1.text (some a)).head? = some 47 := by
      rcases hi with ⟨b, hb, _⟩ | ⟨⟨b, hb⟩, _⟩
      · rw [hb]; rfl
      · rw [← hb]; rfl
    rw [ht] at this
    cases kw with
    | nil => exact hne rfl
    | cons c kw => exact h47 (by simpa using this)
  · rw [hc1] at hn
    exact C43_never _ .comment (.inl (by decide)) hn.symm

/-! ## C63 -/

/-- **C63** The example program on any document in which the scopes kept do not begin with a comment: it returns an `Ast`
of the same name whose scopes are the ones kept, and what it saves is the texts of their nodes without the comments. -/
theorem C63_strip {st : AState} {f : AstRec} {lss : List (List Addr)} (d : Doc st f lss)
    (hd : ∀ x ∈ (f.scopes st).zip lss, isDeclaration x.1.kind = true → ∀ a, x.2.head? = some a → st.heap.kind (some a) ≠ .comment) :
    ∃ st' f', stripComments st f = some (st', f') ∧
      f'.scopes st' = (f.scopes st).filter (fun sc => isDeclaration sc.kind) ∧
      (f'.file, f'.dir, f'.name, f'.ext) = (f.file, f.dir, f.name, f.ext) ∧
      SameData st.heap st'.heap ∧
      Doc st' f' (strippedNodes st.heap (f.scopes st) lss) ∧
      Saves st' f' (allText st.heap (strippedNodes st.heap (f.scopes st) lss)) := by
  obtain ⟨h', e, w', sd, sn, _⟩ := strip_scopes d.wf d.nodes d.nodup hd []
  have sub : (strippedNodes st.heap (f.scopes st) lss).flatten.Sublist lss.flatten := by
    have : ∀ (scs : List ScopeRec) (lss : List (List Addr)), (strippedNodes st.heap scs lss).flatten.Sublist lss.flatten := by
      intro scs
      induction scs with
      | nil => intro lss; simp [strippedNodes]
      | cons sc scs ih =>
        intro lss
        cases lss with
        | nil => simp [strippedNodes]
        | cons l lss =>
          have := ih lss
          by_cases hk : isDeclaration sc.kind = true
          · simp only [strippedNodes, List.zip_cons_cons, List.filter_cons, hk, decide_true, if_true, List.map_cons, List.flatten_cons] at this ⊢
            exact (withoutComments_sublist _ _).append this
          · simp only [strippedNodes, List.zip_cons_cons, List.filter_cons, hk, decide_false, Bool.false_eq_true, if_false, List.flatten_cons] at this ⊢
            exact this.trans (List.sublist_append_right _ _)
    exact this _ _
  obtain ⟨st', f', hs, hsc, hn, hh⟩ : ∃ st' f', stripComments st f = some (st', f') ∧
      f'.scopes st' = (f.scopes st).filter (fun sc => isDeclaration sc.kind) ∧
      (f'.file, f'.dir, f'.name, f'.ext) = (f.file, f.dir, f.name, f.ext) ∧ st'.heap = h' := by
    generalize hk : (f.scopes st).filter (fun sc => isDeclaration sc.kind) = scs at e
    refine ⟨(AState.newSlice { st with heap := h' } scs ((f.scopes st).length - scs.length)).1,
      f.setScope (AState.newSlice { st with heap := h' } scs ((f.scopes st).length - scs.length)).2, ?_, ?_, rfl, rfl⟩
    · simp only [stripComments, e, List.nil_append]
    simp [AstRec.scopes, AState.elems, AState.newSlice, AstRec.setScope]
  subst hh
  have d' : Doc st' f' (strippedNodes st.heap (f.scopes st) lss) := ⟨w', by rw [hsc]; exact sn, d.nodup.sublist sub⟩
  refine ⟨st', f', hs, hsc, hn, sd, d', ?_⟩
  have := d'.saves
  rwa [allText_frame (h := st.heap) (fun x _ => (sd.2 _).2.2)] at this

/-- **C63** The only comments left are at the very end of a scope. -/
theorem C63_left (h : Heap) : ∀ (l l₁ : List Addr) (a : Addr) (l₂ : List Addr), withoutComments h l = l₁ ++ a :: l₂ → h.kind (some a) = .comment →
    l₂ = [] ∧ l.getLast? = some a
  | [], l₁, a, l₂, e, _ => by simp [withoutComments] at e
  | [b], l₁, a, l₂, e, _ => by
    rw [withoutComments] at e
    have := congrArg List.length e
    simp only [List.length_append, List.length_cons, List.length_nil] at this
    obtain rfl : l₁ = [] := List.length_eq_zero_iff.1 (by omega)
    obtain rfl : l₂ = [] := List.length_eq_zero_iff.1 (by omega)
    simp only [List.nil_append, List.cons.injEq] at e
    simp [e.1]
  | b :: c :: l, l₁, a, l₂, e, hk => by
    rw [withoutComments] at e
    split at e
    · have := C63_left h (c :: l) l₁ a l₂ e hk
      simpa using this
    · rename_i hb
      cases l₁ with
      | nil =>
        simp only [List.nil_append, List.cons.injEq] at e
        exact absurd (e.1 ▸ hk) hb
      | cons x l₁ =>
        simp only [List.cons_append, List.cons.injEq] at e
        have := C63_left h (c :: l) l₁ a l₂ e.2 hk
        simpa using this

/-- **C63** From the file: whatever `ParseAst` returned, the example program returns, and saves the scopes kept without
their comments (`lss`: the nodes of the scopes as parsed). -/
theorem C63_example {env : Env} {spare : Nat} {fs : FS} {st st' : AState} {file : Bytes} {f : AstRec} (w : WF st.heap) (ac : Acyclic st.heap)
    (e : parseAst env spare fs st file = some (.ok (st', f))) :
    ∃ lss st'' f', Doc st' f lss ∧ stripComments st' f = some (st'', f') ∧
      Doc st'' f' (strippedNodes st'.heap (f.scopes st') lss) ∧
      Saves st'' f' (allText st'.heap (strippedNodes st'.heap (f.scopes st') lss)) := by
  obtain ⟨lss, data, d, _, hp⟩ := C61_parsed w ac e
  have hz : ∀ {h : Heap} {scs : List ScopeRec} {lss : List (List Addr)}, ScopeNodes h scs lss → ∀ x ∈ scs.zip lss, x.1 ∈ scs ∧ x.1.node = x.2.head? := by
    intro h scs lss sn
    induction sn with
    | nil => simp
    | cons f sn ih =>
      intro x hx
      rcases List.mem_cons.1 hx with rfl | hx
      · exact ⟨by simp, f.head⟩
      · exact ⟨by simp [(ih x hx).1], (ih x hx).2⟩
  obtain ⟨st'', f', e', _, _, _, d', s'⟩ := C63_strip d (fun x hx hk a ha =>
    parsed_heads mapOrder_id w ac hp x.1 (hz d.nodes x hx).1 hk a ((hz d.nodes x hx).2.trans ha))
  exact ⟨lss, st'', f', d, e', d', s'⟩

/-! ## A case -/

/-- A file with comments in, between and behind the declarations. -/
def stripFile : Bytes := b!"// top\npackage a // p\n\n// f does\nfunc f(/* in */ x int) { /* body */ }\n"

def stripEnv : Env := ⟨some, fun _ => some, fun _ => false, fun _ => false, fun _ => true, fun _ => true, fun _ _ => none, id, id, id⟩

/-- `ParseAst`, the example program, and what `Save` then hands to `SaveFile`. -/
def stripRun (text : Bytes) : Option Bytes :=
  match parseAst stripEnv 0 (fun n => if n = b!"a.go" then some text else none) ⟨Heap.empty, []⟩ b!"a.go" with
  | some (.ok (st, f)) => (stripComments st f).bind fun r => scopesText r.1.heap (r.2.scopes r.1)
  | _ => none

example : stripRun stripFile = some b!"package a \n\nfunc f( x int) {  }\n" := by decide +kernel

/-- A comment at the very end stays. -/
example : stripRun b!"package a\n\nvar x int /* end */" = some b!"package a\n\nvar x int /* end */" := by decide +kernel

end Goast
