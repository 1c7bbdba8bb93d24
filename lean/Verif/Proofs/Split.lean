import Verif.Spec.Scopes
import Verif.Proofs.Frame
import Verif.Proofs.Seg
import Verif.Props.Links

/-!
# `ParseScope` splits the chain of nodes into one chain per scope
-/

set_option linter.unusedSimpArgs false
set_option linter.unusedVariables false

namespace Goast
open Heap

theorem divide_flatten (h : Heap) : ∀ (l : List Addr) (prev : Int),
    (divide h prev l).1 ++ (divide h prev l).2.flatten = l
  | [], _ => rfl
  | a :: l, prev => by
    have ih := divide_flatten h l (h.line (some a))
    simp only [divide]
    split
    · simp [ih]
    · simp [ih]

theorem divide_ne_nil (h : Heap) : ∀ (l : List Addr) (prev : Int), ∀ g ∈ (divide h prev l).2, g ≠ []
  | [], _, g, hg => by simp [divide] at hg
  | a :: l, prev, g, hg => by
    have ih := divide_ne_nil h l (h.line (some a))
    simp only [divide] at hg
    split at hg
    · rcases List.mem_cons.1 hg with rfl | hg
      · simp
      · exact ih g hg
    · exact ih g hg

theorem divide_congr {h h' : Heap} (sd : SameData h h') : ∀ (l : List Addr) (prev : Int),
    divide h' prev l = divide h prev l
  | [], _ => rfl
  | a :: l, prev => by
    have e := sd.2 (some a)
    simp only [divide, Opens, e.1, e.2.2, divide_congr sd l]

theorem scopeOf_congr {h h' : Heap} (sd : SameData h h') (g : List Addr) : scopeOf h' g = scopeOf h g := by
  simp only [scopeOf, sd.2]

/-- A chain does not notice what happens elsewhere. -/
theorem Chain.same {h h' : Heap} {R : Addr → Prop} {l : List Addr} (c : Chain h l) (s : SameOn R h h')
    (hs : h.size ≤ h'.size) (hl : ∀ a ∈ l, R a) : Chain h' l := by
  refine ⟨fun a ha => Nat.lt_of_lt_of_le (c.1 a ha) hs, ?_, ?_, ?_⟩
  · intro a ha
    rw [(s a (hl a (List.mem_of_head? ha))).2.1]; exact c.2.1 a ha
  · intro a ha
    rw [(s a (hl a (List.mem_of_getLast? ha))).1]; exact c.2.2.1 a ha
  · intro l₁ a b l₂ e
    rw [(s a (hl a (by simp [e]))).1, (s b (hl b (by simp [e]))).2.1]; exact c.2.2.2 l₁ a b l₂ e

/-- The nodes of a chain are closed under links. -/
theorem Chain.closed {h : Heap} (w : WF h) {l : List Addr} (c : Chain h l) : Closed h (· ∈ l) where
  lt := c.1
  next a b ha e := by
    obtain ⟨l₁, l₂, rfl⟩ := c.fwd.next_mem ha e
    simp
  prev a b ha e := by
    obtain ⟨l₁, l₂, rfl⟩ := List.append_of_mem ha
    rcases l₁.eq_nil_or_concat with rfl | ⟨l₁, x, rfl⟩
    · have := c.2.1 a (by simp)
      rw [e] at this; cases this
    · have := (c.2.2.2 l₁ x a l₂ (by simp)).2
      rw [e] at this; cases this
      simp

theorem Closed.union {h : Heap} {R R' : Addr → Prop} (a : Closed h R) (b : Closed h R') :
    Closed h (fun x => R x ∨ R' x) where
  lt x hx := hx.elim (a.lt x) (b.lt x)
  next x y hx e := hx.imp (fun r => a.next x y r e) (fun r => b.next x y r e)
  prev x y hx e := hx.imp (fun r => a.prev x y r e) (fun r => b.prev x y r e)

theorem SameData.refl' (h : Heap) : SameData h h := ⟨rfl, fun _ => ⟨rfl, rfl, rfl⟩⟩

theorem SameData.trans' {h₁ h₂ h₃ : Heap} (a : SameData h₁ h₂) (b : SameData h₂ h₃) : SameData h₁ h₃ :=
  ⟨b.1.trans a.1, fun p => ⟨(b.2 p).1.trans (a.2 p).1, (b.2 p).2.1.trans (a.2 p).2.1, (b.2 p).2.2.trans (a.2 p).2.2⟩⟩

/-- The state of the splitting loop: closed groups, the last group (not yet cut off from the present
one), the present group and the nodes to come.  `R` is a region not concerned. -/
structure Splitting (R : Addr → Prop) (s : ParseSt) (closed : List (List Addr)) (last cur rest : List Addr) : Prop where
  wf : WF s.heap
  acyc : Acyclic s.heap
  reg : Closed s.heap R
  chains : ∀ g ∈ closed, Chain s.heap g
  chain : Chain s.heap (last ++ cur ++ rest)
  disj : (closed.flatten ++ (last ++ cur ++ rest)).Nodup
  out : ∀ a ∈ closed.flatten ++ (last ++ cur ++ rest), ¬ R a
  head : s.head = (cur ++ rest).head?
  empty : cur = [] → last = [] ∧ s.k = .unknown

/-- The scope that `tryAppendScope` records for the present group. -/
def pendingScope (s : ParseSt) : List ScopeRec :=
  if s.k = .unknown then [] else [{ line := s.heap.line s.head, kind := s.k, node := s.head }]

theorem tryAppendScope_eq (s : ParseSt) : tryAppendScope s = { s with
    scs := s.scs ++ pendingScope s,
    heap := if s.heap.prev s.head ≠ none then (s.heap.removePrev s.head).1 else s.heap } := by
  obtain ⟨h, scs, head, k, line⟩ := s
  unfold tryAppendScope pendingScope newScope
  cases k <;> by_cases hp : h.prev head = none <;> simp [hp]

theorem tryAppendScope_post {R : Addr → Prop} {s : ParseSt} {closed last cur rest} (i : Splitting R s closed last cur rest) :
    (tryAppendScope s).scs = s.scs ++ pendingScope s ∧ (tryAppendScope s).head = s.head ∧
    (tryAppendScope s).k = s.k ∧ (tryAppendScope s).line = s.line ∧
    SameData s.heap (tryAppendScope s).heap ∧ SameOn R s.heap (tryAppendScope s).heap ∧
    WF (tryAppendScope s).heap ∧ Acyclic (tryAppendScope s).heap ∧
    (∀ g ∈ closed ++ [last], Chain (tryAppendScope s).heap g) ∧ Chain (tryAppendScope s).heap (cur ++ rest) := by
  rw [tryAppendScope_eq]
  by_cases hc : cur ++ rest = []
  · -- no node at all
    have hh : s.head = none := by rw [i.head, hc]; rfl
    obtain ⟨hcur, hrest⟩ := List.append_eq_nil_iff.1 hc
    have hl := (i.empty hcur).1
    have hif : (if s.heap.prev s.head ≠ none then (s.heap.removePrev s.head).1 else s.heap) = s.heap := by simp [hh]
    rw [hif]
    refine ⟨rfl, rfl, rfl, rfl, SameData.refl' _, fun _ _ => ⟨rfl, rfl, rfl⟩, i.wf, i.acyc, ?_, ?_⟩
    · intro g hg
      rcases List.mem_append.1 hg with hg | hg
      · exact i.chains g hg
      · simp at hg; subst hg; have := i.chain; rw [hcur, hrest, List.append_nil, List.append_nil] at this; exact this
    · have := i.chain; rw [hl] at this; simpa using this
  · obtain ⟨x, xs, hx⟩ := List.exists_cons_of_ne_nil hc
    have hh : s.head = some x := by rw [i.head, hx]; rfl
    have ch := i.chain
    rw [List.append_assoc, hx] at ch
    have cut := C28_removePrev_chain i.wf ch
    have hxl : x ∈ closed.flatten ++ (last ++ cur ++ rest) := by
      rw [List.append_assoc last, hx]; simp
    have hv : Valid s.heap (some x) := valid_some (ch.1 x (by simp))
    have wf' := wf_removePrev i.wf hv
    have rk' := ranked_removePrev i.wf (i.acyc.ranked i.wf) hv
    have out : Out R (some x) := by
      intro a ra e; cases e; exact i.out x hxl ra
    have fr := frame_removePrev i.wf i.reg hv out
    by_cases hp : s.heap.prev (some x) = none
    · -- the group is the first one
      have hl : last = [] := by
        have := cut.1
        rw [show (s.heap.removePrev (some x)).2 = s.heap.prev (some x) from rfl, hp] at this
        exact List.getLast?_eq_none_iff.1 this.symm
      have hif : (if s.heap.prev s.head ≠ none then (s.heap.removePrev s.head).1 else s.heap) = s.heap := by simp [hh, hp]
      rw [hif]
      refine ⟨rfl, rfl, rfl, rfl, SameData.refl' _, fun _ _ => ⟨rfl, rfl, rfl⟩, i.wf, i.acyc, ?_, ?_⟩
      · intro g hg
        rcases List.mem_append.1 hg with hg | hg
        · exact i.chains g hg
        · simp at hg; subst hg; rw [hl]; exact ⟨by simp, by simp, by simp, by simp⟩
      · rw [hl] at ch; rw [hx]; simpa using ch
    · have hif : (if s.heap.prev s.head ≠ none then (s.heap.removePrev s.head).1 else s.heap) = (s.heap.removePrev (some x)).1 := by
        simp [hh, hp]
      rw [hif]
      refine ⟨rfl, rfl, rfl, rfl, cut.2.2.2, fr, wf', rk'.fwd wf', ?_, ?_⟩
      · intro g hg
        rcases List.mem_append.1 hg with hg | hg
        · have frg := frame_removePrev (R := (· ∈ g)) i.wf ((i.chains g hg).closed i.wf) hv (by
            intro a ra e; cases e
            have nd := i.disj
            rw [List.nodup_append] at nd
            exact nd.2.2 x (List.mem_flatten.2 ⟨g, hg, ra⟩) x (by rw [List.append_assoc, hx]; simp) rfl)
          exact (i.chains g hg).same frg (by rw [cut.2.2.2.1]; exact Nat.le_refl _) (fun a ha => ha)
        · simp at hg; subst hg; exact cut.2.1
      · rw [hx]; exact cut.2.2.1

/-- What the loop of `ParseScope` leaves behind. -/
structure SplitPost (R : Addr → Prop) (s s' : ParseSt) (closed : List (List Addr)) (last cur rest : List Addr) : Prop where
  ex : ∃ closed' last' cur', Splitting R s' closed' last' cur' [] ∧
    closed' ++ [last', cur'] = closed ++ [last, cur ++ (divide s.heap s.line rest).1] ++ (divide s.heap s.line rest).2
  data : SameData s.heap s'.heap
  same : SameOn R s.heap s'.heap
  scs : s'.scs ++ pendingScope s' = s.scs ++ pendingScope s ++ (divide s.heap s.line rest).2.map (scopeOf s.heap)

/-- The loop of `ParseScope`. -/
theorem split_loop {R : Addr → Prop} : ∀ (rest : List Addr) (s : ParseSt) (p : Ptr) (fuel : Nat)
    (closed : List (List Addr)) (last cur : List Addr), Splitting R s closed last cur rest → p = rest.head? →
    rest.length < fuel → ∃ s', loop (fun s a => s.heap.next (some a)) parseStep fuel s p = some (s', none) ∧
      SplitPost R s s' closed last cur rest := by
  intro rest
  induction rest with
  | nil =>
    rintro s p fuel closed last cur i rfl hf
    refine ⟨s, by cases fuel <;> rfl, ⟨closed, last, cur, i, by simp [divide]⟩, SameData.refl' _,
      fun _ _ => ⟨rfl, rfl, rfl⟩, by simp [divide]⟩
  | cons a rest ih =>
    rintro s p fuel closed last cur i rfl hf
    cases fuel with
    | zero => simp at hf
    | succ fuel =>
      -- the successor of `a` is found in every heap in which the chain is intact from `a` on
      have nxt : ∀ {h : Heap} {A : List Addr}, Chain h (A ++ a :: rest) → h.next (some a) = rest.head? := by
        intro h A ch
        have := ((Seg.append A).1 (Chain.seg.1 ch)).2.2.2.1
        simpa using this
      by_cases ho : Opens s.heap s.line a
      · -- a new scope
        obtain ⟨t1, t2, t3, t4, t5, t6, t7, t8, t9, t10⟩ := tryAppendScope_post
          (s := { s with line := s.heap.line (some a) }) (closed := closed) (last := last) (cur := cur) (rest := a :: rest)
          ⟨i.wf, i.acyc, i.reg, i.chains, i.chain, i.disj, i.out, i.head, i.empty⟩
        have step : parseStep s a = some ({ tryAppendScope { s with line := s.heap.line (some a) } with
            head := some a, k := newScopeKind (s.heap.text (some a)) }, true) := by
          simp only [parseStep]
          rw [if_neg ho.1, if_neg ho.2]
        generalize hs1 : tryAppendScope { s with line := s.heap.line (some a) } = s1 at *
        have i1 : Splitting R { s1 with head := some a, k := newScopeKind (s.heap.text (some a)) }
            (closed ++ [last]) cur [a] rest := by
          refine ⟨t7, t8, t6.closed i.reg (Nat.le_of_eq t5.1.symm), t9, by simpa using t10, ?_, ?_, rfl, by simp⟩
          · have := i.disj
            simpa using this
          · have := i.out
            simpa using this
        obtain ⟨s', e, post⟩ := ih _ (s1.heap.next (some a)) fuel _ _ _ i1 (nxt t10) (by simpa using hf)
        refine ⟨s', by rw [List.head?_cons]; simp only [loop, step]; exact e, ?_⟩
        have dv : divide s.heap s.line (a :: rest) =
            ([], (a :: (divide s.heap (s.heap.line (some a)) rest).1) :: (divide s.heap (s.heap.line (some a)) rest).2) := by
          simp only [divide, if_pos ho]
        have dv' : divide s1.heap s1.line rest = divide s.heap (s.heap.line (some a)) rest := by
          rw [t4]; exact divide_congr t5 rest _
        obtain ⟨c', l', u', j1, j2⟩ := post.ex
        refine ⟨⟨c', l', u', j1, ?_⟩, SameData.trans' t5 post.data, t6.trans post.same, ?_⟩
        · rw [j2, dv]
          show _ ++ [cur, [a] ++ (divide s1.heap s1.line rest).1] ++ (divide s1.heap s1.line rest).2 = _
          rw [dv']
          simp
        · rw [post.scs, dv]
          show s1.scs ++ pendingScope { s1 with head := some a, k := newScopeKind (s.heap.text (some a)) } ++
            (divide s1.heap s1.line rest).2.map (scopeOf s1.heap) = _
          rw [dv']
          have : (scopeOf s1.heap) = (scopeOf s.heap) := funext fun g => scopeOf_congr t5 g
          rw [this]
          have hp : pendingScope { s1 with head := some a, k := newScopeKind (s.heap.text (some a)) } =
              [scopeOf s.heap (a :: (divide s.heap (s.heap.line (some a)) rest).1)] := by
            simp only [pendingScope, if_neg ho.2, scopeOf, List.head?_cons]
            rw [(t5.2 (some a)).1]
          rw [hp, t1]
          simp only [List.map_cons, List.append_assoc, List.singleton_append]
          rfl
      · -- the present group goes on
        have step : parseStep s a = some ({ s with line := s.heap.line (some a) }, true) := by
          simp only [parseStep]
          by_cases hl : s.heap.line (some a) = s.line
          · rw [if_pos hl, hl]
          · have hk : newScopeKind (s.heap.text (some a)) = .unknown :=
              Classical.byContradiction fun hk => ho ⟨hl, hk⟩
            rw [if_neg hl, if_pos hk]
        have i1 : Splitting R { s with line := s.heap.line (some a) } closed last (cur ++ [a]) rest := by
          refine ⟨i.wf, i.acyc, i.reg, i.chains, by simpa using i.chain, by simpa using i.disj, by simpa using i.out,
            by simpa using i.head, by simp⟩
        have ch : Chain s.heap ((last ++ cur) ++ a :: rest) := i.chain
        obtain ⟨s', e, post⟩ := ih _ (s.heap.next (some a)) fuel _ _ _ i1 (nxt ch) (by simpa using hf)
        refine ⟨s', by rw [List.head?_cons]; simp only [loop, step]; exact e, ?_⟩
        have dv : divide s.heap s.line (a :: rest) =
            (a :: (divide s.heap (s.heap.line (some a)) rest).1, (divide s.heap (s.heap.line (some a)) rest).2) := by
          simp only [divide, if_neg ho]
        obtain ⟨c', l', u', j1, j2⟩ := post.ex
        refine ⟨⟨c', l', u', j1, ?_⟩, post.data, post.same, ?_⟩
        · rw [j2, dv]; simp
        · rw [post.scs, dv]; rfl

/-- `ParseScope` before the kinds are reset. -/
theorem splitScopes_post {R : Addr → Prop} {h : Heap} (w : WF h) (ac : Acyclic h) (cl : Closed h R) {l : List Addr} (ch : Chain h l)
    (out : ∀ a ∈ l, ¬ R a) (startLine : Int) : ∃ st, splitScopes h startLine l.head? = some st ∧
      st.scs = (divide h (startLine - 1) l).2.map (scopeOf h) ∧ WF st.heap ∧ Acyclic st.heap ∧ SameData h st.heap ∧
      SameOn R h st.heap ∧ Chain st.heap (divide h (startLine - 1) l).1 ∧
      ∀ g ∈ (divide h (startLine - 1) l).2, Chain st.heap g := by
  have i : Splitting R { heap := h, scs := [], head := l.head?, k := .unknown, line := startLine - 1 } [] [] [] l :=
    ⟨w, ac, cl, by simp, by simpa using ch, by simpa using ch.nodup, by simpa using out, by simp, by simp⟩
  obtain ⟨s', e, post⟩ := split_loop l _ l.head? (h.size + 1) [] [] [] i rfl (by have := ch.fwd.length_le; omega)
  obtain ⟨c', l', u', j1, j2⟩ := post.ex
  obtain ⟨t1, t2, t3, t4, t5, t6, t7, t8, t9, t10⟩ := tryAppendScope_post j1
  refine ⟨tryAppendScope s', by simp only [splitScopes, e, Option.map_some], ?_, t7, t8, SameData.trans' post.data t5,
    post.same.trans t6, ?_⟩
  · rw [t1, post.scs]; simp [pendingScope]
  · have all : ∀ g ∈ c' ++ [l', u'], Chain (tryAppendScope s').heap g := by
      intro g hg
      have hg : g ∈ (c' ++ [l']) ++ [u'] := by simpa using hg
      rcases List.mem_append.1 hg with hg | hg
      · exact t9 g hg
      · simp at hg; subst hg; simpa using t10
    rw [j2] at all
    exact ⟨all _ (by simp), fun g hg => all g (List.mem_append_right _ hg)⟩

end Goast
