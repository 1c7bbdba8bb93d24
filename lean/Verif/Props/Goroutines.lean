import Verif.Proofs.Goroutines

/-!
# C69: goroutines with nodes of their own do not disturb each other
-/

set_option linter.unusedSimpArgs false
set_option linter.unusedVariables false

namespace Goast
open Heap

/-- **C69** Any number of goroutines use the API on nodes of their own (no node belongs to two), each running any program, which may
depend on everything it was shown.  If each of them alone gets through its part of the schedule without panic or endless loop, then
under this schedule all of them do, every one is shown exactly what it is shown when it runs alone, and the nodes that belong to none
of them stay as they were. -/
theorem C69_any_schedule (progs : Nat → Prog) (sched : List Nat) {h : Heap} {gs : Nat → Gor} {own : Nat → Addr → Prop} (ap : Apart h gs own)
    (ok : ∀ i, ∃ r, solo (progs i) (sched.count i) h (gs i) = some r) :
    ∃ h' gs', together progs sched h gs = some (h', gs') ∧
      (∀ i h₁ g₁, solo (progs i) (sched.count i) h (gs i) = some (h₁, g₁) → (gs' i).seen = g₁.seen) ∧
      h.size ≤ h'.size ∧
      ∀ a, a < h.size → (∀ i, ¬ own i a) → h'.next (some a) = h.next (some a) ∧ h'.prev (some a) = h.prev (some a) ∧ data h' a = data h a := by
  have at_id : ∀ r : NodeRec, r.at id = r := by intro r; simp [NodeRec.at]
  have pl : ∀ i, Pl id (own i) h h := fun i =>
    { le := Nat.le_refl _
      lt := fun ha => ap.exist i _ ha
      inj := fun _ _ e => e
      cell := fun {a} _ => by cases e : h.cells[a]? <;> simp [at_id, e]
      nextC := fun {a r} ha e b hb => ap.next i a b ha (by simp [Heap.next, e, hb])
      prevC := fun {a r} ha e b hb => ap.prev i a b ha (by simp [Heap.prev, e, hb]) }
  have ho : ∀ i, Holds (own i) (gs i) := fun i =>
    ⟨fun p hp a e => ap.nodes i a (by rw [← e]; exact hp), fun sc hsc a e => ap.scopes i a sc hsc e⟩
  have g_id : ∀ i, (gs i).at id = gs i := by
    intro i
    rcases gs i with ⟨ns, ss, sn⟩
    simp only [Gor.at, Gor.mk.injEq, and_true]
    refine ⟨by simp, ?_⟩
    have : ScopeRec.at id = id := by funext sc; simp [ScopeRec.at]
    rw [this, List.map_id]
  obtain ⟨k', gs', e, seen, sz, fr⟩ := together_sim progs sched h (fun _ => h) gs (fun _ => id) own pl ho
    (fun i j a b hij ha hb e => hij (ap.disjoint i j a ha (by
      have e : a = b := e
      rw [e]; exact hb))) ok
  have hg : (fun i => (gs i).at id) = gs := funext g_id
  rw [hg] at e
  refine ⟨k', gs', e, seen, sz, ?_⟩
  intro a ha hn
  have := fr a ha (fun i b hb e => hn i (by have e : b = a := e; rw [← e]; exact hb))
  simp [Heap.next, Heap.prev, data, Heap.line, Heap.kind, Heap.text, this]

/-- **C69** Goroutines that start with nothing in their variables have nothing in common, whatever nodes the program made before. -/
theorem C69_fresh (h : Heap) {gs : Nat → Gor} (hn : ∀ i, (gs i).nodes = []) (hs : ∀ i, (gs i).scopes = []) : Apart h gs (fun _ _ => False) :=
  ⟨fun _ _ => False.elim, fun _ _ _ => False.elim, fun _ _ _ => False.elim, fun i a ha => by simp [hn i] at ha,
    fun i a sc hsc => by simp [hs i] at hsc, fun _ _ _ => False.elim⟩

/-- **C69** The scopes of one parse can be given to different goroutines: they have nothing in common. -/
theorem C69_scopes {ord : Nat → List (Bytes × Ext)} (mo : MapOrder ord) {h h' : Heap} (w : WF h) (ac : Acyclic h) {startLine : Int} {text : Bytes}
    {scs : List ScopeRec} (e : parseScopeOrd ord h startLine text = some (h', scs)) {gs : Nat → Gor} (hn : ∀ i, (gs i).nodes = [])
    (hs : ∀ i, (gs i).scopes = (scs[i]?).toList) :
    ∃ own, Apart h' gs own ∧ ∀ i a, own i a → h.size ≤ a := by
  obtain ⟨w', _, _, ls, hm, nd, hl⟩ := C12_separate mo w ac e
  have dj : ∀ (i j : Nat) (a : Addr) (l l' : List Addr), ls[i]? = some l → ls[j]? = some l' → a ∈ l → a ∈ l' → i = j := by
    intro i j a l l' hi hj ha hb
    rw [List.Nodup, List.pairwise_flatten, List.pairwise_iff_getElem (l := ls)] at nd
    obtain ⟨li, rfl⟩ := List.getElem?_eq_some_iff.1 hi
    obtain ⟨lj, rfl⟩ := List.getElem?_eq_some_iff.1 hj
    rcases Nat.lt_trichotomy i j with h1 | h1 | h1
    · exact absurd rfl (nd.2 i j li lj h1 a ha a hb)
    · exact h1
    · exact absurd rfl (nd.2 j i lj li h1 a hb a ha)
  refine ⟨fun i a => ∃ l, ls[i]? = some l ∧ a ∈ l, ⟨?_, ?_, ?_, ?_, ?_, ?_⟩, ?_⟩
  · rintro i a ⟨l, hi, ha⟩
    exact (hl l (List.mem_of_getElem? hi)).2.1.1 a ha
  · rintro i a b ⟨l, hi, ha⟩ hb
    exact ⟨l, hi, ((hl l (List.mem_of_getElem? hi)).2.1.closed w').next a b ha hb⟩
  · rintro i a b ⟨l, hi, ha⟩ hb
    exact ⟨l, hi, ((hl l (List.mem_of_getElem? hi)).2.1.closed w').prev a b ha hb⟩
  · intro i a ha
    simp [hn i] at ha
  · intro i a sc hsc ha
    rw [hs i, Option.mem_toList] at hsc
    have h1 : (scs.map (·.node))[i]? = some (some a) := by
      rw [List.getElem?_map, hsc]; simp [ha]
    rw [hm, List.getElem?_map] at h1
    obtain ⟨l, hi, hh⟩ := Option.map_eq_some_iff.1 h1
    exact ⟨l, hi, List.mem_of_mem_head? hh⟩
  · rintro i j a ⟨l, hi, ha⟩ ⟨l', hj, hb⟩
    exact dj i j a l l' hi hj ha hb
  · rintro i a ⟨l, hi, ha⟩
    exact (hl l (List.mem_of_getElem? hi)).2.2 a ha

/-! ## Witnesses -/

/-- A goroutine that parses, takes a node out and shows the result. -/
def progParse : Prog := fun seen => match seen.length with
  | 0 => .parse 0 b!"package a\nfunc F() {}\n"
  | 1 => .node 1
  | 2 => .call (.takeNext (some 0))
  | _ => .view [0, 1]

/-- A goroutine that makes a list of nodes and edits it. -/
def progEdit : Prog := fun seen => match seen.length with
  | 0 => .call (.newNodes 0 [b!"a", b!"b", b!"c"])
  | 1 => .call (.newNode 7 b!"x" [])
  | 2 => .call (.insertNext (some 0) (some 1))
  | 3 => .next (some 0)
  | 4 => .same (some 4) (some 1)
  | _ => .look (some 4)

/-- No variables yet. -/
def idle : Nat → Gor := fun _ => ⟨[], [], []⟩

/-- The hypotheses of `C69_any_schedule` are met by these two programs under an interleaved schedule … -/
example : ∀ i, ∃ r, solo (if i = 0 then progParse else progEdit) ([0, 1, 1, 0, 1, 0, 1, 0, 1, 1].count i) Heap.empty (idle i) = some r := by
  have all : ∀ n, n ≤ 6 → ∀ p, (p = progParse ∧ n ≤ 4) ∨ p = progEdit → (solo p n Heap.empty ⟨[], [], []⟩).isSome := by
    rintro n hn p (⟨rfl, h4⟩ | rfl)
    · have : n = 0 ∨ n = 1 ∨ n = 2 ∨ n = 3 ∨ n = 4 := by omega
      rcases this with rfl | rfl | rfl | rfl | rfl <;> decide +kernel
    · have : n = 0 ∨ n = 1 ∨ n = 2 ∨ n = 3 ∨ n = 4 ∨ n = 5 ∨ n = 6 := by omega
      rcases this with rfl | rfl | rfl | rfl | rfl | rfl | rfl <;> decide +kernel
  intro i
  rw [← Option.isSome_iff_exists]
  by_cases h0 : i = 0
  · subst h0
    exact all _ (by decide) _ (.inl ⟨by simp, by decide⟩)
  · refine all _ ?_ _ (.inr (by simp [h0]))
    by_cases h1 : i = 1
    · subst h1; decide
    · rw [List.count_eq_zero.2 (by simp; omega)]; omega

/-- … and the second goroutine sees its own new node behind the first, at line 7. -/
example : ((together (fun i => if i = 0 then progParse else progEdit) [0, 1, 1, 0, 1, 0, 1, 0, 1, 1] Heap.empty idle).map fun r =>
    (((r.2 1).seen.getLast?.map fun o => match o with | .node v => (v.line, v.text) | _ => (0, [])))) = some (some (7, b!"x")) := by
  decide +kernel

/-- **C69, witness** The nodes must be of their own: if two goroutines hold the same node, what one of them reads depends on the schedule. -/
theorem C69_shared : ∃ (progs : Nat → Prog) (h : Heap) (gs : Nat → Gor), WF h ∧ Acyclic h ∧
    ((together progs [0, 1] h gs).map fun r => (r.2 1).seen.map fun o => match o with | .node v => v.text | _ => []) = some [b!"new"] ∧
    ((together progs [1, 0] h gs).map fun r => (r.2 1).seen.map fun o => match o with | .node v => v.text | _ => []) = some [b!"old"] := by
  refine ⟨fun i _ => if i = 0 then .call (.setText (some 0) b!"new") else .look (some 0), (Heap.empty.newNode 0 b!"old" []).1,
    fun _ => ⟨[some 0], [], []⟩, wf_newNode wf_empty _ _ _, ?_, by decide +kernel, by decide +kernel⟩
  intro a ha
  have : a = 0 := by simpa [Heap.newNode, Heap.alloc, Heap.size, Heap.empty] using ha
  subst this
  exact ⟨[0], .cons (by decide) .nil⟩

end Goast
