import Verif.Props.Links

/-!
# C23, C30-C35: histories of node operations, Combine, Copy, iteration, NewNodes, nil, cycles
-/

set_option linter.unusedSimpArgs false

namespace Goast
open Heap

/-! ## C23 -/

/-- Whatever sequence of calls a client makes, starting with no nodes at all, `Next` and `Prev` are inverse to
each other and no node is its own neighbour. -/
theorem C23_links_consistent {h : Heap} (r : Run (fun _ => True) Heap.empty h) :
    (∀ a b : Addr, h.next (some a) = some b ↔ h.prev (some b) = some a) ∧
    (∀ a : Addr, h.next (some a) ≠ some a ∧ h.prev (some a) ≠ some a) := by
  have w : WF h := by
    induction r with
    | refl => exact wf_empty
    | step op _ _ v e ih => exact wf_apply ih op v e
  refine ⟨w.inverse, fun a => ⟨w.irrefl a, fun hh => w.irrefl a ((w.inverse a a).2 hh)⟩⟩

/-- The same from any consistent heap, for any restriction on the calls. -/
theorem C23_links_preserved {P : Op → Prop} {h h' : Heap} (w : WF h) (r : Run P h h') : WF h' := by
  induction r with
  | refl => exact w
  | step op _ _ v e ih => exact wf_apply ih op v e

/-- The heap of the examples: two chains, `0,1,2` with texts a b c and `3,4` with texts d, e. -/
def demo : Heap := ((Heap.empty.newNodes 0 [b!"a", b!"b", b!"c"]).1.newNodes 5 [b!"d\n", b!"e"]).1

theorem demo_run : Run (fun op => ¬ op.isReplace) Heap.empty demo :=
  .step (.newNodes 5 [b!"d\n", b!"e"])
    (.step (.newNodes 0 [b!"a", b!"b", b!"c"]) .refl (by simp [Op.isReplace]) (by simp [Op.args]) rfl)
    (by simp [Op.isReplace]) (by simp [Op.args]) rfl

theorem demo_wf : WF demo := C23_links_preserved wf_empty demo_run

example : WF demo ∧ Chain demo [0, 1, 2] ∧ Chain demo [3, 4] := by
  refine ⟨demo_wf, ?_, ?_⟩ <;> (rw [Chain.seg]; decide +kernel)

-- hypotheses and conclusions of C24-C29 on a concrete heap
example : Chain demo ([0] ++ 1 :: [2]) ∧ Chain demo ([] ++ 3 :: [4]) ∧
    Chain (demo.insertNext (some 1) (some 3)).1 [0, 1, 3, 2] ∧ Chain (demo.insertNext (some 1) (some 3)).1 [4] ∧
    Chain (demo.insertNext (some 0) (some 2)).1 [0, 2, 1] ∧
    Chain (demo.insertNext (some 2) (some 0)).1 [1, 2, 0] ∧
    Chain (demo.insertPrev (some 1) (some 4)).1 [0, 4, 1, 2] ∧
    Chain (demo.replaceNext (some 0) (some 4)).1 [0, 4] ∧ Chain (demo.replaceNext (some 0) (some 4)).1 [1, 2] ∧
    Chain (demo.replaceNext (some 0) (some 4)).1 [3] ∧ Chain (demo.replacePrev (some 1) (some 3)).1 [3, 1, 2] ∧
    Chain (demo.takeNext (some 0)).1 [0, 2] ∧ Chain (demo.takePrev (some 2)).1 [0, 2] ∧
    Chain (demo.removeNext (some 0)).1 [1, 2] ∧ Chain (demo.removePrev (some 2)).1 [0, 1] ∧
    Chain (demo.isolate (some 1)) [0] ∧ Chain (demo.isolate (some 1)) [2] := by
  simp only [Chain.seg]; decide +kernel

/-! ## C30 -/

/-- The nodes `Combine` takes in: the arguments that are neither nil nor the receiver. -/
def incoming (n : Ptr) (ms : List Ptr) : List Ptr := ms.filter fun m => decide (m ≠ none ∧ m ≠ n)

theorem incoming_eq (n : Ptr) (ms : List Ptr) : realNodes n ms = incoming n ms := by
  unfold realNodes incoming
  congr 1
  funext m
  simp only [ne_comm (a := n)]

/-- What a `Combine` call with result `(h', r)` leaves: node `r` has the text `t`, kinds as given by `k`, the
incoming nodes `ns` are isolated, and everything else is as before. -/
structure Combined (h h' : Heap) (r : Ptr) (t : Bytes) (k : Ptr → Kind) (ns : List Ptr) : Prop where
  size : h'.size = h.size
  line : ∀ p, h'.line p = h.line p
  kind : ∀ p, h'.kind p = k p
  text : ∀ p, h'.text p = if p = r then t else h.text p
  next : ∀ x : Addr, h'.next (some x) =
    if some x ∈ ns ∨ h.next (some x) ∈ ns then none else h.next (some x)
  prev : ∀ x : Addr, h'.prev (some x) =
    if some x ∈ ns ∨ h.prev (some x) ∈ ns then none else h.prev (some x)

theorem combined_of {h : Heap} (w : WF h) {n : Ptr} {k : Kind} {a : Addr} (ha : a < h.size) (t : Bytes)
    {ns : List Ptr} (hv : ∀ m ∈ ns, Valid h m) (hne : ∀ m ∈ ns, m ≠ none) :
    Combined h (((h.setKind n k).isolateAll ns).setText (some a) t) (some a) t (h.setKind n k).kind ns := by
  have sd := sameData_isolateAll ns (h.setKind n k)
  have e := isolateAll_links ns (wf_setKind w n k) (fun m hm => valid_setKind.2 (hv m hm)) hne
  refine ⟨?_, ?_, ?_, ?_, ?_, ?_⟩
  · rw [size_setText, sd.1, size_setKind]
  · intro p; rw [line_setText, (sd.2 p).1, line_setKind]
  · intro p; rw [kind_setText, (sd.2 p).2.1]
  · intro p
    rw [text_setText _ _ _ _ (by rw [sd.1, size_setKind]; exact ha), (sd.2 p).2.2, text_setKind]
  · intro x; rw [next_setText, (e x).1, next_setKind]
  · intro x; rw [prev_setText, (e x).2, prev_setKind]

theorem mem_incoming {n : Ptr} {ms : List Ptr} {m : Ptr} :
    m ∈ incoming n ms ↔ m ∈ ms ∧ m ≠ none ∧ m ≠ n := by
  simp [incoming]

theorem text_setKind_fun (h : Heap) (n k) : (h.setKind n k).text = h.text := by funext p; simp

/-- `CombineNext` on a node `a`: its kind becomes `k`, its text is followed by the texts of the incoming nodes
in order, those nodes are isolated. -/
theorem C30_combineNext {h : Heap} (w : WF h) {a : Addr} (ha : a < h.size) (k : Kind) (ms : List Ptr)
    (hv : ∀ m ∈ ms, Valid h m) :
    ∃ h', h.combineNext (some a) k ms = some (h', some a) ∧
      Combined h h' (some a) (h.text (some a) ++ ((incoming (some a) ms).map h.text).flatten)
        (fun p => if p = some a then k else h.kind p) (incoming (some a) ms) := by
  have hk : (h.setKind (some a) k).kind = fun p => if p = some a then k else h.kind p := by
    funext p; exact kind_setKind h a k p ha
  rw [← hk]
  rcases ms with _ | ⟨m, ms⟩
  · refine ⟨_, rfl, ?_, ?_, ?_, ?_, ?_, ?_⟩
    · simp
    · simp
    · simp
    · intro p; by_cases hp : p = some a <;> simp [hp, incoming]
    · simp [incoming]
    · simp [incoming]
  · refine ⟨_, ?_, combined_of w ha _ (n := some a) (k := k) (fun m' hm => hv m' (mem_incoming.1 hm).1)
      (fun m' hm => (mem_incoming.1 hm).2.1)⟩
    simp only [combineNext, combineLoop_eq, incoming_eq, text_setKind_fun]
    simp

/-- `CombinePrev` on a node `a`: as `CombineNext`, texts in reverse order in front. -/
theorem C30_combinePrev {h : Heap} (w : WF h) {a : Addr} (ha : a < h.size) (k : Kind) (ms : List Ptr)
    (hv : ∀ m ∈ ms, Valid h m) :
    ∃ h', h.combinePrev (some a) k ms = some (h', some a) ∧
      Combined h h' (some a) (((incoming (some a) ms).reverse.map h.text).flatten ++ h.text (some a))
        (fun p => if p = some a then k else h.kind p) (incoming (some a) ms) := by
  have hk : (h.setKind (some a) k).kind = fun p => if p = some a then k else h.kind p := by
    funext p; exact kind_setKind h a k p ha
  rw [← hk]
  rcases ms with _ | ⟨m, ms⟩
  · refine ⟨_, rfl, ?_, ?_, ?_, ?_, ?_, ?_⟩
    · simp
    · simp
    · simp
    · intro p; by_cases hp : p = some a <;> simp [hp, incoming]
    · simp [incoming]
    · simp [incoming]
  · refine ⟨_, ?_, combined_of w ha _ (n := some a) (k := k) (fun m' hm => hv m' (mem_incoming.1 hm).1)
      (fun m' hm => (mem_incoming.1 hm).2.1)⟩
    simp only [combinePrev, combineLoop_eq, incoming_eq, text_setKind_fun]
    simp

/-- On a nil receiver the first argument takes its place, keeping its kind. -/
theorem C30_combineNext_nil {h : Heap} (w : WF h) {a : Addr} (ha : a < h.size) (k : Kind) (ms : List Ptr)
    (hv : ∀ m ∈ ms, Valid h m) :
    ∃ h', h.combineNext none k (some a :: ms) = some (h', some a) ∧
      Combined h h' (some a) (h.text (some a) ++ ((incoming (some a) ms).map h.text).flatten)
        h.kind (incoming (some a) ms) := by
  refine ⟨_, ?_, combined_of w ha _ (n := none) (k := k) (fun m' hm => hv m' (mem_incoming.1 hm).1)
    (fun m' hm => (mem_incoming.1 hm).2.1)⟩
  simp only [combineNext, combineLoop_eq, incoming_eq, text_setKind_fun]
  simp [setKind]

/-- The same for `CombinePrev`. -/
theorem C30_combinePrev_nil {h : Heap} (w : WF h) {a : Addr} (ha : a < h.size) (k : Kind) (ms : List Ptr)
    (hv : ∀ m ∈ ms, Valid h m) :
    ∃ h', h.combinePrev none k (some a :: ms) = some (h', some a) ∧
      Combined h h' (some a) (((incoming (some a) ms).reverse.map h.text).flatten ++ h.text (some a))
        h.kind (incoming (some a) ms) := by
  refine ⟨_, ?_, combined_of w ha _ (n := none) (k := k) (fun m' hm => hv m' (mem_incoming.1 hm).1)
    (fun m' hm => (mem_incoming.1 hm).2.1)⟩
  simp only [combinePrev, combineLoop_eq, incoming_eq, text_setKind_fun]
  simp [setKind]

/-- The only panic: receiver and first argument both nil. -/
theorem C30_panics_iff (h : Heap) (n : Ptr) (k : Kind) (ms : List Ptr) :
    (h.combineNext n k ms = none ↔ n = none ∧ ms.head? = some none) ∧
    (h.combinePrev n k ms = none ↔ n = none ∧ ms.head? = some none) := by
  rcases ms with _ | ⟨m, ms⟩
  · simp [combineNext, combinePrev]
  · rcases n with _ | a
    · rcases m with _ | b <;> simp [combineNext, combinePrev]
    · simp [combineNext, combinePrev]

example : ((demo.combineNext (some 0) .raw [some 3, none, some 0, some 2]).map fun r =>
    (r.1.text (some 0), r.1.kind (some 0), r.2)) = some (b!"ad\nc", .raw, some 0) := by decide +kernel
example : ((demo.combinePrev (some 0) .raw [some 3, none, some 0, some 2]).map fun r =>
    r.1.text (some 0)) = some b!"cd\na" := by decide +kernel
example : demo.combineNext none .raw [none, some 1] = none := by decide +kernel

/-! ## C31 -/

/-- `Copy(true)` of a node of a finite chain: a chain of fresh nodes with the same data in the same order, at the
same position; every old node is as it was. -/
theorem C31_copy_chain {h : Heap} (w : WF h) {l₁ l₂ : List Addr} {a : Addr} (c : Chain h (l₁ ++ a :: l₂)) :
    ∃ h' c₁ a' c₂, h.copy (some a) true = some (h', some a') ∧ Chain h' (c₁ ++ a' :: c₂) ∧
      c₁.map (data h') = l₁.map (data h) ∧ data h' a' = data h a ∧ c₂.map (data h') = l₂.map (data h) ∧
      (∀ x ∈ c₁ ++ a' :: c₂, h.size ≤ x) ∧ Extends h h' ∧ WF h' := by
  have f : Fwd h (some a) (a :: l₂) := Fwd.drop l₁ c.fwd
  have b : Bwd h (some a) (a :: l₁.reverse) := by
    have s := Chain.seg.1 c
    clear f c
    have gen : ∀ (l₁ : List Addr) (a : Addr) (l₂ : List Addr), Seg h none (l₁ ++ a :: l₂) none →
        Bwd h (some a) (a :: l₁.reverse) := by
      intro l₁
      induction hn : l₁.length generalizing l₁ with
      | zero =>
        intro a l₂ s
        cases List.length_eq_zero_iff.1 hn
        exact .cons s.1 (by have := s.2.1; rw [this]; exact .nil)
      | succ k ih =>
        intro a l₂ s
        rcases List.eq_nil_or_concat l₁ with rfl | ⟨m, b, rfl⟩
        · simp at hn
        · simp only [List.concat_eq_append] at *
          have s2 := ((Seg.append (m ++ [b])).1 s).2
          have := ih m (by simp at hn; omega) b (a :: l₂) (by simpa using s)
          refine .cons s2.1 ?_
          have e := s2.2.1
          simp only [List.getLast?_append, List.getLast?_singleton, Option.some_or] at e
          rw [e]
          simpa using this
    exact gen l₁ a l₂ s
  have e := copy_eq h b f
  have ch := (chain_copyCells w a l₁.reverse l₂).1
  have dat : ∀ (i : Nat) (r : NodeRec), (copyCells h h.size a l₁.reverse l₂)[i]? = some r →
      data (h.extend (copyCells h h.size a l₁.reverse l₂)) (h.size + i) = (r.line, r.kind, r.text) := by
    intro i r hr
    have := line_extend_ge (h := h) hr
    simp only [data, this.1, this.2.1, this.2.2]
  refine ⟨_, (List.range' (h.size + 1) l₁.length).reverse, h.size, List.range' (h.size + 1 + l₁.length) l₂.length,
    e, ?_, ?_, ?_, ?_, ?_, extends_extend h _, wf_extend_copyCells w a _ _⟩
  · simpa [copyAddrs] using ch
  · have key : (List.range' (h.size + 1) l₁.length).map
        (data (h.extend (copyCells h h.size a l₁.reverse l₂))) = l₁.reverse.map (data h) := by
      rw [show l₁.length = l₁.reverse.length by simp]
      generalize l₁.reverse = lb at dat
      refine List.ext_getElem (by simp) ?_
      intro i h1 h2
      simp only [List.length_map, List.length_range'] at h1 h2
      simp only [List.getElem_map, List.getElem_range', Nat.one_mul]
      have : (copyCells h h.size a lb l₂)[1 + i]? = some (copyCell h lb[i]
          (if i + 1 = lb.length then none else some (h.size + 1 + i + 1))
          (if i = 0 then some h.size else some (h.size + 1 + i - 1))) := by
        simp only [copyCells]
        rw [Nat.add_comm 1 i, List.getElem?_cons_succ, List.getElem?_append_left (by simpa using h1),
          getElem?_backCells h lb _ _ i lb[i] (List.getElem?_eq_getElem h1)]
      have := dat _ _ this
      rw [Nat.add_assoc, this]
      rfl
    rw [List.map_reverse, key, ← List.map_reverse, List.reverse_reverse]
  · exact dat 0 _ rfl
  · refine List.ext_getElem (by simp) ?_
    intro i h1 h2
    simp only [List.getElem_map, List.getElem_range', Nat.one_mul]
    simp only [List.length_map, List.length_range'] at h1 h2
    have : (copyCells h h.size a l₁.reverse l₂)[1 + l₁.length + i]? = some (copyCell h l₂[i]
        (if i = 0 then some h.size else some (h.size + 1 + l₁.reverse.length + i - 1))
        (if i + 1 = l₂.length then none else some (h.size + 1 + l₁.reverse.length + i + 1))) := by
      simp only [copyCells]
      rw [show 1 + l₁.length + i = (l₁.length + i) + 1 by omega, List.getElem?_cons_succ,
        List.getElem?_append_right (by simp), length_backCells]
      simp only [List.length_reverse, Nat.add_sub_cancel_left]
      rw [getElem?_fwdCells h l₂ _ _ i l₂[i] (List.getElem?_eq_getElem h2)]
    have := dat _ _ this
    rw [show h.size + 1 + l₁.length + i = h.size + (1 + l₁.length + i) by omega, this]
    rfl
  · intro x hx
    simp only [List.mem_append, List.mem_reverse, List.mem_range'_1, List.mem_cons] at hx
    omega

/-- `Copy(true)` returns exactly when the node lies on a finite chain. -/
theorem C31_copy_terminates_iff {h : Heap} (w : WF h) (a : Addr) (ha : a < h.size) :
    h.copy (some a) true ≠ none ↔ ∃ l, Chain h l ∧ a ∈ l := by
  constructor
  · intro hh
    cases hc : h.copy (some a) true with
    | none => exact absurd hc hh
    | some r =>
      obtain ⟨lb, lf, hb, hf⟩ := lists_of_copy h w a ha r hc
      exact ⟨_, chain_of_lists w hb hf, by simp⟩
  · rintro ⟨l, c, hl⟩
    obtain ⟨l₁, l₂, rfl⟩ := List.append_of_mem hl
    obtain ⟨h', _, a', _, e, _⟩ := C31_copy_chain w c
    rw [e]; simp

/-- `Copy()`: one fresh unlinked node with the same data; nothing else changes. -/
theorem C31_copy_single {h : Heap} (a : Addr) :
    ∃ h', h.copy (some a) false = some (h', some h.size) ∧ h'.size = h.size + 1 ∧ Extends h h' ∧
      data h' h.size = data h a ∧ h'.next (some h.size) = none ∧ h'.prev (some h.size) = none := by
  refine ⟨_, copy_single h a, by simp, extends_extend h _, ?_, ?_, ?_⟩
  · have := @line_extend_ge h [copyCell h a none none] 0 _ rfl
    simp only [Nat.add_zero] at this
    simp only [data, this.1, this.2.1, this.2.2]
    rfl
  · rw [next_extend_unlinked (by simp [copyCell]), next_of_ge (Nat.le_refl _)]
  · rw [prev_extend_unlinked (by simp [copyCell]), prev_of_ge (Nat.le_refl _)]

example : ((demo.copy (some 1) true).map fun r => (r.2, r.1.next r.2, r.1.prev r.2)) =
    some (some 5, some 7, some 6) := by decide +kernel

/-! ## C32 -/

/-- `IterNext` on a chain that is finite from `p` on, with any callback: the callback sees exactly the nodes of the
chain in order until it returns false; the result is the node it stopped at, or nil. -/
theorem C32_iterNext {σ : Type} (h : Heap) (fn : σ → Addr → σ × Bool) {p : Ptr} {l : List Addr}
    (f : Fwd h p l) (s : σ) : h.iterNext fn s p = some (walk fn s l) := iterNext_eq h fn f s

/-- The same for `IterPrev`. -/
theorem C32_iterPrev {σ : Type} (h : Heap) (fn : σ → Addr → σ × Bool) {p : Ptr} {l : List Addr}
    (f : Bwd h p l) (s : σ) : h.iterPrev fn s p = some (walk fn s l) := iterPrev_eq h fn f s

/-- A callback that never stops sees every node exactly once, in order, and `IterNext` returns nil. -/
theorem C32_iterNext_all (h : Heap) {p : Ptr} {l : List Addr} (f : Fwd h p l) :
    h.iterNext (fun (seen : List Addr) a => (seen ++ [a], true)) [] p = some (l, none) ∧ l.Nodup := by
  refine ⟨?_, f.nodup⟩
  rw [C32_iterNext h _ f]
  have : ∀ (l s : List Addr), walk (fun (seen : List Addr) a => (seen ++ [a], true)) s l = (s ++ l, none) := by
    intro l
    induction l with
    | nil => intro s; simp [walk]
    | cons a l ih => intro s; simp [walk, ih]
  rw [this]; simp

/-- If iteration with a callback that never stops returns at all, the chain was finite. -/
theorem C32_iterNext_returns {σ : Type} (h : Heap) (w : WF h) (fn : σ → Addr → σ × Bool) (s : σ) (p : Ptr)
    (v : Valid h p) (hf : ∀ s a, (fn s a).2 = true) (r) (e : h.iterNext fn s p = some r) :
    ∃ l, Fwd h p l := fwd_of_loop h w fn hf _ s p r v e

/-- `First` and `Last` return the two ends of the chain. -/
theorem C32_first_last {h : Heap} {l₁ l₂ : List Addr} {a : Addr} (w : WF h)
    (c : Chain h (l₁ ++ a :: l₂)) :
    h.first (some a) = some (l₁ ++ a :: l₂).head? ∧ h.last (some a) = some (l₁ ++ a :: l₂).getLast? := by
  obtain ⟨lf, f⟩ : ∃ lf, Fwd h (some a) (a :: lf) := ⟨_, Fwd.drop l₁ c.fwd⟩
  have f' : Fwd h (some a) (a :: l₂) := Fwd.drop l₁ c.fwd
  constructor
  · have key : ∀ (n : Nat) (l₁ : List Addr) (a : Addr) (l₂ : List Addr), l₁.length = n →
        Chain h (l₁ ++ a :: l₂) → Bwd h (some a) (a :: l₁.reverse) := by
      intro n
      induction n with
      | zero =>
        intro l₁ a l₂ hl c
        cases List.length_eq_zero_iff.1 hl
        refine .cons (c.1 a (by simp)) ?_
        rw [c.2.1 a rfl]; exact .nil
      | succ n ih =>
        intro l₁ a l₂ hl c
        rcases List.eq_nil_or_concat l₁ with rfl | ⟨m, b, rfl⟩
        · simp at hl
        · rw [List.concat_eq_append] at *
          have hb := ih m b (a :: l₂) (by simp at hl; omega) (by simpa using c)
          refine .cons (c.1 a (by simp)) ?_
          rw [(c.2.2.2 m b a l₂ (by simp)).2]
          simpa using hb
    rw [first_eq h (key _ l₁ a l₂ rfl c)]
    cases l₁ with
    | nil => rfl
    | cons b l₁ => simp [List.getLast?_append, List.getLast?_cons]
  · rw [last_eq h f', List.getLast?_append]
    simp [List.getLast?_cons]

example : Fwd demo (some 0) [0, 1, 2] := by
  have : Chain demo [0, 1, 2] := by rw [Chain.seg]; decide +kernel
  exact this.fwd
example : demo.first (some 1) = some (some 0) ∧ demo.last (some 1) = some (some 2) := by decide +kernel

/-! ## C33 -/

/-- `NewNodes(L, t, ts...)`: a chain of fresh nodes, one per text, in order, with the kind of their text.  The line
of the first is `L`; the line of node `i + 1` is `L` plus the newlines in the texts `1 .. i` (the newlines of
the first text do not count).  Old nodes are untouched. -/
theorem C33_newNodes {h : Heap} (w : WF h) (L : Int) (t : Bytes) (ts : List Bytes) :
    ∃ h', h.newNodes L (t :: ts) = (h', some h.size) ∧ Extends h h' ∧ WF h' ∧
      Chain h' (h.size :: List.range' (h.size + 1) ts.length) ∧
      data h' h.size = (L, Kind.new t, t) ∧
      ∀ i t', ts[i]? = some t' →
        data h' (h.size + 1 + i) = (L + (ts.take i).flatten.count 10, Kind.new t', t') := by
  have w1 := wf_newNode w L t []
  have e := newNode_eq h L t []
  have hsz : (h.newNode L t []).1.size = h.size + 1 := by rw [e]; simp
  have hadr : (h.newNode L t []).2 = h.size := by rw [e]
  have post := newNodesLoop_post ts (h.newNode L t []).1 (h.newNode L t []).2 L w1 (by omega) (by
    rw [e]
    show (h.extend _).next (some h.size) = none
    rw [next_extend_unlinked (by simp), next_of_ge (Nat.le_refl _)])
  simp only [newNodes, hadr]
  rw [hadr] at post
  generalize newNodesLoop _ _ _ _ = h' at post
  have ex := extends_extend h [⟨L, ([] : List Kind).headD (Kind.new t), t, none, none⟩]
  refine ⟨h', rfl, ⟨by rw [post.size]; omega, ?_⟩, post.wf, ?_, ?_, ?_⟩
  · intro x hx
    have d := post.data_old x (by omega)
    rw [post.next_old x (by omega) (by omega), post.prev_old x (by omega)]
    simp only [data, d]
    rw [e]
    exact ex.2 x hx
  · have f := post.fwd
    rw [hsz] at f
    refine Fwd.chain post.wf f ?_
    show h'.prev (some h.size) = none
    rw [post.prev_old h.size (by omega), e]
    show (h.extend _).prev (some h.size) = none
    rw [prev_extend_unlinked (by simp), prev_of_ge (Nat.le_refl _)]
  · have d := post.data_old h.size (by omega)
    have := @line_extend_ge h [⟨L, ([] : List Kind).headD (Kind.new t), t, none, none⟩] 0 _ rfl
    rw [Nat.add_zero] at this
    simp only [data, d]
    rw [e]
    simp only [this]
    rfl
  · intro i t' hi
    have d := post.data_new i t' hi
    rw [hsz] at d
    simp only [data, d]
    rfl

/-- No texts: nil. -/
theorem C33_newNodes_empty (h : Heap) (L : Int) : h.newNodes L [] = (h, none) := rfl

example : (data demo 3, data demo 4) = ((5, Kind.new b!"d\n", b!"d\n"), (5, Kind.new b!"e", b!"e")) := by
  decide +kernel
example : data (Heap.empty.newNodes 5 [b!"d", b!"e\n", b!"f"]).1 2 = (6, Kind.new b!"f", b!"f") := by
  decide +kernel

/-! ## C34 -/

/-- Observers, setters and one-argument operations on nil. -/
theorem C34_nil (h : Heap) (k : Kind) (t : Bytes) (b : Bool) :
    h.next none = none ∧ h.prev none = none ∧ h.line none = -2 ∧ h.kind none = .none ∧ h.text none = [] ∧
    h.setKind none k = h ∧ h.setText none t = h ∧
    h.takeNext none = (h, none) ∧ h.takePrev none = (h, none) ∧
    h.removeNext none = (h, none) ∧ h.removePrev none = (h, none) ∧ h.isolate none = h ∧
    h.copy none b = some (h, none) ∧ h.first none = some none ∧ h.last none = some none ∧
    (∀ {σ : Type} (fn : σ → Addr → σ × Bool) (s : σ), h.iterNext fn s none = some (s, none) ∧
      h.iterPrev fn s none = some (s, none)) := by
  refine ⟨rfl, rfl, rfl, rfl, rfl, rfl, rfl, rfl, rfl, rfl, rfl, rfl, rfl, ?_, ?_, ?_⟩
  · exact first_eq h .nil
  · exact last_eq h .nil
  · intro σ fn s
    exact ⟨iterNext_eq h fn .nil s, iterPrev_eq h fn .nil s⟩

/-- Link operations on a nil receiver: `Insert` isolates the argument, `ReplaceNext` cuts it from what precedes it,
`ReplacePrev` from what follows it; the data of all nodes and all other links stay. -/
theorem C34_nil_receiver {h : Heap} (w : WF h) {m : Ptr} (hm : Valid h m) (h0 : m ≠ none) :
    (SameData h (h.insertNext none m).1 ∧ SameData h (h.insertPrev none m).1 ∧
      SameData h (h.replaceNext none m).1 ∧ SameData h (h.replacePrev none m).1) ∧
    ∀ x : Addr,
      (h.insertNext none m).1.next (some x) = (h.isolate m).next (some x) ∧
      (h.insertNext none m).1.prev (some x) = (h.isolate m).prev (some x) ∧
      (h.insertPrev none m).1.next (some x) = (h.isolate m).next (some x) ∧
      (h.insertPrev none m).1.prev (some x) = (h.isolate m).prev (some x) ∧
      (h.replaceNext none m).1.next (some x) = (h.removePrev m).1.next (some x) ∧
      (h.replaceNext none m).1.prev (some x) = (h.removePrev m).1.prev (some x) ∧
      (h.replacePrev none m).1.next (some x) = (h.removeNext m).1.next (some x) ∧
      (h.replacePrev none m).1.prev (some x) = (h.removeNext m).1.prev (some x) := by
  refine ⟨⟨sameData_insertNext .., sameData_insertPrev .., sameData_replaceNext .., sameData_replacePrev ..⟩, ?_⟩
  intro x
  have v0 := Valid.none h
  have e1 := insertNext_links w v0 hm (Ne.symm h0) (by rw [next_none]; exact Ne.symm h0) x
  have e2 := insertPrev_links w v0 hm (Ne.symm h0) (by rw [prev_none]; exact Ne.symm h0) x
  have e3 := replaceNext_links w v0 hm (Ne.symm h0) (by rw [next_none]; exact Ne.symm h0) x
  have e4 := replacePrev_links w v0 hm (Ne.symm h0) (by rw [prev_none]; exact Ne.symm h0) x
  have e5 := isolate_links w hm x
  have e6 := removeNext_links w hm x
  have e7 := removePrev_links w hm x
  rw [e1.1, e1.2, e2.1, e2.2, e3.1, e3.2, e4.1, e4.2, e5.1, e5.2, e6.1, e6.2, e7.1, e7.2]
  simp only [next_none, prev_none, reduceCtorEq, if_false]
  by_cases c1 : some x = m <;> simp [c1]

/-- A nil argument to `Insert`/`Replace` cuts the receiver's link on that side. -/
theorem C34_nil_argument {h : Heap} (w : WF h) {n : Ptr} (hn : Valid h n) (x : Addr) :
    ((h.insertNext n none).1.next (some x) = (h.removeNext n).1.next (some x) ∧
      (h.insertNext n none).1.prev (some x) = (h.removeNext n).1.prev (some x)) ∧
    ((h.replaceNext n none).1.next (some x) = (h.removeNext n).1.next (some x) ∧
      (h.replaceNext n none).1.prev (some x) = (h.removeNext n).1.prev (some x)) ∧
    ((h.insertPrev n none).1.next (some x) = (h.removePrev n).1.next (some x) ∧
      (h.insertPrev n none).1.prev (some x) = (h.removePrev n).1.prev (some x)) ∧
    ((h.replacePrev n none).1.next (some x) = (h.removePrev n).1.next (some x) ∧
      (h.replacePrev n none).1.prev (some x) = (h.removePrev n).1.prev (some x)) := by
  have v0 := Valid.none h
  have e6 := removeNext_links w hn x
  have e7 := removePrev_links w hn x
  rw [e6.1, e6.2, e7.1, e7.2]
  have a : ((h.insertNext n none).1.next (some x) = if some x = n then none else h.next (some x)) ∧
      ((h.insertNext n none).1.prev (some x) = if some x = h.next n then none else h.prev (some x)) ∧
      ((h.replaceNext n none).1.next (some x) = if some x = n then none else h.next (some x)) ∧
      ((h.replaceNext n none).1.prev (some x) = if some x = h.next n then none else h.prev (some x)) := by
    by_cases c : n = none ∨ h.next n = none
    · have : insertNext h n none = (h, none, none) := by simp only [insertNext, c, if_true]
      rw [this]
      have : replaceNext h n none = (h, none, none) := by simp only [replaceNext, c, if_true]
      rw [this]
      have h1 : h.next n = none := by rcases c with rfl | c; rfl; exact c
      rw [h1]
      simp only [reduceCtorEq, if_false]
      by_cases hx : some x = n
      · subst hx; simp [h1]
      · simp [hx]
    · have e1 := insertNext_links w hn v0 (fun hh => c (.inl hh)) (fun hh => c (.inr hh)) x
      have e2 := replaceNext_links w hn v0 (fun hh => c (.inl hh)) (fun hh => c (.inr hh)) x
      rw [e1.1, e1.2, e2.1, e2.2]
      simp
  have b : ((h.insertPrev n none).1.prev (some x) = if some x = n then none else h.prev (some x)) ∧
      ((h.insertPrev n none).1.next (some x) = if some x = h.prev n then none else h.next (some x)) ∧
      ((h.replacePrev n none).1.prev (some x) = if some x = n then none else h.prev (some x)) ∧
      ((h.replacePrev n none).1.next (some x) = if some x = h.prev n then none else h.next (some x)) := by
    by_cases c : n = none ∨ h.prev n = none
    · have : insertPrev h n none = (h, none, none) := by simp only [insertPrev, c, if_true]
      rw [this]
      have : replacePrev h n none = (h, none, none) := by simp only [replacePrev, c, if_true]
      rw [this]
      have h1 : h.prev n = none := by rcases c with rfl | c; rfl; exact c
      rw [h1]
      simp only [reduceCtorEq, if_false]
      by_cases hx : some x = n
      · subst hx; simp [h1]
      · simp [hx]
    · have e1 := insertPrev_links w hn v0 (fun hh => c (.inl hh)) (fun hh => c (.inr hh)) x
      have e2 := replacePrev_links w hn v0 (fun hh => c (.inl hh)) (fun hh => c (.inr hh)) x
      rw [e1.1, e1.2, e2.1, e2.2]
      simp
  exact ⟨⟨a.1, a.2.1⟩, ⟨a.2.2.1, a.2.2.2⟩, ⟨b.2.1, b.1⟩, ⟨b.2.2.2, b.2.2.1⟩⟩

/-! ## C35 -/

/-- Any history without `Replace*` keeps every chain finite, in both directions. -/
theorem C35_acyclic {h : Heap} (r : Run (fun op => ¬ op.isReplace) Heap.empty h) :
    ∀ a, a < h.size → (∃ l, Fwd h (some a) l) ∧ (∃ l, Bwd h (some a) l) := by
  have : WF h ∧ Acyclic h := by
    induction r with
    | refl => exact ⟨wf_empty, Ranked.fwd wf_empty ranked_empty⟩
    | step op _ nr v e ih => exact ⟨wf_apply ih.1 op v e, acyclic_apply ih.1 ih.2 op nr v e⟩
  intro a ha
  exact ⟨this.2 a ha, this.2.bwd this.1 a ha⟩

/-- The same from any consistent heap without cycles. -/
theorem C35_acyclic_preserved {h h' : Heap} (w : WF h) (ac : Acyclic h)
    (r : Run (fun op => ¬ op.isReplace) h h') : Acyclic h' := by
  have : WF h' ∧ Acyclic h' := by
    induction r with
    | refl => exact ⟨w, ac⟩
    | step op _ nr v e ih => exact ⟨wf_apply ih.1 op v e, acyclic_apply ih.1 ih.2 op nr v e⟩
  exact this.2

/-- `n.ReplaceNext(m)` in a heap without cycles: a cycle is closed exactly when `n` is reachable from `m`. -/
theorem C35_replaceNext_cycle_iff {h : Heap} (w : WF h) (ac : Acyclic h) {n m : Addr} (hn : n < h.size)
    (hm : m < h.size) (h1 : m ≠ n) (h2 : some m ≠ h.next (some n)) :
    Acyclic (h.replaceNext (some n) (some m)).1 ↔ ¬ Reach h m n := by
  have w' := wf_replaceNext w (valid_some hn) (valid_some hm)
  rw [acyclic_iff_ranked w']
  exact ranked_replaceNext w (ac.ranked w) (valid_some hn) (valid_some hm) (Ne.symm h1) (Ne.symm h2)

/-- With a nil argument or receiver no cycle can arise. -/
theorem C35_replaceNext_nil {h : Heap} (w : WF h) (ac : Acyclic h) {n m : Ptr} (hn : Valid h n)
    (hm : Valid h m) (h0 : n = none ∨ m = none) : Acyclic (h.replaceNext n m).1 :=
  Ranked.fwd (wf_replaceNext w hn hm) ((ac.ranked w).of_sub (next_replaceNext_none w hn hm h0))

/-- `n.ReplacePrev(m)`: a cycle is closed exactly when `m` is reachable from `n`. -/
theorem C35_replacePrev_cycle_iff {h : Heap} (w : WF h) (ac : Acyclic h) {n m : Addr} (hn : n < h.size)
    (hm : m < h.size) (h1 : m ≠ n) (h2 : some m ≠ h.prev (some n)) :
    Acyclic (h.replacePrev (some n) (some m)).1 ↔ ¬ Reach h n m := by
  have w' := wf_replacePrev w (valid_some hn) (valid_some hm)
  have h2' : some n ≠ h.next (some m) := fun hh => h2 ((w.inverse m n).1 hh.symm).symm
  rw [← C35_replaceNext_cycle_iff w ac hm hn (Ne.symm h1) h2']
  have e1 := replaceNext_links w (valid_some hm) (valid_some hn) (by simpa using h1) (Ne.symm h2')
  have e2 := replacePrev_links w (valid_some hn) (valid_some hm) (by simpa using Ne.symm h1) (Ne.symm h2)
  have wn := wf_replaceNext w (valid_some hm) (valid_some hn)
  rw [acyclic_iff_ranked w', acyclic_iff_ranked wn]
  have : ∀ x : Addr, (h.replacePrev (some n) (some m)).1.next (some x) =
      (h.replaceNext (some m) (some n)).1.next (some x) := by
    intro x; rw [(e1 x).1, (e2 x).2]
  constructor
  · rintro ⟨f, hf⟩; exact ⟨f, fun a b hab => hf a b (by rw [this]; exact hab)⟩
  · rintro ⟨f, hf⟩; exact ⟨f, fun a b hab => hf a b (by rw [← this]; exact hab)⟩

/-- A cycle is really reachable: after `c.ReplaceNext(a)` on the chain a, b, c, iteration from `a` never ends. -/
theorem C35_cycle_exists : ∃ h : Heap, Run (fun _ => True) Heap.empty h ∧ ¬ Acyclic h := by
  refine ⟨(demo.replaceNext (some 2) (some 0)).1, ?_, ?_⟩
  · refine .step (.replaceNext (some 2) (some 0)) ?_ trivial ?_ rfl
    · have : ∀ {P : Op → Prop} {h h' : Heap}, Run P h h' → Run (fun _ => True) h h' := by
        intro P h h' r
        induction r with
        | refl => exact .refl
        | step op _ _ v e ih => exact .step op ih trivial v e
      exact this demo_run
    · intro p hp
      simp only [Op.args, List.mem_cons, List.not_mem_nil, or_false] at hp
      rcases hp with rfl | rfl
      · exact valid_some (by decide +kernel)
      · exact valid_some (by decide +kernel)
  · have ac : Acyclic demo := fun a ha => (C35_acyclic demo_run a ha).1
    rw [C35_replaceNext_cycle_iff demo_wf ac (by decide +kernel) (by decide +kernel) (by decide)
      (by decide +kernel)]
    simp only [Classical.not_not]
    exact .step (b := 1) (by decide +kernel) (.step (b := 2) (by decide +kernel) (.refl _))

end Goast
