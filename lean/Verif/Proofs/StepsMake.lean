import Verif.Proofs.StepsExec
import Verif.Proofs.History

/-! # Proofs: the single steps of the calls that make nodes, and of those that iterate -/

set_option linter.unusedSimpArgs false
set_option linter.unusedVariables false

namespace Goast

variable {α β : Type} {s : Nat} {h : Heap}

/-! ## Iteration -/

theorem does_loop {σ : Type} {iterC : Ptr → Code Ptr} {iter : Nat → Ptr} {fnC : σ → Ptr → Code (σ × Bool)} {fn : σ → Nat → σ × Bool} (g : SoundLinks s h)
    (hi : ∀ a, a < s → Does s h (iterC (some a)) h (iter a)) (hp : ∀ a, PIn s (iter a))
    (hf : ∀ x a, a < s → Does s h (fnC x (some a)) h (fn x a)) :
    ∀ (fuel : Nat) (x : σ) (n : Ptr), PIn s n → ∀ r, loop (fun _ a => iter a) (fun x a => some (fn x a)) fuel x n = some r →
      Does s h (Code.loop iterC fnC fuel x n) h r
  | _, x, none, _, r, e => by
    unfold loop at e; unfold Code.loop
    cases e; exact does_pure g _
  | 0, x, some a, _, r, e => by simp [loop] at e
  | fuel + 1, x, some a, hn, r, e => by
    unfold Code.loop
    simp only [loop] at e
    have ha := hn a rfl
    refine Does.bind (hf x a ha) ?_
    rcases hb : fn x a with ⟨x', b⟩
    rw [hb] at e
    cases b with
    | false => simp at e; subst e; exact does_pure g _
    | true =>
      simp only [if_true] at e ⊢
      exact Does.bind (hi a ha) (does_loop g hi hp hf fuel x' (iter a) (hp a) r e)

theorem does_iterNext {σ : Type} {fnC : σ → Ptr → Code (σ × Bool)} {fn : σ → Nat → σ × Bool} (g : SoundLinks s h)
    (hf : ∀ x a, a < s → Does s h (fnC x (some a)) h (fn x a)) {x : σ} {n : Ptr} (hn : PIn s n) {r : σ × Ptr} (e : h.iterNext fn x n = some r) :
    Does s h (Code.iterNext (s + 1) fnC x n) h r := by
  have hs := g.size
  subst hs
  exact does_loop (iter := fun a => h.next (some a)) g (fun a ha => does_next g (fun b hb => by cases hb; exact ha)) (fun a => g.pNext _) hf _ _ _ hn _ e

theorem does_iterPrev {σ : Type} {fnC : σ → Ptr → Code (σ × Bool)} {fn : σ → Nat → σ × Bool} (g : SoundLinks s h)
    (hf : ∀ x a, a < s → Does s h (fnC x (some a)) h (fn x a)) {x : σ} {n : Ptr} (hn : PIn s n) {r : σ × Ptr} (e : h.iterPrev fn x n = some r) :
    Does s h (Code.iterPrev (s + 1) fnC x n) h r := by
  have hs := g.size
  subst hs
  exact does_loop (iter := fun a => h.prev (some a)) g (fun a ha => does_prev g (fun b hb => by cases hb; exact ha)) (fun a => g.pPrev _) hf _ _ _ hn _ e

theorem psome {a : Nat} (ha : a < s) : PIn s (some a) := fun b hb => by cases hb; exact ha

theorem does_first (g : SoundLinks s h) {n : Ptr} (hn : PIn s n) {r : Ptr} (e : h.first n = some r) : Does s h (Code.first (s + 1) n) h r := by
  simp only [Heap.first, Option.map_eq_some_iff] at e
  obtain ⟨q, e, rfl⟩ := e
  exact (does_iterPrev g (fun _ a ha => (does_prev g (psome ha)).bind ⟨rfl, g⟩) hn e).bind (does_pure g _)

theorem does_last (g : SoundLinks s h) {n : Ptr} (hn : PIn s n) {r : Ptr} (e : h.last n = some r) : Does s h (Code.last (s + 1) n) h r := by
  simp only [Heap.last, Option.map_eq_some_iff] at e
  obtain ⟨q, e, rfl⟩ := e
  exact (does_iterNext g (fun _ a ha => (does_next g (psome ha)).bind ⟨rfl, g⟩) hn e).bind (does_pure g _)

theorem does_describe (g : SoundLinks s h) {n : Ptr} (hn : PIn s n) : Does s h (Code.describe n) h (h.describe n) := by
  cases n with
  | none => exact does_pure g _
  | some a => exact (does_line g hn).bind ((does_text g hn).bind ((does_kind g hn).bind (does_pure g _)))

theorem does_findKindName (g : SoundLinks s h) {n : Ptr} (hn : PIn s n) (k : Kind) {r : Bytes × Bool} (e : findKindName h n k = some r) :
    Does s h (Code.findKindName (s + 1) n k) h r := by
  simp only [findKindName, Option.map_eq_some_iff] at e
  obtain ⟨q, e, rfl⟩ := e
  exact (does_iterNext g (fun _ a ha => (does_kind g (psome ha)).bind ((does_text g (psome ha)).bind ⟨rfl, g⟩)) hn e).bind (does_pure g _)

theorem does_hasKind (g : SoundLinks s h) {n : Ptr} (hn : PIn s n) (k : Kind) {r : Bool × Ptr}
    (e : h.iterNext (fun (_ : Bool) a => let b := decide (h.kind (some a) = k); (b, !b)) false n = some r) :
    Does s h (Code.hasKind (s + 1) n k) h r.1 :=
  (does_iterNext g (fun _ a ha => (does_kind g (psome ha)).bind ⟨rfl, g⟩) hn e).bind (does_pure g _)

theorem does_getFuncName (g : SoundLinks s h) {d : ScopeRec} (hn : PIn s d.node) {r : Bytes × Bool} (e : d.getFuncName h = some r) :
    Does s h (Code.getFuncName (s + 1) d) h r := by
  unfold ScopeRec.getFuncName at e
  unfold Code.getFuncName
  split at e
  · rename_i hk; rw [if_pos hk]; cases e; exact does_pure g _
  · rename_i hk
    rw [if_neg hk]
    simp only [Option.map_eq_some_iff] at e
    obtain ⟨q, e, rfl⟩ := e
    refine (does_iterNext g (fun x a ha => (does_kind g (psome ha)).bind ?_) hn e).bind (does_pure g _)
    split
    · exact (does_text g (psome ha)).bind (does_pure g _)
    · exact does_pure g _

theorem does_getTypeName (g : SoundLinks s h) {d : ScopeRec} (hn : PIn s d.node) {r : Bytes × Bool} (e : d.getTypeName h = some r) :
    Does s h (Code.getTypeName (s + 1) d) h r := by
  unfold ScopeRec.getTypeName at e
  unfold Code.getTypeName
  split at e
  · rename_i hk; rw [if_pos hk]; cases e; exact does_pure g _
  · rename_i hk; rw [if_neg hk]; exact does_findKindName g hn _ e

theorem does_getStructName (g : SoundLinks s h) {d : ScopeRec} (hn : PIn s d.node) {r : Bytes × Bool} (e : d.getStructName h = some r) :
    Does s h (Code.getStructName (s + 1) d) h r := by
  unfold ScopeRec.getStructName at e
  unfold Code.getStructName
  split at e
  · rename_i hk; rw [if_pos hk]; cases e; exact does_pure g _
  · rename_i hk
    rw [if_neg hk]
    split at e
    · simp at e
    · rename_i b x e1
      simp only [Option.map_eq_some_iff] at e
      obtain ⟨q, e, rfl⟩ := e
      exact (does_hasKind g hn _ e1).bind ((does_getTypeName g hn e).bind (does_pure g _))

theorem does_getInterfaceName (g : SoundLinks s h) {d : ScopeRec} (hn : PIn s d.node) {r : Bytes × Bool} (e : d.getInterfaceName h = some r) :
    Does s h (Code.getInterfaceName (s + 1) d) h r := by
  unfold ScopeRec.getInterfaceName at e
  unfold Code.getInterfaceName
  split at e
  · rename_i hk; rw [if_pos hk]; cases e; exact does_pure g _
  · rename_i hk
    rw [if_neg hk]
    split at e
    · simp at e
    · rename_i b x e1
      simp only [Option.map_eq_some_iff] at e
      obtain ⟨q, e, rfl⟩ := e
      exact (does_hasKind g hn _ e1).bind ((does_getTypeName g hn e).bind (does_pure g _))

theorem does_getMethodReceiver (g : SoundLinks s h) {d : ScopeRec} (hn : PIn s d.node) {r : Bytes × Bool} (e : d.getMethodReceiver h = some r) :
    Does s h (Code.getMethodReceiver (s + 1) d) h r := by
  unfold ScopeRec.getMethodReceiver at e
  unfold Code.getMethodReceiver
  split at e
  · rename_i hk; rw [if_pos hk]; cases e; exact does_pure g _
  · rename_i hk; rw [if_neg hk]; exact does_findKindName g hn _ e

theorem does_getMethodName (g : SoundLinks s h) {d : ScopeRec} (hn : PIn s d.node) {r : Bytes × Bool} (e : d.getMethodName h = some r) :
    Does s h (Code.getMethodName (s + 1) d) h r := by
  unfold ScopeRec.getMethodName at e
  unfold Code.getMethodName
  split at e
  · rename_i hk; rw [if_pos hk]; cases e; exact does_pure g _
  · rename_i hk
    rw [if_neg hk]
    split at e
    · simp at e
    · rename_i t e1
      cases e
      refine (does_getMethodReceiver g hn e1).bind ?_
      simp only [Bool.false_eq_true, if_false]; exact does_pure g _
    · rename_i t e1
      refine (does_getMethodReceiver g hn e1).bind ?_
      simp only [if_true]; exact does_findKindName g hn _ e

/-! ## New nodes -/

theorem sound_alloc (g : SoundLinks s h) {r : NodeRec} (hp : r.prev = none) (hn : r.next = none) : SoundLinks (s + 1) (h.alloc r).1 := by
  have hs := g.size
  refine ⟨by simp [Heap.alloc, Heap.size]; exact hs, fun a b hb => ?_, fun a b hb => ?_⟩
  · simp only [Heap.prev, Heap.alloc, List.getElem?_append] at hb
    split at hb
    · exact Nat.lt_succ_of_lt (g.prev a b (by simpa [Heap.prev] using hb))
    · cases e : [r][a - h.cells.length]? with
      | none => rw [e] at hb; simp at hb
      | some q =>
        rw [e] at hb
        have : q ∈ [r] := List.mem_of_getElem? e
        simp at this; subst this; simp [hp] at hb
  · simp only [Heap.next, Heap.alloc, List.getElem?_append] at hb
    split at hb
    · exact Nat.lt_succ_of_lt (g.next a b (by simpa [Heap.next] using hb))
    · cases e : [r][a - h.cells.length]? with
      | none => rw [e] at hb; simp at hb
      | some q =>
        rw [e] at hb
        have : q ∈ [r] := List.mem_of_getElem? e
        simp at this; subst this; simp [hn] at hb

/-- As `Does`, for code that makes nodes. -/
structure Makes (h : Heap) (p : Code α) (h' : Heap) (x : α) : Prop where
  exec : p.exec h = some (h', x)
  sound : SoundLinks h'.size h'
  le : h.size ≤ h'.size

theorem Makes.bind {h h₁ h₂ : Heap} {p : Code α} {g : α → Code β} {x : α} {y : β} (d : Makes h p h₁ x) (e : Makes h₁ (g x) h₂ y) :
    Makes h (p >>= g) h₂ y :=
  ⟨by rw [exec_bind, d.exec]; exact e.exec, e.sound, Nat.le_trans d.le e.le⟩

theorem Does.makes {h h' : Heap} {p : Code α} {x : α} (d : Does h.size h p h' x) : Makes h p h' x :=
  ⟨d.exec, by rw [d.good.size]; exact d.good, by rw [d.good.size]; exact Nat.le_refl _⟩

theorem makes_alloc (g : SoundLinks h.size h) {r : NodeRec} (hp : r.prev = none) (hn : r.next = none) :
    Makes h (Code.alloc r fun a => .ret (some a) : Code Ptr) (h.alloc r).1 (some (h.alloc r).2) := by
  have := sound_alloc g hp hn
  refine ⟨rfl, by rw [this.size]; exact this, by rw [this.size]; omega⟩

theorem makes_newNode (g : SoundLinks h.size h) (l : Int) (t : Bytes) (ks : List Kind) :
    Makes h (Code.newNode l t ks) (h.newNode l t ks).1 (some (h.newNode l t ks).2) := by
  cases ks <;> exact makes_alloc g rfl rfl

theorem PIn.le {s t : Nat} (h : s ≤ t) {n : Ptr} (hn : PIn s n) : PIn t n := fun a e => Nat.lt_of_lt_of_le (hn a e) h

theorem newNode_lt (h : Heap) (l : Int) (t : Bytes) (ks : List Kind) : PIn (h.newNode l t ks).1.size (some (h.newNode l t ks).2) := by
  intro a e; cases e
  cases ks <;> simp [Heap.newNode, Heap.alloc, Heap.size]

theorem WF.sound (w : WF h) : SoundLinks h.size h :=
  ⟨rfl, fun a b e => w.valid_prev (some a) b e, fun a b e => w.valid_next (some a) b e⟩

theorem makes_newNodesLoop : ∀ (ts : List Bytes) (h : Heap) (w : WF h) (cur : Nat) (sl : Int), cur < h.size →
    Makes h (Code.newNodesLoop (some cur) sl ts) (h.newNodesLoop cur sl ts) ()
  | [], h, w, cur, sl, hc => (does_pure w.sound ()).makes
  | t :: ts, h, w, cur, sl, hc => by
    have g := w.sound
    have a1 := makes_newNode g sl t []
    have h1 : (h.newNode sl t).2 = h.size := by simp [Heap.newNode, Heap.alloc, Heap.size]
    have hc1 : PIn (h.newNode sl t).1.size (some cur) := PIn.le a1.le (psome hc)
    have hm1 := newNode_lt h sl t []
    have a2 := does_insertNext a1.sound hc1 hm1
    have w1 := Heap.wf_newNode w sl t []
    have w2 := Heap.wf_insertNext w1 hc1 hm1
    have hnext : ((h.newNode sl t).1.insertNext (some cur) (some (h.newNode sl t).2)).1.next (some cur) = some (h.newNode sl t).2 := by
      rw [(Heap.insertNext_links w1 hc1 hm1 ?_ ?_ cur).1]
      · simp
      · rw [h1]; simp; omega
      · intro e'
        have : (h.newNode sl t).1.next (some cur) = h.next (some cur) := by
          simp only [Heap.next, Heap.newNode, Heap.alloc]
          rw [List.getElem?_append_left hc]
        rw [this, h1] at e'
        have := g.next _ _ e'
        omega
    have a3 := does_next w2.sound (n := some cur) (by rw [a2.good.size]; exact hc1)
    rw [hnext] at a3
    unfold Code.newNodesLoop Heap.newNodesLoop
    refine a1.bind (a2.makes.bind (a3.makes.bind ?_))
    simp only [hnext]
    exact makes_newNodesLoop ts _ w2 _ _ (by rw [a2.good.size]; exact hm1 _ rfl)

theorem makes_newNodes (w : WF h) (sl : Int) (ts : List Bytes) : Makes h (Code.newNodes sl ts) (h.newNodes sl ts).1 (h.newNodes sl ts).2 := by
  cases ts with
  | nil => exact (does_pure w.sound _).makes
  | cons t ts =>
    have a1 := makes_newNode w.sound sl t []
    have a2 := makes_newNodesLoop ts _ (Heap.wf_newNode w sl t []) _ sl (newNode_lt h sl t [] _ rfl)
    exact a1.bind (a2.bind (does_pure a2.sound _).makes)

theorem put_put (h : Heap) (a : Nat) (p q : Ptr) :
    (h.modify a (·.put .prev p)).modify a (·.put .next q) = h.modify a (fun c => { c with prev := p, next := q }) := by
  simp only [Heap.modify, Heap.mk.injEq]
  apply List.ext_getElem?
  intro i
  simp only [List.getElem?_modify]
  by_cases hi : a = i <;> cases h.cells[i]? <;> simp [hi, NodeRec.put]

/-- As `Makes`, and the result is nil or a node. -/
structure MakesPtr (h : Heap) (p : Code Ptr) (h' : Heap) (x : Ptr) : Prop extends Makes h p h' x where
  res : PIn h'.size x

theorem deepCopy_unfold (fuel : Nat) (h : Heap) (a : Nat) (pre nxt : Ptr) : Heap.deepCopy (fuel + 1) h (some a) pre nxt =
    (if pre = none then Heap.deepCopy fuel (h.alloc { line := h.line (some a), kind := h.kind (some a), text := h.text (some a), prev := none, next := none }).1
        ((h.alloc { line := h.line (some a), kind := h.kind (some a), text := h.text (some a), prev := none, next := none }).1.prev (some a)) none
        (some (h.alloc { line := h.line (some a), kind := h.kind (some a), text := h.text (some a), prev := none, next := none }).2)
      else some ((h.alloc { line := h.line (some a), kind := h.kind (some a), text := h.text (some a), prev := none, next := none }).1, pre)).bind fun q =>
    (if nxt = none then Heap.deepCopy fuel q.1 (q.1.next (some a))
        (some (h.alloc { line := h.line (some a), kind := h.kind (some a), text := h.text (some a), prev := none, next := none }).2) none
      else some (q.1, nxt)).bind fun q' =>
    some (q'.1.modify (h.alloc { line := h.line (some a), kind := h.kind (some a), text := h.text (some a), prev := none, next := none }).2
        (fun c => { c with prev := q.2, next := q'.2 }),
      some (h.alloc { line := h.line (some a), kind := h.kind (some a), text := h.text (some a), prev := none, next := none }).2) := by
  conv => lhs; unfold Heap.deepCopy
  simp only
  generalize h.alloc { line := h.line (some a), kind := h.kind (some a), text := h.text (some a), prev := none, next := none } = H
  cases pre with
  | none =>
    simp only [if_true]
    cases Heap.deepCopy fuel H.1 (H.1.prev (some a)) none (some H.2) with
    | none => rfl
    | some q =>
      cases nxt with
      | none => simp only [Option.bind_some, if_true]; cases Heap.deepCopy fuel q.1 (q.1.next (some a)) (some H.2) none <;> rfl
      | some x => simp
  | some p =>
    cases nxt with
    | none => simp only [Option.bind_some, if_true, reduceCtorEq, if_false]; cases Heap.deepCopy fuel H.1 (H.1.next (some a)) (some H.2) none <;> rfl
    | some x => simp

theorem makes_deepCopy : ∀ (fuel : Nat) (h : Heap) (g : SoundLinks h.size h) (n pre nxt : Ptr), PIn h.size n → PIn h.size pre → PIn h.size nxt →
    ∀ r, Heap.deepCopy fuel h n pre nxt = some r → MakesPtr h (Code.deepCopy fuel n pre nxt) r.1 r.2
  | _, h, g, none, pre, nxt, _, _, _, r, e => by
    unfold Heap.deepCopy at e; unfold Code.deepCopy
    cases e
    exact ⟨(does_pure g _).makes, pnone⟩
  | 0, h, g, some a, pre, nxt, _, _, _, r, e => by simp [Heap.deepCopy] at e
  | fuel + 1, h, g, some a, pre, nxt, hn, hp, hx, r, e => by
    have ha := hn a rfl
    obtain ⟨c, hc⟩ := g.cell ha
    rw [deepCopy_unfold] at e
    unfold Code.deepCopy
    have el : h.line (some a) = c.get .line := by simp [Heap.line, hc, NodeRec.get]
    have ek : h.kind (some a) = c.get .kind := by simp [Heap.kind, hc, NodeRec.get]
    have et : h.text (some a) = c.get .text := by simp [Heap.text, hc, NodeRec.get]
    simp only [el, ek, et] at e
    have a1 := makes_alloc g (r := { line := c.get .line, kind := c.get .kind, text := c.get .text, prev := none, next := none }) rfl rfl
    have hnn : PIn (h.alloc { line := c.get .line, kind := c.get .kind, text := c.get .text, prev := none, next := none }).1.size
        (some (h.alloc { line := c.get .line, kind := c.get .kind, text := c.get .text, prev := none, next := none }).2) := by
      intro b hb; cases hb; simp [Heap.alloc, Heap.size]
    generalize h.alloc { line := c.get .line, kind := c.get .kind, text := c.get .text, prev := none, next := none } = H at *
    suffices k : MakesPtr H.1 _ r.1 r.2 from
      ⟨(exec_load g ha .line hc).makes.bind ((exec_load g ha .kind hc).makes.bind ((exec_load g ha .text hc).makes.bind (a1.bind k.toMakes))), k.res⟩
    have hn1 := hn.le a1.le
    -- the nodes in front
    rw [Option.bind_eq_some_iff] at e
    obtain ⟨⟨h2, pre2⟩, e2, e⟩ := e
    · have a2 : MakesPtr H.1 (if pre = none then (do let p ← Code.prev (some a); Code.deepCopy fuel p none (some H.2)) else pure pre) h2 pre2 := by
        cases pre with
        | none =>
          rw [if_pos rfl] at e2 ⊢
          have d := does_prev a1.sound hn1
          have k := makes_deepCopy fuel H.1 a1.sound (H.1.prev (some a)) none (some H.2) (a1.sound.pPrev _) pnone hnn _ e2
          exact ⟨d.makes.bind k.toMakes, k.res⟩
        | some p =>
          rw [if_neg (by simp)] at e2
          simp only [Option.some.injEq, Prod.mk.injEq] at e2
          obtain ⟨rfl, rfl⟩ := e2
          rw [if_neg (by simp)]
          exact ⟨(does_pure a1.sound _).makes, hp.le a1.le⟩
      have hn2 := hn1.le a2.le
      rw [Option.bind_eq_some_iff] at e
      obtain ⟨⟨h3, nxt3⟩, e3, e⟩ := e
      · have a3 : MakesPtr h2 (if nxt = none then (do let q ← Code.next (some a); Code.deepCopy fuel q (some H.2) none) else pure nxt) h3 nxt3 := by
          cases nxt with
          | none =>
            rw [if_pos rfl] at e3 ⊢
            have d := does_next a2.sound hn2
            have k := makes_deepCopy fuel h2 a2.sound (h2.next (some a)) (some H.2) none (a2.sound.pNext _) (hnn.le a2.le) pnone _ e3
            exact ⟨d.makes.bind k.toMakes, k.res⟩
          | some p =>
            rw [if_neg (by simp)] at e3
            simp only [Option.some.injEq, Prod.mk.injEq] at e3
            obtain ⟨rfl, rfl⟩ := e3
            rw [if_neg (by simp)]
            exact ⟨(does_pure a2.sound _).makes, (hx.le a1.le).le a2.le⟩
        cases e
        have hnn3 := (hnn.le a2.le).le a3.le
        have b1 := does_store (f := .prev) a3.sound (hnn3 _ rfl) (v := pre2) (a2.res.le a3.le)
        have b2 := does_store (f := .next) b1.good (hnn3 _ rfl) (v := nxt3) a3.res
        have b3 := (Does.bind (g := fun _ => Code.store (some H.2) .next nxt3 >>= fun _ => pure (some H.2)) b1 (Does.bind (g := fun _ => pure (some H.2)) b2 (does_pure b2.good (some H.2)))).makes
        rw [put_put] at b3
        exact ⟨a2.toMakes.bind (a3.toMakes.bind b3), by simpa [Heap.size_modify] using hnn3⟩

theorem makes_copy (g : SoundLinks h.size h) {n : Ptr} (hn : PIn h.size n) (b : Bool) {r : Heap × Ptr} (e : h.copy n b = some r) :
    Makes h (Code.copy (h.size + 1) n b) r.1 r.2 := by
  unfold Heap.copy at e
  unfold Code.copy
  cases n with
  | none => simp at e; subst e; rw [if_pos rfl]; exact (does_pure g _).makes
  | some a =>
    rw [if_neg (by simp)]
    simp only at e
    split at e
    · rename_i hb
      rw [if_pos hb]
      exact (makes_deepCopy _ h g _ none none hn pnone pnone r e).toMakes
    · rename_i hb
      rw [if_neg hb]
      cases e
      have ha := hn a rfl
      obtain ⟨c, hc⟩ := g.cell ha
      have el : h.line (some a) = c.get .line := by simp [Heap.line, hc, NodeRec.get]
      have ek : h.kind (some a) = c.get .kind := by simp [Heap.kind, hc, NodeRec.get]
      have et : h.text (some a) = c.get .text := by simp [Heap.text, hc, NodeRec.get]
      simp only [el, ek, et]
      exact (exec_load g ha .line hc).makes.bind ((exec_load g ha .kind hc).makes.bind ((exec_load g ha .text hc).makes.bind (makes_alloc g rfl rfl)))

end Goast
