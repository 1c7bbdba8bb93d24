import Verif.Props.Text
import Verif.Proofs.FuncDecl

/-!
# C61: what `Save` writes after an edit of the nodes
-/

set_option linter.unusedSimpArgs false
set_option linter.unusedVariables false

namespace Goast
open Heap

/-! ## Specification -/

/-- The `Ast` `f` is made of scopes whose nodes are `lss`, scope by scope; no node belongs to two of them, and all
links are consistent (see C23).  A parsed file is such a document: `C61_parsed`. -/
structure Doc (st : AState) (f : AstRec) (lss : List (List Addr)) : Prop where
  wf : WF st.heap
  nodes : ScopeNodes st.heap (f.scopes st) lss
  nodup : lss.flatten.Nodup

/-- `Save` on `f` hands exactly `text` to `SaveFile`, under whatever name and in whatever environment. -/
def Saves (st : AState) (f : AstRec) (text : Bytes) : Prop :=
  ∀ env fs file autoImport, f.save env fs st file autoImport = some (saveFile env fs file text autoImport)

/-- The state after an edit of the nodes. -/
def AState.edited (st : AState) (h : Heap) : AState := { st with heap := h }

/-! ## Lemmas -/

theorem Doc.saves {st : AState} {f : AstRec} {lss : List (List Addr)} (d : Doc st f lss) : Saves st f (allText st.heap lss) :=
  fun env fs file ai => C37_save_writes_scopes env fs st f file ai d.nodes

theorem allText_append (h : Heap) (A B : List (List Addr)) : allText h (A ++ B) = allText h A ++ allText h B := by
  simp [allText]

theorem allText_cons (h : Heap) (l : List Addr) (B : List (List Addr)) : allText h (l :: B) = textOf h l ++ allText h B := by
  simp [allText, textOf]

theorem allText_frame {h h' : Heap} {A : List (List Addr)} (e : ∀ x ∈ A.flatten, h'.text (some x) = h.text (some x)) :
    allText h' A = allText h A := by
  unfold allText
  rw [List.map_congr_left e]

theorem textOf_frame {h h' : Heap} {l : List Addr} (e : ∀ x ∈ l, h'.text (some x) = h.text (some x)) : textOf h' l = textOf h l := by
  unfold textOf
  rw [List.map_congr_left e]

theorem ScopeNodes.frame {h h' : Heap} (hs : h'.size = h.size) : ∀ {scs : List ScopeRec} {lss : List (List Addr)}, ScopeNodes h scs lss →
    (∀ x ∈ lss.flatten, h'.next (some x) = h.next (some x)) → ScopeNodes h' scs lss
  | _, _, .nil, _ => .nil
  | _, _, .cons (l := l) (lss := lss) f r, e =>
    .cons (f.congr (fun a ha => by rw [hs]; exact f.lt a ha) (fun a ha => e a (by simp [ha])))
      (r.frame hs (fun x hx => e x (by rw [List.flatten_cons]; exact List.mem_append_right _ hx)))

theorem ScopeNodes.edit {h h' : Heap} (hs : h'.size = h.size) {l l' : List Addr} {D : List (List Addr)} : ∀ {A : List (List Addr)} {scs : List ScopeRec},
    ScopeNodes h scs (A ++ l :: D) →
    (∀ x, x ∈ A.flatten ∨ x ∈ D.flatten → h'.next (some x) = h.next (some x)) →
    (∀ p, Fwd h p l → Fwd h' p l') → ScopeNodes h' scs (A ++ l' :: D)
  | [], _, .cons f r, e, m => .cons (m _ f) (r.frame hs (fun x hx => e x (.inr hx)))
  | a :: A, _, .cons f r, e, m =>
    .cons (f.congr (fun x hx => by rw [hs]; exact f.lt x hx) (fun x hx => e x (.inl (by simp [hx]))))
      (r.edit hs (fun x hx => e x (hx.imp_left fun h => by rw [List.flatten_cons]; exact List.mem_append_right _ h)) m)

theorem ScopeNodes.mid {h : Heap} {l : List Addr} {D : List (List Addr)} : ∀ {A : List (List Addr)} {scs : List ScopeRec},
    ScopeNodes h scs (A ++ l :: D) → Fwd h l.head? l
  | [], _, .cons f r => by have := f.head; rw [this] at f; exact f
  | a :: A, _, .cons f r => r.mid

theorem Doc.mid {st : AState} {f : AstRec} {A D : List (List Addr)} {l : List Addr} (d : Doc st f (A ++ l :: D)) : Fwd st.heap l.head? l := d.nodes.mid

/-- Apart from the nodes of one scope nothing changes. -/
theorem Doc.apart {st : AState} {f : AstRec} {A D : List (List Addr)} {l : List Addr} (d : Doc st f (A ++ l :: D)) {x : Addr} (hx : x ∈ l) :
    ¬ (x ∈ A.flatten ∨ x ∈ D.flatten) := by
  have nd := d.nodup
  simp only [List.flatten_append, List.flatten_cons, List.nodup_append, List.mem_append] at nd
  obtain ⟨_, ⟨_, _, h1⟩, h2⟩ := nd
  rintro (h | h)
  · exact h2 x h x (.inl hx) rfl
  · exact h1 x hx x h rfl

theorem Doc.edit {st : AState} {f : AstRec} {A D : List (List Addr)} {l l' : List Addr} (d : Doc st f (A ++ l :: D)) {h' : Heap}
    (w' : WF h') (hs : h'.size = st.heap.size) (e : ∀ x, x ∈ A.flatten ∨ x ∈ D.flatten → h'.next (some x) = st.heap.next (some x))
    (f' : Fwd h' l.head? l') (sub : ∀ x ∈ l', x ∉ A.flatten ∧ x ∉ D.flatten) : Doc (st.edited h') f (A ++ l' :: D) := by
  refine ⟨w', d.nodes.edit hs e (fun p g => by rw [g.head]; exact f'), ?_⟩
  have nd := d.nodup
  have nd' := f'.nodup
  simp only [List.flatten_append, List.flatten_cons, List.nodup_append, List.mem_append] at nd ⊢
  obtain ⟨n1, ⟨_, n3, h1⟩, h2⟩ := nd
  refine ⟨n1, ⟨nd', n3, ?_⟩, ?_⟩
  · rintro x hx y hy rfl
    exact (sub x hx).2 hy
  · rintro x hx y hy rfl
    rcases hy with hy | hy
    · exact (sub x hy).1 hx
    · exact h2 x hx x (.inr hy) rfl

theorem Doc.saves_mid {st : AState} {f : AstRec} {A D : List (List Addr)} {l : List Addr} (d : Doc st f (A ++ l :: D)) :
    Saves st f (allText st.heap A ++ textOf st.heap l ++ allText st.heap D) := by
  have := d.saves
  rwa [allText_append, allText_cons, ← List.append_assoc] at this

/-- An edit that keeps all texts. -/
theorem Doc.relink {st : AState} {f : AstRec} {A D : List (List Addr)} {l l' : List Addr} (d : Doc st f (A ++ l :: D)) {h' : Heap}
    (w' : WF h') (sd : SameData st.heap h') (e : ∀ x, x ∈ A.flatten ∨ x ∈ D.flatten → h'.next (some x) = st.heap.next (some x))
    (f' : Fwd h' l.head? l') (sub : ∀ x ∈ l', x ∉ A.flatten ∧ x ∉ D.flatten) :
    Doc (st.edited h') f (A ++ l' :: D) ∧ Saves (st.edited h') f (allText st.heap A ++ textOf st.heap l' ++ allText st.heap D) := by
  have d' := d.edit w' sd.1 e f' sub
  refine ⟨d', ?_⟩
  have := d'.saves_mid
  rw [show (st.edited h').heap = h' from rfl, allText_frame (fun x _ => (sd.2 (some x)).2.2), allText_frame (fun x _ => (sd.2 (some x)).2.2),
    textOf_frame (fun x _ => (sd.2 (some x)).2.2)] at this
  exact this

theorem textOf_app (h : Heap) (l m : List Addr) : textOf h (l ++ m) = textOf h l ++ textOf h m := by simp [textOf]
theorem textOf_cons' (h : Heap) (a : Addr) (l : List Addr) : textOf h (a :: l) = h.text (some a) ++ textOf h l := by simp [textOf]

theorem Fwd.at {h : Heap} {n : Addr} {C : List Addr} : ∀ {B : List Addr} {p : Ptr}, Fwd h p (B ++ n :: C) →
    n < h.size ∧ h.next (some n) = C.head? ∧ Fwd h C.head? C
  | [], _, .cons ha f => ⟨ha, f.head, f.head ▸ f⟩
  | _ :: _, _, .cons _ f => f.at

theorem Doc.next_in {st : AState} {f : AstRec} {lss : List (List Addr)} (d : Doc st f lss) {x y : Addr} (hx : x ∈ lss.flatten)
    (e : st.heap.next (some x) = some y) : y ∈ lss.flatten := by
  obtain ⟨l, hl, hx'⟩ := List.mem_flatten.1 hx
  obtain ⟨A', D', rfl⟩ := List.append_of_mem hl
  obtain ⟨l₁, l₂, rfl⟩ := d.mid.next_mem hx' e
  exact List.mem_flatten.2 ⟨_, hl, by simp⟩

theorem Doc.next_apart {st : AState} {f : AstRec} {A D : List (List Addr)} {l : List Addr} (d : Doc st f (A ++ l :: D)) {x y : Addr}
    (hx : x ∈ A.flatten ∨ x ∈ D.flatten) (e : st.heap.next (some x) = some y) : y ∉ l := by
  intro hy
  have key : ∀ l' ∈ A ++ D, x ∈ l' → False := by
    intro l' hl' hx'
    have hm : l' ∈ A ++ l :: D := by
      simp only [List.mem_append, List.mem_cons] at hl' ⊢; exact hl'.imp id .inr
    obtain ⟨A', D', e'⟩ := List.append_of_mem hm
    have d2 : Doc st f (A' ++ l' :: D') := e' ▸ d
    obtain ⟨l₁, l₂, rfl⟩ := d2.mid.next_mem hx' e
    refine d.apart hy ?_
    rcases List.mem_append.1 hl' with h | h
    · exact .inl (List.mem_flatten.2 ⟨_, h, by simp⟩)
    · exact .inr (List.mem_flatten.2 ⟨_, h, by simp⟩)
  rcases hx with h | h
  · obtain ⟨l', hl', hx⟩ := List.mem_flatten.1 h
    exact key l' (by simp [hl']) hx
  · obtain ⟨l', hl', hx⟩ := List.mem_flatten.1 h
    exact key l' (by simp [hl']) hx

/-- Nothing in the document leads to the first node of a scope. -/
theorem Doc.before_head {st : AState} {f : AstRec} {A D : List (List Addr)} {n : Addr} {C : List Addr} (d : Doc st f (A ++ (n :: C) :: D)) {x : Addr}
    (e : st.heap.next (some x) = some n) : x ∉ (A ++ (n :: C) :: D).flatten := by
  intro hx
  simp only [List.flatten_append, List.flatten_cons, List.mem_append] at hx
  have : x ∈ n :: C ∨ (x ∈ A.flatten ∨ x ∈ D.flatten) := by grind
  rcases this with h | h
  · obtain ⟨l₁, l₂, e'⟩ := d.mid.next_mem h e
    have nd := d.mid.nodup
    rw [e'] at nd
    cases l₁ with
    | nil => simp only [List.nil_append, List.cons.injEq] at e'; obtain ⟨rfl, rfl⟩ := e'; simp at nd
    | cons a l₁ => simp only [List.cons_append, List.cons.injEq] at e'; obtain ⟨rfl, rfl⟩ := e'; simp at nd
  · exact d.next_apart h e (by simp)

/-! ## C61 -/

variable {st : AState} {f : AstRec} {A D : List (List Addr)} {B C : List Addr} {n m : Addr}

/-- **C61** `SetText` on a node: what is saved changes at the place of that node and nowhere else. -/
theorem C61_setText (d : Doc st f (A ++ (B ++ n :: C) :: D)) (t : Bytes) :
    Doc (st.edited (st.heap.setText (some n) t)) f (A ++ (B ++ n :: C) :: D) ∧
    Saves (st.edited (st.heap.setText (some n) t)) f
      (allText st.heap A ++ (textOf st.heap B ++ t ++ textOf st.heap C) ++ allText st.heap D) := by
  have fm := d.mid
  have ln := fm.at.1
  have nd := fm.nodup
  have d' : Doc (st.edited (st.heap.setText (some n) t)) f (A ++ (B ++ n :: C) :: D) := by
    refine d.edit (wf_setText d.wf ..) (size_setText ..) (fun x _ => next_setText ..) ?_ ?_
    · exact fm.congr (fun x hx => by rw [size_setText]; exact fm.lt x hx) (fun x _ => next_setText ..)
    · intro x hx
      have := d.apart hx
      simpa only [not_or] using this
  refine ⟨d', ?_⟩
  have e : ∀ x, x ≠ n → (st.heap.setText (some n) t).text (some x) = st.heap.text (some x) := by
    intro x hx
    rw [text_setText _ _ _ _ ln, if_neg (by simpa using hx)]
  have hn := d.apart (x := n) (by simp)
  have := d'.saves_mid
  simp only [List.nodup_append, List.nodup_cons, List.mem_cons] at nd
  rw [show (st.edited (st.heap.setText (some n) t)).heap = st.heap.setText (some n) t from rfl,
    allText_frame (A := A) (h := st.heap) (fun x hx => e x (fun h => hn (.inl (h ▸ hx)))),
    allText_frame (A := D) (h := st.heap) (fun x hx => e x (fun h => hn (.inr (h ▸ hx)))), textOf_app, textOf_cons',
    textOf_frame (l := B) (h := st.heap) (fun x hx => e x (fun h => nd.2.2 x hx n (.inl rfl) h)),
    textOf_frame (l := C) (h := st.heap) (fun x hx => e x (fun h => nd.2.1.1 (h ▸ hx))), text_setText _ _ _ _ ln, if_pos rfl] at this
  simpa only [List.append_assoc] using this

/-- **C61** `SetKind` on any node changes nothing that is saved. -/
theorem C61_setKind {lss : List (List Addr)} (d : Doc st f lss) (p : Ptr) (k : Kind) :
    Doc (st.edited (st.heap.setKind p k)) f lss ∧ Saves (st.edited (st.heap.setKind p k)) f (allText st.heap lss) := by
  have d' : Doc (st.edited (st.heap.setKind p k)) f lss :=
    ⟨wf_setKind d.wf .., d.nodes.frame (size_setKind ..) (fun x _ => next_setKind ..), d.nodup⟩
  refine ⟨d', ?_⟩
  have := d'.saves
  rwa [show (st.edited (st.heap.setKind p k)).heap = st.heap.setKind p k from rfl, allText_frame (fun x _ => text_setKind ..)] at this

/-- **C61** `n.InsertNext(m)`, `m` a node of no scope: its text is saved directly behind that of `n`, and nothing else
changes. -/
theorem C61_insertNext (d : Doc st f (A ++ (B ++ n :: C) :: D)) (hm : m < st.heap.size) (new : m ∉ (A ++ (B ++ n :: C) :: D).flatten) :
    Doc (st.edited (st.heap.insertNext (some n) (some m)).1) f (A ++ (B ++ n :: m :: C) :: D) ∧
    Saves (st.edited (st.heap.insertNext (some n) (some m)).1) f
      (allText st.heap A ++ (textOf st.heap B ++ st.heap.text (some n) ++ st.heap.text (some m) ++ textOf st.heap C) ++ allText st.heap D) := by
  have fm := d.mid
  obtain ⟨ln, nx, fC⟩ := fm.at
  have nd := fm.nodup
  simp only [List.flatten_append, List.flatten_cons, List.mem_append, List.mem_cons, not_or] at new
  obtain ⟨mA, ⟨mB, mn, mC⟩, mD⟩ := new
  have h2 : some m ≠ st.heap.next (some n) := by
    rw [nx]; intro hh; exact mC (List.mem_of_head? hh.symm)
  obtain ⟨sd, _, e1, e2⟩ := C24_insertNext d.wf (n := some n) (m := some m) (valid_some ln) (valid_some hm) (by simpa using mn) h2
  have out : ∀ x, st.heap.next (some x) = some m → x ∈ (A ++ (B ++ n :: C) :: D).flatten → False := by
    intro x e hx
    have := d.next_in hx e
    simp only [List.flatten_append, List.flatten_cons, List.mem_append, List.mem_cons] at this
    rcases this with h | ⟨h | h | h⟩ | h <;> contradiction
  have same : ∀ x, x ≠ n → x ≠ m → x ∈ (A ++ (B ++ n :: C) :: D).flatten →
      (st.heap.insertNext (some n) (some m)).1.next (some x) = st.heap.next (some x) := by
    intro x h1 h2 hx
    rw [e1, if_neg (by simpa using h1), if_neg (by simpa using h2), if_neg (fun h => out x h hx)]
  simp only [List.nodup_append, List.nodup_cons, List.mem_cons] at nd
  have hs := sd.1
  have r := d.relink (l' := B ++ n :: m :: C) (wf_insertNext d.wf (valid_some ln) (valid_some hm)) sd ?_ ?_ ?_
  · refine ⟨r.1, ?_⟩
    have := r.2
    simpa only [textOf_app, textOf_cons', List.append_assoc] using this
  · intro x hx
    refine same x (fun h => d.apart (x := n) (by simp) (h ▸ hx)) ?_ ?_
    · rintro rfl; exact hx.elim mA mD
    · simp only [List.flatten_append, List.flatten_cons, List.mem_append]
      exact hx.imp id .inr
  · refine fm.change (fun x hx => by rw [hs]; exact fm.lt x (by simp [hx])) (fun x hx => ?_) ?_
    · exact same x (fun h => nd.2.2 x hx n (.inl rfl) h) (fun h => mB (h ▸ hx)) (by simp [hx])
    · refine .cons (by rw [hs]; exact ln) ?_
      rw [e1, if_pos rfl]
      refine .cons (by rw [hs]; exact hm) ?_
      rw [e1, if_neg (by simpa using mn), if_pos rfl, nx]
      exact fC.congr (fun x hx => by rw [hs]; exact fC.lt x hx)
        (fun x hx => same x (fun h => nd.2.1.1 (h ▸ hx)) (fun h => mC (h ▸ hx)) (by simp [hx]))
  · intro x hx
    by_cases hxm : x = m
    · subst hxm; exact ⟨mA, mD⟩
    · have := d.apart (x := x) (by simp only [List.mem_append, List.mem_cons] at hx ⊢; grind)
      simpa only [not_or] using this

/-- **C61** `n.InsertPrev(m)`, `m` a node of no scope and `n` not the first node of its scope: the text of `m` is saved
directly before that of `n`, and nothing else changes. -/
theorem C61_insertPrev {b : Addr} (d : Doc st f (A ++ (B ++ b :: n :: C) :: D)) (hm : m < st.heap.size)
    (new : m ∉ (A ++ (B ++ b :: n :: C) :: D).flatten) :
    Doc (st.edited (st.heap.insertPrev (some n) (some m)).1) f (A ++ (B ++ b :: m :: n :: C) :: D) ∧
    Saves (st.edited (st.heap.insertPrev (some n) (some m)).1) f
      (allText st.heap A ++ (textOf st.heap (B ++ [b]) ++ st.heap.text (some m) ++ st.heap.text (some n) ++ textOf st.heap C) ++
        allText st.heap D) := by
  have fm := d.mid
  obtain ⟨lb, nb, fn⟩ := fm.at
  obtain ⟨ln, nx, fC⟩ := Fwd.at (B := []) fn
  simp only [List.head?_cons] at nb
  have pn : st.heap.prev (some n) = some b := (d.wf.inverse b n).1 nb
  have nd := fm.nodup
  have new' := new
  simp only [List.flatten_append, List.flatten_cons, List.mem_append, List.mem_cons, not_or] at new
  obtain ⟨mA, ⟨mB, mb, mn, mC⟩, mD⟩ := new
  obtain ⟨sd, _, e2, e1⟩ := C25_insertPrev d.wf (n := some n) (m := some m) (valid_some ln) (valid_some hm) (by simpa using mn)
    (by rw [pn]; simpa using mb)
  rw [pn] at e1
  have same : ∀ x, x ≠ b → x ≠ m → x ∈ (A ++ (B ++ b :: n :: C) :: D).flatten →
      (st.heap.insertPrev (some n) (some m)).1.next (some x) = st.heap.next (some x) := by
    intro x h1 h2 hx
    rw [e1, if_neg (by simpa using h2), if_neg (by simpa using h1), if_neg (fun h => new' (d.next_in hx h))]
  simp only [List.nodup_append, List.nodup_cons, List.mem_cons] at nd
  have hs := sd.1
  have r := d.relink (l' := B ++ b :: m :: n :: C) (wf_insertPrev d.wf (valid_some ln) (valid_some hm)) sd ?_ ?_ ?_
  · refine ⟨r.1, ?_⟩
    have := r.2
    simpa [textOf_app, textOf_cons', List.append_assoc, textOf] using this
  · intro x hx
    refine same x (fun h => d.apart (x := b) (by simp) (h ▸ hx)) ?_ ?_
    · rintro rfl; exact hx.elim mA mD
    · simp only [List.flatten_append, List.flatten_cons, List.mem_append]
      exact hx.imp id .inr
  · refine fm.change (fun x hx => by rw [hs]; exact fm.lt x (by simp [hx])) (fun x hx => ?_) ?_
    · exact same x (fun h => nd.2.2 x hx b (.inl rfl) h) (fun h => mB (h ▸ hx)) (by simp [hx])
    · refine .cons (by rw [hs]; exact lb) ?_
      rw [e1, if_neg (by simpa using Ne.symm mb), if_pos rfl]
      refine .cons (by rw [hs]; exact hm) ?_
      rw [e1, if_pos rfl]
      exact fn.congr (fun x hx => by rw [hs]; exact fn.lt x hx)
        (fun x hx => same x (fun h => nd.2.1.1 (by subst h; simpa using hx)) (fun h => by subst h; simp only [List.mem_cons] at hx; exact hx.elim mn mC)
          (by simp only [List.flatten_append, List.flatten_cons, List.mem_append, List.mem_cons] at hx ⊢; grind))
  · intro x hx
    by_cases hxm : x = m
    · subst hxm; exact ⟨mA, mD⟩
    · have := d.apart (x := x) (by simp only [List.mem_append, List.mem_cons] at hx ⊢; grind)
      simpa only [not_or] using this

/-- **C61** Known trap: `n.InsertPrev(m)` on the first node of a scope.  The scope still begins with `n`, so `m` is not
saved. -/
theorem C61_insertPrev_first (d : Doc st f (A ++ (n :: C) :: D)) (hm : m < st.heap.size)
    (new : m ∉ (A ++ (n :: C) :: D).flatten) :
    Doc (st.edited (st.heap.insertPrev (some n) (some m)).1) f (A ++ (n :: C) :: D) ∧
    Saves (st.edited (st.heap.insertPrev (some n) (some m)).1) f (allText st.heap (A ++ (n :: C) :: D)) := by
  have fm := d.mid
  obtain ⟨ln, nx, fC⟩ := Fwd.at (B := []) fm
  by_cases hp : some m = st.heap.prev (some n)
  · rw [C25_insertPrev_noop _ _ _ (.inr hp)]
    exact ⟨d, d.saves⟩
  · have mn : m ≠ n := by rintro rfl; exact new (by simp)
    obtain ⟨sd, _, e2, e1⟩ := C25_insertPrev d.wf (n := some n) (m := some m) (valid_some ln) (valid_some hm) (by simpa using mn) hp
    have same : ∀ x, x ∈ (A ++ (n :: C) :: D).flatten → (st.heap.insertPrev (some n) (some m)).1.next (some x) = st.heap.next (some x) := by
      intro x hx
      rw [e1, if_neg (by simp; rintro rfl; exact new hx), if_neg, if_neg (fun h => new (d.next_in hx h))]
      intro h
      exact d.before_head ((d.wf.inverse x n).2 h.symm) hx
    have r := d.relink (l' := n :: C) (wf_insertPrev d.wf (valid_some ln) (valid_some hm)) sd
      (fun x hx => same x (by simp only [List.flatten_append, List.flatten_cons, List.mem_append]; exact hx.imp id .inr))
      (fm.congr (fun x hx => by rw [sd.1]; exact fm.lt x hx) (fun x hx => same x (by
        simp only [List.flatten_append, List.flatten_cons, List.mem_append]; exact .inr (.inl hx))))
      (fun x hx => by have := d.apart hx; simpa only [not_or] using this)
    refine ⟨r.1, ?_⟩
    rw [allText_append, allText_cons, ← List.append_assoc]
    exact r.2

/-- **C61** `n.TakeNext()` takes the text of the next node out of what is saved, and nothing else. -/
theorem C61_takeNext (d : Doc st f (A ++ (B ++ n :: m :: C) :: D)) :
    Doc (st.edited (st.heap.takeNext (some n)).1) f (A ++ (B ++ n :: C) :: D) ∧
    Saves (st.edited (st.heap.takeNext (some n)).1) f
      (allText st.heap A ++ (textOf st.heap (B ++ [n]) ++ textOf st.heap C) ++ allText st.heap D) := by
  have fm := d.mid
  obtain ⟨ln, nx, fn⟩ := fm.at
  obtain ⟨lm, nm, fC⟩ := Fwd.at (B := []) fn
  simp only [List.head?_cons] at nx
  have nd := fm.nodup
  simp only [List.nodup_append, List.nodup_cons, List.mem_cons] at nd
  have e : ∀ x, (st.heap.takeNext (some n)).1.next (some x) = if x = n then C.head? else if x = m then none else st.heap.next (some x) := by
    intro x
    rw [(takeNext_links d.wf (valid_some ln) x).1, nx, nm]
    simp only [Option.some.injEq]
    by_cases h : C.head? = some n
    · exact absurd (List.mem_of_head? h) (fun h => nd.2.1.1 (.inr h))
    · rw [if_neg h]
  have sd := sameData_takeNext st.heap (some n)
  have hs := sd.1
  have r := d.relink (l' := B ++ n :: C) (wf_takeNext d.wf (valid_some ln)) sd ?_ ?_ ?_
  · refine ⟨r.1, ?_⟩
    have := r.2
    simpa [textOf_app, textOf_cons', List.append_assoc, textOf] using this
  · intro x hx
    rw [e, if_neg (show x ≠ n from fun h => d.apart (x := n) (by simp) (h ▸ hx)), if_neg (show x ≠ m from fun h => d.apart (x := m) (by simp) (h ▸ hx))]
  · refine fm.change (fun x hx => by rw [hs]; exact fm.lt x (by simp [hx])) (fun x hx => ?_) ?_
    · rw [e, if_neg (fun h => nd.2.2 x hx n (.inl rfl) h), if_neg (fun h => nd.2.2 x hx m (.inr (.inl rfl)) h)]
    · refine .cons (by rw [hs]; exact ln) ?_
      rw [e, if_pos rfl]
      exact fC.congr (fun x hx => by rw [hs]; exact fC.lt x hx) (fun x hx => by
        rw [e, if_neg (show x ≠ n from fun h => nd.2.1.1 (.inr (h ▸ hx))), if_neg (show x ≠ m from fun h => nd.2.1.2.1 (h ▸ hx))])
  · intro x hx
    have := d.apart (x := x) (by simp only [List.mem_append, List.mem_cons] at hx ⊢; grind)
    simpa only [not_or] using this

/-- **C61** `n.TakePrev()` takes the text of the node before out of what is saved, and nothing else, if that node is
not the first of its scope. -/
theorem C61_takePrev {b : Addr} (d : Doc st f (A ++ (B ++ b :: m :: n :: C) :: D)) :
    Doc (st.edited (st.heap.takePrev (some n)).1) f (A ++ (B ++ b :: n :: C) :: D) ∧
    Saves (st.edited (st.heap.takePrev (some n)).1) f
      (allText st.heap A ++ (textOf st.heap (B ++ [b]) ++ textOf st.heap (n :: C)) ++ allText st.heap D) := by
  have fm := d.mid
  obtain ⟨lb, nb, fn0⟩ := fm.at
  obtain ⟨lm, nm, fn⟩ := Fwd.at (B := []) fn0
  obtain ⟨ln, nx, fC⟩ := Fwd.at (B := []) fn
  simp only [List.head?_cons] at nb nm
  have pn := (d.wf.inverse m n).1 nm
  have pm := (d.wf.inverse b m).1 nb
  have nd := fm.nodup
  simp only [List.nodup_append, List.nodup_cons, List.mem_cons] at nd
  have e : ∀ x, (st.heap.takePrev (some n)).1.next (some x) = if x = m then none else if x = b then some n else st.heap.next (some x) := by
    intro x
    rw [(takePrev_links d.wf (valid_some ln) x).2, pn, pm]
    grind
  have sd := sameData_takePrev st.heap (some n)
  have hs := sd.1
  have r := d.relink (l' := B ++ b :: n :: C) (wf_takePrev d.wf (valid_some ln)) sd ?_ ?_ ?_
  · refine ⟨r.1, ?_⟩
    have := r.2
    simpa [textOf_app, textOf_cons', List.append_assoc, textOf] using this
  · intro x hx
    rw [e, if_neg (show x ≠ m from fun h => d.apart (x := m) (by simp) (h ▸ hx)), if_neg (show x ≠ b from fun h => d.apart (x := b) (by simp) (h ▸ hx))]
  · refine fm.change (fun x hx => by rw [hs]; exact fm.lt x (by simp [hx])) (fun x hx => ?_) ?_
    · rw [e, if_neg (fun h => nd.2.2 x hx m (.inr (.inl rfl)) h), if_neg (fun h => nd.2.2 x hx b (.inl rfl) h)]
    · refine .cons (by rw [hs]; exact lb) ?_
      rw [e, if_neg (by grind), if_pos rfl]
      exact fn.congr (fun x hx => by rw [hs]; exact fn.lt x hx) (fun x hx => by
        simp only [List.mem_cons] at hx
        rw [e, if_neg (by grind), if_neg (by grind)])
  · intro x hx
    have := d.apart (x := x) (by simp only [List.mem_append, List.mem_cons] at hx ⊢; grind)
    simpa only [not_or] using this

/-- **C61** Known trap: taking out the first node of a scope.  The scope still begins with that node, so it is all that is
saved of the scope. -/
theorem C61_takePrev_first (d : Doc st f (A ++ (m :: n :: C) :: D)) :
    Saves (st.edited (st.heap.takePrev (some n)).1) f (allText st.heap A ++ st.heap.text (some m) ++ allText st.heap D) := by
  have fm := d.mid
  obtain ⟨lm, nm, fn⟩ := Fwd.at (B := []) fm
  obtain ⟨ln, nx, fC⟩ := Fwd.at (B := []) fn
  simp only [List.head?_cons] at nm
  have pn := (d.wf.inverse m n).1 nm
  have sd := sameData_takePrev st.heap (some n)
  have hs := sd.1
  have r := d.relink (l' := [m]) (wf_takePrev d.wf (valid_some ln)) sd ?_ ?_ ?_
  · have := r.2
    simpa [textOf] using this
  · intro x hx
    rw [(takePrev_links d.wf (valid_some ln) x).2, pn]
    have h1 : x ≠ m := fun h => d.apart (x := m) (by simp) (h ▸ hx)
    have h2 : some x ≠ st.heap.prev (some m) := by
      intro h
      exact d.next_apart hx ((d.wf.inverse x m).2 h.symm) (by simp)
    grind
  · refine .cons (by rw [hs]; exact lm) ?_
    rw [(takePrev_links d.wf (valid_some ln) m).2, pn, if_pos rfl]
    exact .nil
  · intro x hx
    have := d.apart (x := x) (by simp only [List.mem_singleton] at hx; simp [hx])
    simpa only [not_or] using this

/-- **C61** `n.RemoveNext()`: nothing behind `n` in its scope is saved any more; all the rest is. -/
theorem C61_removeNext (d : Doc st f (A ++ (B ++ n :: C) :: D)) :
    Doc (st.edited (st.heap.removeNext (some n)).1) f (A ++ (B ++ [n]) :: D) ∧
    Saves (st.edited (st.heap.removeNext (some n)).1) f (allText st.heap A ++ textOf st.heap (B ++ [n]) ++ allText st.heap D) := by
  have fm := d.mid
  obtain ⟨ln, nx, fn⟩ := fm.at
  have nd := fm.nodup
  simp only [List.nodup_append, List.nodup_cons, List.mem_cons] at nd
  have e := fun x => (removeNext_links d.wf (valid_some ln) x).1
  have sd := sameData_removeNext st.heap (some n)
  have hs := sd.1
  refine d.relink (l' := B ++ [n]) (wf_removeNext d.wf (valid_some ln)) sd ?_ ?_ ?_
  · intro x hx
    rw [e, if_neg (fun h => d.apart (x := n) (by simp) (by simp only [Option.some.injEq] at h; exact h ▸ hx))]
  · refine fm.change (fun x hx => by rw [hs]; exact fm.lt x (by simp [hx])) (fun x hx => ?_) ?_
    · rw [e, if_neg (fun h => nd.2.2 x hx n (.inl rfl) (by simpa using h))]
    · refine .cons (by rw [hs]; exact ln) ?_
      rw [e, if_pos rfl]
      exact .nil
  · intro x hx
    have := d.apart (x := x) (by simp only [List.mem_append, List.mem_cons] at hx ⊢; grind)
    simpa only [not_or] using this

/-- **C61** Known trap: `n.RemovePrev()`.  The scope still begins with the removed nodes: they are saved, `n` and
everything behind it is not. -/
theorem C61_removePrev {b : Addr} (d : Doc st f (A ++ (B ++ b :: n :: C) :: D)) :
    Doc (st.edited (st.heap.removePrev (some n)).1) f (A ++ (B ++ [b]) :: D) ∧
    Saves (st.edited (st.heap.removePrev (some n)).1) f (allText st.heap A ++ textOf st.heap (B ++ [b]) ++ allText st.heap D) := by
  have fm := d.mid
  obtain ⟨lb, nb, fn⟩ := fm.at
  obtain ⟨ln, nx, fC⟩ := Fwd.at (B := []) fn
  simp only [List.head?_cons] at nb
  have pn := (d.wf.inverse b n).1 nb
  have nd := fm.nodup
  simp only [List.nodup_append, List.nodup_cons, List.mem_cons] at nd
  have e : ∀ x, (st.heap.removePrev (some n)).1.next (some x) = if x = b then none else st.heap.next (some x) := by
    intro x
    rw [(removePrev_links d.wf (valid_some ln) x).2, pn]
    simp only [Option.some.injEq]
  have sd := sameData_removePrev st.heap (some n)
  have hs := sd.1
  refine d.relink (l' := B ++ [b]) (wf_removePrev d.wf (valid_some ln)) sd ?_ ?_ ?_
  · intro x hx
    rw [e, if_neg (show x ≠ b from fun h => d.apart (x := b) (by simp) (h ▸ hx))]
  · refine fm.change (fun x hx => by rw [hs]; exact fm.lt x (by simp [hx])) (fun x hx => ?_) ?_
    · rw [e, if_neg (fun h => nd.2.2 x hx b (.inl rfl) h)]
    · refine .cons (by rw [hs]; exact lb) ?_
      rw [e, if_pos rfl]
      exact .nil
  · intro x hx
    have := d.apart (x := x) (by simp only [List.mem_append, List.mem_cons] at hx ⊢; grind)
    simpa only [not_or] using this

/-- **C61** `n.Isolate()` on a node that is not the first of its scope: what is behind it is not saved any more either. -/
theorem C61_isolate {b : Addr} (d : Doc st f (A ++ (B ++ b :: n :: C) :: D)) :
    Doc (st.edited (st.heap.isolate (some n))) f (A ++ (B ++ [b]) :: D) ∧
    Saves (st.edited (st.heap.isolate (some n))) f (allText st.heap A ++ textOf st.heap (B ++ [b]) ++ allText st.heap D) := by
  have fm := d.mid
  obtain ⟨lb, nb, fn⟩ := fm.at
  obtain ⟨ln, nx, fC⟩ := Fwd.at (B := []) fn
  simp only [List.head?_cons] at nb
  have pn := (d.wf.inverse b n).1 nb
  have nd := fm.nodup
  simp only [List.nodup_append, List.nodup_cons, List.mem_cons] at nd
  have e : ∀ x, (st.heap.isolate (some n)).next (some x) = if x = n ∨ x = b then none else st.heap.next (some x) := by
    intro x
    rw [(isolate_links d.wf (valid_some ln) x).1, pn]
    simp only [Option.some.injEq]
  have sd := sameData_isolate st.heap (some n)
  have hs := sd.1
  refine d.relink (l' := B ++ [b]) (wf_isolate d.wf (valid_some ln)) sd ?_ ?_ ?_
  · intro x hx
    have h1 : x ≠ n := fun h => d.apart (x := n) (by simp) (h ▸ hx)
    have h2 : x ≠ b := fun h => d.apart (x := b) (by simp) (h ▸ hx)
    rw [e, if_neg (by simp [h1, h2])]
  · refine fm.change (fun x hx => by rw [hs]; exact fm.lt x (by simp [hx])) (fun x hx => ?_) ?_
    · have h1 := nd.2.2 x hx n (.inr (.inl rfl))
      have h2 := nd.2.2 x hx b (.inl rfl)
      rw [e, if_neg (by simp [h1, h2])]
    · refine .cons (by rw [hs]; exact lb) ?_
      rw [e, if_pos (.inr rfl)]
      exact .nil
  · intro x hx
    have := d.apart (x := x) (by simp only [List.mem_append, List.mem_cons] at hx ⊢; grind)
    simpa only [not_or] using this

/-- **C61** `n.ReplaceNext(m)`, `m` and the nodes `M` behind it belonging to no scope: `m` and `M` are saved in place of
everything behind `n` in its scope. -/
theorem C61_replaceNext {M : List Addr} (d : Doc st f (A ++ (B ++ n :: C) :: D)) (fM : Fwd st.heap (some m) (m :: M))
    (new : ∀ x ∈ m :: M, x ∉ (A ++ (B ++ n :: C) :: D).flatten) :
    Doc (st.edited (st.heap.replaceNext (some n) (some m)).1) f (A ++ (B ++ n :: m :: M) :: D) ∧
    Saves (st.edited (st.heap.replaceNext (some n) (some m)).1) f
      (allText st.heap A ++ (textOf st.heap (B ++ [n]) ++ textOf st.heap (m :: M)) ++ allText st.heap D) := by
  have fm := d.mid
  obtain ⟨ln, nx, fC⟩ := fm.at
  obtain ⟨lm, nm, fM'⟩ := Fwd.at (B := []) fM
  have nd := fm.nodup
  have newm := new m (by simp)
  have mn : m ≠ n := by rintro rfl; exact newm (by simp)
  have h2 : some m ≠ st.heap.next (some n) := by
    rw [nx]; intro hh; exact newm (by simp [List.mem_of_head? hh.symm])
  obtain ⟨sd, _, e1, e2⟩ := C26_replaceNext d.wf (n := some n) (m := some m) (valid_some ln) (valid_some lm) (by simpa using mn) h2
  have hs := sd.1
  simp only [List.nodup_append, List.nodup_cons, List.mem_cons] at nd
  have same : ∀ x, x ≠ n → x ∈ (A ++ (B ++ n :: C) :: D).flatten →
      (st.heap.replaceNext (some n) (some m)).1.next (some x) = st.heap.next (some x) := by
    intro x h1 hx
    rw [e1, if_neg (by simpa using h1), if_neg (fun h => newm (d.next_in hx h))]
  have r := d.relink (l' := B ++ n :: m :: M) (wf_replaceNext d.wf (valid_some ln) (valid_some lm)) sd ?_ ?_ ?_
  · refine ⟨r.1, ?_⟩
    have := r.2
    simpa [textOf_app, textOf_cons', List.append_assoc, textOf] using this
  · intro x hx
    refine same x (fun h => d.apart (x := n) (by simp) (h ▸ hx)) ?_
    simp only [List.flatten_append, List.flatten_cons, List.mem_append]
    exact hx.imp id .inr
  · refine fm.change (fun x hx => by rw [hs]; exact fm.lt x (by simp [hx])) (fun x hx => ?_) ?_
    · exact same x (fun h => nd.2.2 x hx n (.inl rfl) h) (by simp [hx])
    · refine .cons (by rw [hs]; exact ln) ?_
      rw [e1, if_pos rfl]
      refine fM.congr (fun x hx => by rw [hs]; exact fM.lt x hx) (fun x hx => ?_)
      have h1 : x ≠ n := by rintro rfl; exact new x hx (by simp)
      rw [e1, if_neg (by simpa using h1), if_neg]
      intro h
      obtain ⟨l₁, l₂, e'⟩ := fM.next_mem hx h
      have ndM := fM.nodup
      rw [e'] at ndM
      cases l₁ with
      | nil => simp only [List.nil_append, List.cons.injEq] at e'; obtain ⟨rfl, rfl⟩ := e'; simp at ndM
      | cons a l₁ => simp only [List.cons_append, List.cons.injEq] at e'; obtain ⟨rfl, rfl⟩ := e'; simp at ndM
  · intro x hx
    by_cases hxm : x ∈ m :: M
    · have := new x hxm
      simp only [List.flatten_append, List.flatten_cons, List.mem_append] at this
      grind
    · have := d.apart (x := x) (by simp only [List.mem_append, List.mem_cons] at hx hxm ⊢; grind)
      simpa only [not_or] using this

theorem incoming_map {n : Addr} {ms : List Addr} (hn : n ∉ ms) : incoming (some n) (ms.map some) = ms.map some := by
  unfold incoming
  refine List.filter_eq_self.2 ?_
  intro x hx
  obtain ⟨y, hy, rfl⟩ := List.mem_map.1 hx
  simp
  rintro rfl
  exact hn hy

theorem wf_combined {h h' : Heap} {a : Addr} {r : Ptr} (w : WF h) (ha : a < h.size) (k : Kind) (ms : List Ptr) (hv : ∀ m ∈ ms, Valid h m)
    (e : h.combineNext (some a) k ms = some (h', r)) : WF h' :=
  wf_apply w (.combineNext (some a) k ms) (by
    intro p hp
    simp only [Op.args, List.mem_cons] at hp
    rcases hp with rfl | hp
    · exact valid_some ha
    · exact hv p hp) (by simp [Op.apply, e])

/-- **C61** `n.CombineNext(k, ms...)` with nodes of no scope: their texts are saved directly behind that of `n`, and
nothing else changes. -/
theorem C61_combineNext (d : Doc st f (A ++ (B ++ n :: C) :: D)) (k : Kind) (ms : List Addr) (hm : ∀ m ∈ ms, m < st.heap.size)
    (new : ∀ x ∈ ms, x ∉ (A ++ (B ++ n :: C) :: D).flatten) :
    ∃ h', st.heap.combineNext (some n) k (ms.map some) = some (h', some n) ∧
      Doc (st.edited h') f (A ++ (B ++ n :: C) :: D) ∧
      Saves (st.edited h') f
        (allText st.heap A ++ (textOf st.heap (B ++ [n]) ++ textOf st.heap ms ++ textOf st.heap C) ++ allText st.heap D) := by
  have fm := d.mid
  obtain ⟨ln, nx, fC⟩ := fm.at
  have nd := fm.nodup
  have hn : n ∉ ms := fun h => new n h (by simp)
  obtain ⟨h', e, c⟩ := C30_combineNext d.wf ln k (ms.map some) (by
    intro p hp; obtain ⟨y, hy, rfl⟩ := List.mem_map.1 hp; exact valid_some (hm y hy))
  rw [incoming_map hn] at c
  refine ⟨h', e, ?_⟩
  have nxt : ∀ x, x ∈ (A ++ (B ++ n :: C) :: D).flatten → h'.next (some x) = st.heap.next (some x) := by
    intro x hx
    rw [c.next, if_neg]
    rintro (h | h)
    · simp only [List.mem_map, Option.some.injEq, exists_eq_right] at h
      exact new x h hx
    · obtain ⟨y, hy, hy'⟩ := List.mem_map.1 h
      exact new y hy (d.next_in hx hy'.symm)
  have d' : Doc (st.edited h') f (A ++ (B ++ n :: C) :: D) := by
    refine d.edit (wf_combined d.wf ln k _ (by
      intro p hp; obtain ⟨y, hy, rfl⟩ := List.mem_map.1 hp; exact valid_some (hm y hy)) e) c.size
      (fun x hx => nxt x (by simp only [List.flatten_append, List.flatten_cons, List.mem_append]; exact hx.imp id .inr)) ?_ ?_
    · exact fm.congr (fun x hx => by rw [c.size]; exact fm.lt x hx)
        (fun x hx => nxt x (by simp only [List.flatten_append, List.flatten_cons, List.mem_append]; exact .inr (.inl (by simpa using hx))))
    · intro x hx
      have := d.apart hx
      simpa only [not_or] using this
  refine ⟨d', ?_⟩
  have te : ∀ x, x ≠ n → h'.text (some x) = st.heap.text (some x) := by
    intro x hx
    rw [c.text, if_neg (by simpa using hx)]
  have hn := d.apart (x := n) (by simp)
  have := d'.saves_mid
  simp only [List.nodup_append, List.nodup_cons, List.mem_cons] at nd
  rw [show (st.edited h').heap = h' from rfl,
    allText_frame (A := A) (h := st.heap) (fun x hx => te x (fun h => hn (.inl (h ▸ hx)))),
    allText_frame (A := D) (h := st.heap) (fun x hx => te x (fun h => hn (.inr (h ▸ hx)))), textOf_app, textOf_cons',
    textOf_frame (l := B) (h := st.heap) (fun x hx => te x (fun h => nd.2.2 x hx n (.inl rfl) h)),
    textOf_frame (l := C) (h := st.heap) (fun x hx => te x (fun h => nd.2.1.1 (h ▸ hx))), c.text, if_pos rfl] at this
  simpa [textOf, List.append_assoc, Function.comp_def] using this

/-- **C61** Known trap: `n.CombineNext(k, ms...)` with the nodes that follow `n` in its scope.  Their texts become part of
`n`, but what was behind them is not saved any more. -/
theorem C61_combineNext_following {ms : List Addr} (d : Doc st f (A ++ (B ++ n :: (m :: ms ++ C)) :: D)) (k : Kind) :
    ∃ h', st.heap.combineNext (some n) k ((m :: ms).map some) = some (h', some n) ∧
      Doc (st.edited h') f (A ++ (B ++ [n]) :: D) ∧
      Saves (st.edited h') f (allText st.heap A ++ textOf st.heap (B ++ n :: m :: ms) ++ allText st.heap D) := by
  have fm := d.mid
  obtain ⟨ln, nx, fC⟩ := fm.at
  have nd := fm.nodup
  simp only [List.nodup_append, List.nodup_cons, List.mem_cons, List.cons_append, List.mem_append] at nd
  have hn : n ∉ m :: ms := by simp only [List.mem_cons]; grind
  have hv : ∀ p ∈ (m :: ms).map some, Valid st.heap p := by
    intro p hp
    obtain ⟨y, hy, rfl⟩ := List.mem_map.1 hp
    refine valid_some (fm.lt y ?_)
    simp only [List.mem_append, List.mem_cons, List.cons_append] at hy ⊢
    grind
  obtain ⟨h', e, c⟩ := C30_combineNext d.wf ln k ((m :: ms).map some) hv
  rw [incoming_map hn] at c
  refine ⟨h', e, ?_⟩
  have mem : ∀ x : Addr, some x ∈ (m :: ms).map some ↔ x ∈ m :: ms := by simp
  have nxt : ∀ x, x ∈ A.flatten ∨ x ∈ D.flatten → h'.next (some x) = st.heap.next (some x) := by
    intro x hx
    rw [c.next, if_neg]
    rintro (h | h)
    · rw [mem] at h
      exact d.apart (x := x) (by simp only [List.mem_append, List.mem_cons, List.cons_append] at h ⊢; grind) hx
    · obtain ⟨y, hy, hy'⟩ := List.mem_map.1 h
      exact d.next_apart hx hy'.symm (by simp only [List.mem_append, List.mem_cons, List.cons_append] at hy ⊢; grind)
  have d' : Doc (st.edited h') f (A ++ (B ++ [n]) :: D) := by
    refine d.edit (wf_combined d.wf ln k _ hv e) c.size nxt ?_ ?_
    · refine fm.change (fun x hx => by rw [c.size]; exact fm.lt x (by simp [hx])) (fun x hx => ?_) ?_
      · rw [c.next, if_neg]
        rintro (h | h)
        · rw [mem, List.mem_cons] at h
          have := nd.2.2 x hx x
          grind
        · obtain ⟨y, hy, hy'⟩ := List.mem_map.1 h
          obtain ⟨B1, B2, rfl⟩ := List.append_of_mem hx
          have f2 : Fwd st.heap (B1 ++ x :: (B2 ++ n :: (m :: ms ++ C))).head? (B1 ++ x :: (B2 ++ n :: (m :: ms ++ C))) := by
            have := fm; simp only [List.append_assoc, List.cons_append] at this ⊢; exact this
          have e3 := f2.at.2.1
          rw [← hy'] at e3
          have : y ∈ B2 ∨ y = n := by
            cases B2 with
            | nil => simp only [List.nil_append, List.head?_cons, Option.some.injEq] at e3; exact .inr e3
            | cons z B2 => simp only [List.cons_append, List.head?_cons, Option.some.injEq] at e3; left; simp [e3]
          rcases this with h | rfl
          · have := nd.2.2 y (by simp [h]) y
            simp only [List.mem_cons] at hy
            grind
          · exact hn hy
      · refine .cons (by rw [c.size]; exact ln) ?_
        rw [c.next, if_pos (.inr (by rw [nx]; simp))]
        exact .nil
    · intro x hx
      have := d.apart (x := x) (by simp only [List.mem_append, List.mem_cons] at hx ⊢; grind)
      simpa only [not_or] using this
  refine ⟨d', ?_⟩
  have te : ∀ x, x ≠ n → h'.text (some x) = st.heap.text (some x) := by
    intro x hx
    rw [c.text, if_neg (by simpa using hx)]
  have hn := d.apart (x := n) (by simp)
  have := d'.saves_mid
  rw [show (st.edited h').heap = h' from rfl,
    allText_frame (A := A) (h := st.heap) (fun x hx => te x (fun h => hn (.inl (h ▸ hx)))),
    allText_frame (A := D) (h := st.heap) (fun x hx => te x (fun h => hn (.inr (h ▸ hx)))), textOf_app, textOf_cons',
    textOf_frame (l := B) (h := st.heap) (fun x hx => te x (fun h => nd.2.2 x hx n (.inl rfl) h)), c.text, if_pos rfl] at this
  simpa [textOf, List.append_assoc, Function.comp_def] using this

/-- **C61** `Copy` of a document is a document of other nodes that saves the same bytes, and so does the original still. -/
theorem C61_copy {lss : List (List Addr)} (d : Doc st f lss) (ac : Acyclic st.heap) (ok : f.scope.arr < st.arrs.length) :
    ∃ st' f' lss', f.copy st = some (st', f') ∧ Doc st' f' lss' ∧ Doc st' f lss ∧
      (∀ l ∈ lss', ∀ x ∈ l, x ∉ lss.flatten) ∧
      Saves st' f' (allText st.heap lss) ∧ Saves st' f (allText st.heap lss) := by
  have lt : ∀ x ∈ lss.flatten, x < st.heap.size := by
    intro x hx
    obtain ⟨l, hl, hx'⟩ := List.mem_flatten.1 hx
    obtain ⟨A, D, rfl⟩ := List.append_of_mem hl
    exact d.mid.lt x hx'
  obtain ⟨st', f', lss', e, _, _, _, _, _, sn, dt, fr, nd', w', _, ex, ar, _⟩ := C40_copy st f d.wf ac d.nodes
  have sc : f.scopes st' = f.scopes st := by
    simp only [AstRec.scopes, AState.elems, ar _ ok]
  have dOld : Doc st' f lss := by
    refine ⟨w', ?_, d.nodup⟩
    rw [sc]
    exact d.nodes.extends ex
  have dNew : Doc st' f' lss' := ⟨w', sn, nd'⟩
  refine ⟨st', f', lss', e, dNew, dOld, ?_, ?_, ?_⟩
  · intro l hl x hx hx'
    have := lt x hx'
    have := (fr l hl x hx).1
    omega
  · have : allText st'.heap lss' = allText st.heap lss := by
      have := congrArg (fun L : List (List (Int × Kind × Bytes)) => (L.flatten.map (·.2.2)).flatten) dt
      simpa [allText, data, List.map_flatten, Function.comp_def, List.map_map] using this
    rw [← this]
    exact dNew.saves
  · have : allText st'.heap lss = allText st.heap lss :=
      allText_frame (fun x hx => congrArg (·.2.2) (ex.2 x (lt x hx)).2.2)
    rw [← this]
    exact dOld.saves

/-- **C61** `AppendScope` adds the texts of the new scopes at the end of what is saved, and nothing else. -/
theorem C61_appendScope {lss new : List (List Addr)} (d : Doc st f lss) (ok : SliceOK st f.scope) (grow : Nat → Nat) {scs : List ScopeRec}
    (sn : ScopeNodes st.heap scs new) (nd : (lss ++ new).flatten.Nodup) :
    Doc (f.appendScope grow st scs).1 (f.appendScope grow st scs).2 (lss ++ new) ∧
    Saves (f.appendScope grow st scs).1 (f.appendScope grow st scs).2 (allText st.heap lss ++ allText st.heap new) := by
  obtain ⟨e1, _, e2, _⟩ := C41_appendScope grow st f scs ok
  have d' : Doc (f.appendScope grow st scs).1 (f.appendScope grow st scs).2 (lss ++ new) := by
    refine ⟨by rw [e2]; exact d.wf, ?_, nd⟩
    rw [e1, e2]
    have : ∀ {a b : List ScopeRec} {l m : List (List Addr)}, ScopeNodes st.heap a l → ScopeNodes st.heap b m → ScopeNodes st.heap (a ++ b) (l ++ m) := by
      intro a b l m x y
      induction x with
      | nil => exact y
      | cons f _ ih => exact .cons f ih
    exact this d.nodes sn
  refine ⟨d', ?_⟩
  have := d'.saves
  rwa [e2, allText_append] at this

/-! ## Parsed files are documents -/

theorem ScopeNodes.det {h : Heap} : ∀ {scs : List ScopeRec} {lss lss' : List (List Addr)}, ScopeNodes h scs lss → ScopeNodes h scs lss' → lss = lss'
  | _, _, _, .nil, .nil => rfl
  | _, _, _, .cons f r, .cons f' r' => by rw [f.det f', r.det r']

theorem scopeNodes_of_heads {h : Heap} : ∀ {scs : List ScopeRec} {ls : List (List Addr)}, scs.map (·.node) = ls.map List.head? →
    (∀ l ∈ ls, Fwd h l.head? l) → ScopeNodes h scs ls
  | [], [], _, _ => .nil
  | sc :: scs, l :: ls, e, c => by
    simp only [List.map_cons, List.cons.injEq] at e
    exact .cons (by rw [e.1]; exact c l (by simp)) (scopeNodes_of_heads e.2 (fun l hl => c l (by simp [hl])))

/-- **C61** Whatever `ParseAst` returns is a document, made of the scopes of the text it read. -/
theorem C61_parsed {env : Env} {spare : Nat} {fs : FS} {st st' : AState} {file : Bytes} {f : AstRec} (w : WF st.heap) (ac : Acyclic st.heap)
    (e : parseAst env spare fs st file = some (.ok (st', f))) :
    ∃ lss data, Doc st' f lss ∧ readFile env fs file = .ok data ∧ parseScope st.heap 0 data = some (st'.heap, f.scopes st') := by
  unfold parseAst at e
  split at e
  · simp at e
  · rename_i data hd
    split at e
    · simp at e
    · rename_i h scs hp
      obtain ⟨r, hr, e⟩ := Option.map_eq_some_iff.1 e
      split at e
      · simp at e
      · simp only [AState.newSlice, Except.ok.injEq, Prod.mk.injEq] at e
        obtain ⟨rfl, rfl⟩ := e
        obtain ⟨w', _, _, ls, l1, l2, l3⟩ := C12_separate mapOrder_id w ac hp
        have : scs = AstRec.scopes ⟨h, st.arrs ++ [scs ++ List.replicate spare default]⟩
            ⟨file, env.dir file, env.base file, env.ext file, ⟨st.arrs.length, 0, scs.length, scs.length + spare⟩⟩ := by
          simp [AstRec.scopes, AState.elems]
        refine ⟨ls, data, ⟨w', ?_, l2⟩, hd, ?_⟩
        · rw [← this]
          exact scopeNodes_of_heads l1 (fun l hl => (l3 l hl).2.1.fwd)
        · rw [← this]; exact hp

/-- **C61** Parse, edit, save.  For a formatted file without comments that begins `package NAME` and holds no keyword
`type` or no `(`: `ParseAst` returns an `Ast`; each of its nodes is a piece of the file; and after `SetText(t)` on any
one of them `Save` writes the file with that piece replaced by `t`. -/
theorem C61_parse_edit_save (env : Env) (spare : Nat) (fs : FS) (st : AState) (w : WF st.heap) (ac : Acyclic st.heap)
    {file name rest : Bytes} (hn : IsGoName file name)
    (hf : fs name = some (b!"package " ++ rest)) (o1 : env.openDenied name = false) (o2 : env.readFails name = false)
    (o3 : env.formatSource (b!"package " ++ rest) = some (b!"package " ++ rest))
    (hc : Kind.comment ∉ kindsOfText (b!"package " ++ rest))
    (ht : Kind.type_ ∉ kindsOfText (b!"package " ++ rest) ∨ Kind.parenL ∉ kindsOfText (b!"package " ++ rest)) :
    ∃ st' ast lss, parseAst env spare fs st file = some (.ok (st', ast)) ∧ Doc st' ast lss ∧
      Saves st' ast (b!"package " ++ rest) ∧
      ∀ n ∈ lss.flatten, ∃ pre post, b!"package " ++ rest = pre ++ st'.heap.text (some n) ++ post ∧
        ∀ t, Saves (st'.edited (st'.heap.setText (some n) t)) ast (pre ++ t ++ post) := by
  obtain ⟨st', ast, e, _⟩ := C54_plain { env with mkdirOk := fun _ => true, createOk := fun _ => true, writeFailsAfter := fun _ _ => none }
    spare fs st w ac hn hf o1 o2 o3 hc ht rfl rfl rfl
  have e : parseAst env spare fs st file = some (.ok (st', ast)) := e
  obtain ⟨lss, data, d, hr, hp⟩ := C61_parsed w ac e
  have hd : data = b!"package " ++ rest := by
    have : readFile env fs file = .ok (b!"package " ++ rest) := by
      simp only [readFile, goName_unique hn, hf, o1, o2, o3, Bool.false_eq_true, if_false]
    rw [this] at hr
    simpa using hr.symm
  subst hd
  have tx : allText st'.heap lss = b!"package " ++ rest := by
    obtain ⟨h1, p, l, e1, f1, _⟩ := C01_lossless mapOrder_id st.heap (b!"package " ++ rest)
    have pg := plain_groups mapOrder_id e1 f1 hc ht (0 - 1)
    have hk : (b!"package", ScopeKind.package_) ∈ scopeKeywords := by decide
    have ln := lead_nil mapOrder_id (rest := 32 :: rest) hk e1 f1
    obtain ⟨h', scs, lss', a1, a2, a3⟩ := identical_groups mapOrder_id w ac (startLine := 0) e1 f1 (fun g hg => (pg g hg).1) (fun g hg _ => (pg g hg).2)
    have a1 : parseScope st.heap 0 (b!"package " ++ rest) = some (h', scs) := a1
    rw [hp] at a1
    simp only [Option.some.injEq, Prod.mk.injEq] at a1
    obtain ⟨rfl, rfl⟩ := a1
    cases a2.det d.nodes
    rw [ln] at a3
    exact a3
  refine ⟨st', ast, lss, e, d, tx ▸ d.saves, ?_⟩
  intro n hn
  obtain ⟨l, hl, hx⟩ := List.mem_flatten.1 hn
  obtain ⟨A, D, rfl⟩ := List.append_of_mem hl
  obtain ⟨B, C, rfl⟩ := List.append_of_mem hx
  refine ⟨allText st'.heap A ++ textOf st'.heap B, textOf st'.heap C ++ allText st'.heap D, ?_, fun t => ?_⟩
  · rw [← tx, allText_append, allText_cons, textOf_app, textOf_cons']
    simp only [List.append_assoc]
  · have := (C61_setText d t).2
    simpa only [List.append_assoc] using this

/-! ## Cases that meet the hypotheses -/

/-- Two scopes of two and four nodes, and two more nodes. -/
def demoDoc : AState :=
  ⟨(((Heap.empty.newNodes 0 [b!"package ", b!"a\n"]).1.newNodes 1 [b!"func ", b!"f", b!"()", b!"{}\n"]).1.newNodes 2 [b!"x", b!"y"]).1,
    [[⟨0, .package_, some 0⟩, ⟨1, .func_, some 2⟩]]⟩

def demoAst : AstRec := ⟨[], [], [], [], ⟨0, 0, 2, 2⟩⟩

theorem demoDoc_doc : Doc demoDoc demoAst ([[0, 1]] ++ ([2] ++ 3 :: [4, 5]) :: []) := by
  refine ⟨?_, ?_, by decide⟩
  · exact C23_links_preserved (P := fun _ => True) wf_empty
      (.step (.newNodes 2 [b!"x", b!"y"]) (.step (.newNodes 1 [b!"func ", b!"f", b!"()", b!"{}\n"]) (.step (.newNodes 0 [b!"package ", b!"a\n"]) .refl
        trivial (by simp [Op.args]) rfl) trivial (by simp [Op.args]) rfl) trivial (by simp [Op.args]) rfl)
  · have f1 : Fwd demoDoc.heap (some 0) [0, 1] := .cons (by decide +kernel) (.cons (by decide +kernel) .nil)
    have f2 : Fwd demoDoc.heap (some 2) [2, 3, 4, 5] := .cons (by decide +kernel) (.cons (by decide +kernel) (.cons (by decide +kernel) (.cons (by decide +kernel) .nil)))
    exact .cons f1 (.cons f2 .nil)

/-- What the theorems say about it: renaming, inserting, taking out, combining. -/
example : Saves demoDoc demoAst b!"package a\nfunc f(){}\n" ∧
    Saves (demoDoc.edited (demoDoc.heap.setText (some 3) b!"g")) demoAst b!"package a\nfunc g(){}\n" ∧
    Saves (demoDoc.edited (demoDoc.heap.insertNext (some 3) (some 6)).1) demoAst b!"package a\nfunc fx(){}\n" ∧
    Saves (demoDoc.edited (demoDoc.heap.insertPrev (some 3) (some 7)).1) demoAst b!"package a\nfunc yf(){}\n" ∧
    Saves (demoDoc.edited (demoDoc.heap.insertPrev (some 2) (some 7)).1) demoAst b!"package a\nfunc f(){}\n" ∧
    Saves (demoDoc.edited (demoDoc.heap.takeNext (some 3)).1) demoAst b!"package a\nfunc f{}\n" ∧
    Saves (demoDoc.edited (demoDoc.heap.takePrev (some 4)).1) demoAst b!"package a\nfunc (){}\n" ∧
    Saves (demoDoc.edited (demoDoc.heap.takePrev (some 3)).1) demoAst b!"package a\nfunc " ∧
    Saves (demoDoc.edited (demoDoc.heap.removeNext (some 3)).1) demoAst b!"package a\nfunc f" ∧
    Saves (demoDoc.edited (demoDoc.heap.removePrev (some 3)).1) demoAst b!"package a\nfunc " ∧
    Saves (demoDoc.edited (demoDoc.heap.isolate (some 3))) demoAst b!"package a\nfunc " ∧
    Saves (demoDoc.edited (demoDoc.heap.replaceNext (some 3) (some 6)).1) demoAst b!"package a\nfunc fxy" ∧
    (∃ h', demoDoc.heap.combineNext (some 3) .raw [some 7, some 6] = some (h', some 3) ∧
      Saves (demoDoc.edited h') demoAst b!"package a\nfunc fyx(){}\n") ∧
    (∃ h', demoDoc.heap.combineNext (some 2) .raw [some 3] = some (h', some 2) ∧
      Saves (demoDoc.edited h') demoAst b!"package a\nfunc f") := by
  have d := demoDoc_doc
  have new : ∀ x ∈ [6, 7], x ∉ ([[0, 1]] ++ ([2] ++ 3 :: [4, 5]) :: []).flatten := by decide
  have fxy : Fwd demoDoc.heap (some 6) [6, 7] := .cons (by decide +kernel) (.cons (by decide +kernel) .nil)
  refine ⟨d.saves, (C61_setText d b!"g").2, (C61_insertNext d (m := 6) (by decide +kernel) (by decide)).2,
    (C61_insertPrev (B := []) (b := 2) (n := 3) (C := [4, 5]) d (m := 7) (by decide +kernel) (by decide)).2,
    (C61_insertPrev_first (n := 2) (C := [3, 4, 5]) d (m := 7) (by decide +kernel) (by decide)).2,
    (C61_takeNext (B := [2]) (n := 3) (m := 4) (C := [5]) d).2, (C61_takePrev (B := []) (b := 2) (m := 3) (n := 4) (C := [5]) d).2,
    C61_takePrev_first (m := 2) (n := 3) (C := [4, 5]) d, (C61_removeNext d).2, (C61_removePrev (B := []) (b := 2) (n := 3) (C := [4, 5]) d).2,
    (C61_isolate (B := []) (b := 2) (n := 3) (C := [4, 5]) d).2, (C61_replaceNext (M := [7]) d fxy new).2, ?_, ?_⟩
  · obtain ⟨h', e, _, s⟩ := C61_combineNext d .raw [7, 6] (by decide +kernel) (by decide)
    exact ⟨h', e, s⟩
  · obtain ⟨h', e, _, s⟩ := C61_combineNext_following (B := []) (n := 2) (m := 3) (ms := []) (C := [4, 5]) d .raw
    exact ⟨h', e, s⟩

end Goast
