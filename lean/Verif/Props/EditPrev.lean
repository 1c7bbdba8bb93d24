import Verif.Props.Edit

/-!
# C61, towards the front: `CombinePrev` and `ReplacePrev`
-/

namespace Goast
open Heap

variable {st : AState} {f : AstRec} {A D : List (List Addr)} {B C : List Addr} {n m : Addr}

/-- **C61** `n.CombinePrev(k, ms...)` with nodes of no scope: their texts, the last first, are saved directly before that of `n`, and nothing else
changes. -/
theorem C61_combinePrev (d : Doc st f (A ++ (B ++ n :: C) :: D)) (k : Kind) (ms : List Addr) (hm : ∀ m ∈ ms, m < st.heap.size)
    (new : ∀ x ∈ ms, x ∉ (A ++ (B ++ n :: C) :: D).flatten) :
    ∃ h', st.heap.combinePrev (some n) k (ms.map some) = some (h', some n) ∧
      Doc (st.edited h') f (A ++ (B ++ n :: C) :: D) ∧
      Saves (st.edited h') f
        (allText st.heap A ++ (textOf st.heap B ++ textOf st.heap ms.reverse ++ textOf st.heap (n :: C)) ++ allText st.heap D) := by
  have fm := d.mid
  obtain ⟨ln, nx, fC⟩ := fm.at
  have nd := fm.nodup
  have hn : n ∉ ms := fun h => new n h (by simp)
  have hv : ∀ p ∈ ms.map some, Valid st.heap p := by
    intro p hp; obtain ⟨y, hy, rfl⟩ := List.mem_map.1 hp; exact valid_some (hm y hy)
  obtain ⟨h', e, c⟩ := C30_combinePrev d.wf ln k (ms.map some) hv
  rw [incoming_map hn] at c
  refine ⟨h', e, ?_⟩
  have nxt : ∀ x, x ∈ (A ++ (B ++ n :: C) :: D).flatten → h'.next (some x) = st.heap.next (some x) := by
    intro x hx
    rw [c.next, if_neg]
    rintro (h | h)
    · simp only [List.mem_map, Option.some.injEq, exists_eq_right] at h
      exact new x h hx
    · obtain ⟨y, hy, hy'⟩ := List.mem_map.1 h
      exact new y hy (d.next_in hx hy'.symm)
  have d' : Doc (st.edited h') f (A ++ (B ++ n :: C) :: D) := by
    refine d.edit (wf_apply d.wf (.combinePrev (some n) k (ms.map some)) (by
        intro p hp
        simp only [Op.args, List.mem_cons] at hp
        rcases hp with rfl | hp
        · exact valid_some ln
        · exact hv p hp) (by simp [Op.apply, e])) c.size
      (fun x hx => nxt x (by simp only [List.flatten_append, List.flatten_cons, List.mem_append]; exact hx.imp id .inr)) ?_ ?_
    · exact fm.congr (fun x hx => by rw [c.size]; exact fm.lt x hx)
        (fun x hx => nxt x (by simp only [List.flatten_append, List.flatten_cons, List.mem_append]; exact .inr (.inl (by simpa using hx))))
    · intro x hx
      have := d.apart hx
      simpa only [not_or] using this
  refine ⟨d', ?_⟩
  have te : ∀ x, x ≠ n → h'.text (some x) = st.heap.text (some x) := by
    intro x hx
    rw [c.text, if_neg (by simpa using hx)]
  have hn := d.apart (x := n) (by simp)
  have := d'.saves_mid
  simp only [List.nodup_append, List.nodup_cons, List.mem_cons] at nd
  rw [show (st.edited h').heap = h' from rfl,
    allText_frame (A := A) (h := st.heap) (fun x hx => te x (fun h => hn (.inl (h ▸ hx)))),
    allText_frame (A := D) (h := st.heap) (fun x hx => te x (fun h => hn (.inr (h ▸ hx)))), textOf_app, textOf_cons',
    textOf_frame (l := B) (h := st.heap) (fun x hx => te x (fun h => nd.2.2 x hx n (.inl rfl) h)),
    textOf_frame (l := C) (h := st.heap) (fun x hx => te x (fun h => nd.2.1.1 (h ▸ hx))), c.text, if_pos rfl] at this
  simpa [textOf, List.append_assoc, Function.comp_def] using this

/-- **C61** Known trap: `n.CombinePrev(k, ms...)` with the nodes directly before `n` in its scope, none of them the first.  Only what was before them is saved:
the node `n`, which now holds their texts, is not, nor what is behind it. -/
theorem C61_combinePrev_preceding {b : Addr} {ms : List Addr} (d : Doc st f (A ++ (B ++ b :: (m :: ms ++ n :: C)) :: D)) (k : Kind) :
    ∃ h', st.heap.combinePrev (some n) k ((m :: ms).reverse.map some) = some (h', some n) ∧
      h'.text (some n) = textOf st.heap (m :: ms) ++ st.heap.text (some n) ∧
      Doc (st.edited h') f (A ++ (B ++ [b]) :: D) ∧
      Saves (st.edited h') f (allText st.heap A ++ textOf st.heap (B ++ [b]) ++ allText st.heap D) := by
  have fm := d.mid
  obtain ⟨lb, nb, fC⟩ := fm.at
  have fm2 : Fwd st.heap ((B ++ b :: m :: ms) ++ n :: C).head? ((B ++ b :: m :: ms) ++ n :: C) := by
    have := fm; simpa only [List.append_assoc, List.cons_append] using this
  obtain ⟨ln, nx, _⟩ := fm2.at
  have nd := fm.nodup
  simp only [List.nodup_append, List.nodup_cons, List.mem_cons, List.cons_append, List.mem_append] at nd
  have hn : n ∉ (m :: ms).reverse := by simp only [List.mem_reverse, List.mem_cons]; grind
  have hv : ∀ p ∈ (m :: ms).reverse.map some, Valid st.heap p := by
    intro p hp
    obtain ⟨y, hy, rfl⟩ := List.mem_map.1 hp
    refine valid_some (fm.lt y ?_)
    simp only [List.mem_append, List.mem_cons, List.cons_append, List.mem_reverse] at hy ⊢
    grind
  obtain ⟨h', e, c⟩ := C30_combinePrev d.wf ln k ((m :: ms).reverse.map some) hv
  rw [incoming_map hn] at c
  have mem : ∀ x : Addr, some x ∈ (m :: ms).reverse.map some ↔ x ∈ m :: ms := by simp [or_comm]
  refine ⟨h', e, ?_, ?_⟩
  · rw [c.text, if_pos rfl]
    simp [textOf, Function.comp_def]
  have nxt : ∀ x, x ∈ A.flatten ∨ x ∈ D.flatten → h'.next (some x) = st.heap.next (some x) := by
    intro x hx
    rw [c.next, if_neg]
    rintro (h | h)
    · rw [mem] at h
      exact d.apart (x := x) (by simp only [List.mem_append, List.mem_cons, List.cons_append] at h ⊢; grind) hx
    · obtain ⟨y, hy, hy'⟩ := List.mem_map.1 h
      exact d.next_apart hx hy'.symm (by simp only [List.mem_append, List.mem_cons, List.cons_append, List.mem_reverse] at hy ⊢; grind)
  have d' : Doc (st.edited h') f (A ++ (B ++ [b]) :: D) := by
    refine d.edit (wf_apply d.wf (.combinePrev (some n) k ((m :: ms).reverse.map some)) (by
        intro p hp
        simp only [Op.args, List.mem_cons] at hp
        rcases hp with rfl | hp
        · exact valid_some ln
        · exact hv p hp) (by simp only [Op.apply, e, Option.map_some])) c.size nxt ?_ ?_
    · refine fm.change (fun x hx => by rw [c.size]; exact fm.lt x (by simp [hx])) (fun x hx => ?_) ?_
      · rw [c.next, if_neg]
        rintro (h | h)
        · rw [mem, List.mem_cons] at h
          have := nd.2.2 x hx x
          grind
        · obtain ⟨y, hy, hy'⟩ := List.mem_map.1 h
          obtain ⟨B1, B2, rfl⟩ := List.append_of_mem hx
          have f2 : Fwd st.heap (B1 ++ x :: (B2 ++ b :: (m :: ms ++ n :: C))).head? (B1 ++ x :: (B2 ++ b :: (m :: ms ++ n :: C))) := by
            have := fm; simp only [List.append_assoc, List.cons_append] at this ⊢; exact this
          have e3 := f2.at.2.1
          rw [← hy'] at e3
          have : y ∈ B2 ∨ y = b := by
            cases B2 with
            | nil => simp only [List.nil_append, List.head?_cons, Option.some.injEq] at e3; exact .inr e3
            | cons z B2 => simp only [List.cons_append, List.head?_cons, Option.some.injEq] at e3; left; simp [e3]
          rw [List.mem_reverse, List.mem_cons] at hy
          rcases this with h | rfl
          · have := nd.2.2 y (by simp [h]) y
            grind
          · grind
      · refine .cons (by rw [c.size]; exact lb) ?_
        rw [c.next, if_pos (.inr (by rw [nb]; simp))]
        exact .nil
    · intro x hx
      have := d.apart (x := x) (by simp only [List.mem_append, List.mem_cons] at hx ⊢; grind)
      simpa only [not_or] using this
  refine ⟨d', ?_⟩
  have te : ∀ x, x ≠ n → h'.text (some x) = st.heap.text (some x) := by
    intro x hx
    rw [c.text, if_neg (by simpa using hx)]
  have hn := d.apart (x := n) (by simp)
  have := d'.saves_mid
  rw [show (st.edited h').heap = h' from rfl,
    allText_frame (A := A) (h := st.heap) (fun x hx => te x (fun h => hn (.inl (h ▸ hx)))),
    allText_frame (A := D) (h := st.heap) (fun x hx => te x (fun h => hn (.inr (h ▸ hx)))), textOf_app, textOf_cons',
    textOf_frame (l := B) (h := st.heap) (fun x hx => te x (by have := nd.2.2 x hx n; grind)), te b (by grind)] at this
  simpa [textOf, List.append_assoc, Function.comp_def] using this

/-- **C61** Known trap: `n.ReplacePrev(m)`, `n` not the first node of its scope and `m` in no scope.  The scope still begins with what was before `n`: that is
saved; `m`, `n` and what is behind `n` are not. -/
theorem C61_replacePrev {b : Addr} (d : Doc st f (A ++ (B ++ b :: n :: C) :: D)) (lm : m < st.heap.size)
    (new : m ∉ (A ++ (B ++ b :: n :: C) :: D).flatten) :
    Doc (st.edited (st.heap.replacePrev (some n) (some m)).1) f (A ++ (B ++ [b]) :: D) ∧
    Saves (st.edited (st.heap.replacePrev (some n) (some m)).1) f
      (allText st.heap A ++ textOf st.heap (B ++ [b]) ++ allText st.heap D) := by
  have fm := d.mid
  obtain ⟨lb, nb, fn⟩ := fm.at
  obtain ⟨ln, nx, fC⟩ := Fwd.at (B := []) fn
  simp only [List.head?_cons] at nb
  have pn := (d.wf.inverse b n).1 nb
  have nd := fm.nodup
  simp only [List.nodup_append, List.nodup_cons, List.mem_cons] at nd
  have mn : m ≠ n := by rintro rfl; exact new (by simp)
  have mb : m ≠ b := by rintro rfl; exact new (by simp)
  obtain ⟨sd, _, _, e⟩ := C26_replacePrev d.wf (n := some n) (m := some m) (valid_some ln) (valid_some lm) (by simpa using mn)
    (by rw [pn]; simpa using mb)
  rw [pn] at e
  have hs := sd.1
  refine d.relink (l' := B ++ [b]) (wf_replacePrev d.wf (valid_some ln) (valid_some lm)) sd ?_ ?_ ?_
  · intro x hx
    have h1 : x ≠ m := by rintro rfl; exact new (by simp only [List.flatten_append, List.flatten_cons, List.mem_append]; exact hx.imp id .inr)
    have h2 : x ≠ b := fun h => d.apart (x := b) (by simp) (h ▸ hx)
    rw [e, if_neg (by simpa using h1), if_neg (by simpa using h2)]
  · refine fm.change (fun x hx => by rw [hs]; exact fm.lt x (by simp [hx])) (fun x hx => ?_) ?_
    · have h1 : x ≠ m := by rintro rfl; exact new (by simp [hx])
      have h2 := nd.2.2 x hx b (.inl rfl)
      rw [e, if_neg (by simpa using h1), if_neg (by simpa using h2)]
    · refine .cons (by rw [hs]; exact lb) ?_
      rw [e, if_neg (by simpa using Ne.symm mb), if_pos rfl]
      exact .nil
  · intro x hx
    have := d.apart (x := x) (by simp only [List.mem_append, List.mem_cons] at hx ⊢; grind)
    simpa only [not_or] using this

/-! ## A case that meets the hypotheses -/

/-- `x` and `y` combined before `f`; `f` and `()` combined before `{}`; another node put in place of what is before `f`. -/
example :
    (∃ h', demoDoc.heap.combinePrev (some 3) .raw [some 7, some 6] = some (h', some 3) ∧
      Saves (demoDoc.edited h') demoAst b!"package a\nfunc xyf(){}\n") ∧
    (∃ h', demoDoc.heap.combinePrev (some 5) .raw [some 4, some 3] = some (h', some 5) ∧ h'.text (some 5) = b!"f(){}\n" ∧
      Saves (demoDoc.edited h') demoAst b!"package a\nfunc ") ∧
    Saves (demoDoc.edited (demoDoc.heap.replacePrev (some 3) (some 7)).1) demoAst b!"package a\nfunc " := by
  have d := demoDoc_doc
  refine ⟨?_, ?_, (C61_replacePrev (B := []) (b := 2) (n := 3) (C := [4, 5]) d (m := 7) (by decide +kernel) (by decide)).2⟩
  · obtain ⟨h', e, _, s⟩ := C61_combinePrev d .raw [7, 6] (by decide +kernel) (by decide)
    exact ⟨h', e, s⟩
  · obtain ⟨h', e, t, _, s⟩ := C61_combinePrev_preceding (B := []) (b := 2) (n := 5) (m := 3) (ms := [4]) (C := []) d .raw
    exact ⟨h', e, t, s⟩

end Goast
