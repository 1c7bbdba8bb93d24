import Verif.Model.IterScope
import Verif.Props.Ast

/-!
# C80: iterating over the scopes while editing the `Ast`
-/

set_option linter.unusedSimpArgs false
set_option linter.unusedVariables false

namespace Goast

variable {σ : Type}

/-! ## Specification -/

/-- The calls of a callback on a list of scopes, one after the other, until it says stop: the state behind them. -/
def visit (fn : AState × σ → ScopeRec → (AState × σ) × Bool) : List ScopeRec → AState × σ → AState × σ
  | [], w => w
  | sc :: scs, w =>
    match fn w sc with
    | (w, true) => visit fn scs w
    | (w, false) => w

/-! ## C80 -/

theorem iterSlice_visit (fn : AState × σ → ScopeRec → (AState × σ) × Bool) (sl : Slice) (P : AState × σ → Prop) (scs : List ScopeRec)
    (same : ∀ w, P w → w.1.elems sl = scs) (keep : ∀ w sc, P w → sc ∈ scs → P (fn w sc).1) :
    ∀ (n i : Nat) (w : AState × σ), P w → scs.length = i + n → iterSlice fn sl n i w = visit fn (scs.drop i) w
  | 0, i, w, hP, hl => by rw [List.drop_eq_nil_of_le (by omega)]; rfl
  | n + 1, i, w, hP, hl => by
    have hi : i < scs.length := by omega
    simp only [iterSlice, same w hP, List.getElem?_eq_getElem hi]
    rw [List.drop_eq_getElem_cons hi]
    simp only [visit]
    have hk := keep w scs[i] hP (List.getElem_mem hi)
    rcases hf : fn w scs[i] with ⟨w', b⟩
    rw [hf] at hk
    cases b with
    | true => simp only; exact iterSlice_visit fn sl P scs same keep n (i + 1) w' hk (by omega)
    | false => rfl

/-- **C80** A callback that leaves the elements of the slice as they are is called for exactly the scopes the `Ast` had at the start, in order,
until it says stop; this covers all changes of nodes and of other `Ast`s. -/
theorem C80_visits (f : AstRec) (fn : AState × σ → ScopeRec → (AState × σ) × Bool) (w : AState × σ) (ok : SliceOK w.1 f.scope)
    (keep : ∀ v sc, v.1.elems f.scope = f.scopes w.1 → sc ∈ f.scopes w.1 → (fn v sc).1.1.elems f.scope = f.scopes w.1) :
    f.iterScopeW fn w = visit fn (f.scopes w.1) w := by
  have := iterSlice_visit fn f.scope (fun v => v.1.elems f.scope = f.scopes w.1) (f.scopes w.1) (fun v h => h)
    (fun v sc h hm => keep v sc h hm) f.scope.len 0 w rfl (by rw [AstRec.scopes, elems_length w.1 ok]; omega)
  simpa [AstRec.iterScopeW] using this

/-- **C80** The plain `IterScope` (callbacks that only change what they capture) is the same loop. -/
theorem C80_plain (f : AstRec) (fn : σ → ScopeRec → σ × Bool) (st : AState) (s : σ) (ok : SliceOK st f.scope) :
    f.iterScopeW (fun w sc => (((w.1, (fn w.2 sc).1)), (fn w.2 sc).2)) (st, s) = (st, AstRec.iterScope fn (f.scopes st) s) := by
  have h1 := iterSlice_visit (fun (w : AState × σ) sc => (((w.1, (fn w.2 sc).1)), (fn w.2 sc).2)) f.scope (fun v => v.1 = st) (f.scopes st)
    (fun v h => by rw [h]; rfl) (fun v sc h _ => h) f.scope.len 0 (st, s) rfl (by rw [AstRec.scopes, elems_length st ok]; omega)
  have h2 : ∀ (scs : List ScopeRec) (s : σ),
      visit (fun (w : AState × σ) sc => (((w.1, (fn w.2 sc).1)), (fn w.2 sc).2)) scs (st, s) = (st, AstRec.iterScope fn scs s) := by
    intro scs
    induction scs with
    | nil => intro s; rfl
    | cons sc scs ih =>
      intro s
      simp only [visit, AstRec.iterScope]
      rcases fn s sc with ⟨s', b⟩
      cases b
      · rfl
      · exact ih s'
  rw [AstRec.iterScopeW, h1, List.drop_zero, h2]

/-- What a callback appends to the `Ast` it is called from: the captured variables are the `Ast` itself (a pointer: `AppendScope` changes it)
and `σ`. -/
def appendFn (grow : Nat → Nat) (new : σ → ScopeRec → List ScopeRec × σ × Bool) (w : AState × AstRec × σ) (sc : ScopeRec) :
    (AState × AstRec × σ) × Bool :=
  let x := new w.2.2 sc
  let r := w.2.1.appendScope grow w.1 x.1
  ((r.1, r.2, x.2.1), x.2.2)

/-- What the callbacks append, over a list of scopes. -/
def appended (new : σ → ScopeRec → List ScopeRec × σ × Bool) : List ScopeRec → σ → List ScopeRec
  | [], _ => []
  | sc :: scs, s =>
    let x := new s sc
    x.1 ++ if x.2.2 then appended new scs x.2.1 else []

theorem append_shape (grow : Nat → Nat) (st : AState) (f : AstRec) (xs : List ScopeRec) (ok : SliceOK st f.scope) (t : Slice)
    (okt : SliceOK st t) (ht : t.arr ≠ f.scope.arr ∨ t.off + t.len ≤ f.scope.off + f.scope.len) :
    let r := f.appendScope grow st xs
    SliceOK r.1 t ∧ (t.arr ≠ r.2.scope.arr ∨ t.off + t.len ≤ r.2.scope.off + r.2.scope.len) := by
  obtain ⟨h1, l, hl, h2⟩ := ok
  obtain ⟨g1, m, hm, g2⟩ := okt
  by_cases c : f.scope.len + xs.length ≤ f.scope.cap
  · have e : f.appendScope grow st xs = ({ st with arrs := st.arrs.modify f.scope.arr (fun l => AState.overwrite l (f.scope.off + f.scope.len) xs) },
        { f with scope := { f.scope with len := f.scope.len + xs.length } }) := by
      simp [AstRec.appendScope, AState.append, c]
    rw [e]
    dsimp only
    refine ⟨⟨g1, ?_⟩, ?_⟩
    · rcases Nat.decEq t.arr f.scope.arr with hne | heq
      · exact ⟨m, by simp [List.getElem?_modify, hm, Ne.symm hne], g2⟩
      · have hlm : l = m := by rw [heq, hl] at hm; cases hm; rfl
        subst hlm
        refine ⟨AState.overwrite l (f.scope.off + f.scope.len) xs, by simp [List.getElem?_modify, heq, hl], ?_⟩
        rw [overwrite_length l xs _ (by omega)]; exact g2
    · rcases ht with ht | ht
      · exact .inl ht
      · exact .inr (by omega)
  · have e : f.appendScope grow st xs = ({ st with arrs := st.arrs ++ [st.elems f.scope ++ xs ++ List.replicate (grow (f.scope.len + xs.length) - (f.scope.len + xs.length)) default] },
        { f with scope := { arr := st.arrs.length, off := 0, len := f.scope.len + xs.length,
                            cap := f.scope.len + xs.length + (grow (f.scope.len + xs.length) - (f.scope.len + xs.length)) } }) := by
      simp [AstRec.appendScope, AState.append, c]
    rw [e]
    have hlt : t.arr < st.arrs.length := by rw [List.getElem?_eq_some_iff] at hm; exact hm.1
    exact ⟨⟨g1, m, by simp [List.getElem?_append_left hlt, hm], g2⟩, .inl (by simp only; omega)⟩

/-- **C80** Appending to the very `Ast` one iterates over, whatever is appended under whatever conditions and whatever capacity Go chooses:
the iteration ends, the callback is called for the scopes the `Ast` had at the start and for none of the new ones, and afterwards the `Ast` has
the old scopes followed by all that was appended; nodes and path fields stay. -/
theorem C80_append (grow : Nat → Nat) (new : σ → ScopeRec → List ScopeRec × σ × Bool) (st : AState) (f : AstRec) (s : σ) (ok : SliceOK st f.scope) :
    let r := f.iterScopeW (appendFn grow new) (st, f, s)
    r.2.1.scopes r.1 = f.scopes st ++ appended new (f.scopes st) s ∧
    r.1.heap = st.heap ∧ r.2.1.file = f.file ∧ r.2.1.dir = f.dir ∧ r.2.1.name = f.name ∧ r.2.1.ext = f.ext := by
  intro r
  let P : AState × AstRec × σ → Prop := fun v => v.1.elems f.scope = f.scopes st ∧ SliceOK v.1 f.scope ∧ SliceOK v.1 v.2.1.scope ∧
    (f.scope.arr ≠ v.2.1.scope.arr ∨ f.scope.off + f.scope.len ≤ v.2.1.scope.off + v.2.1.scope.len)
  have keep : ∀ v sc, P v → sc ∈ f.scopes st → P (appendFn grow new v sc).1 := by
    rintro v sc ⟨h1, h2, h3, h4⟩ _
    simp only [appendFn, P]
    have e1 := C41_append_isolated grow v.1 v.2.1 (new v.2.2 sc).1 h3 f.scope h2 h4
    have e2 := (C41_appendScope grow v.1 v.2.1 (new v.2.2 sc).1 h3).2.1
    obtain ⟨e3, e4⟩ := append_shape grow v.1 v.2.1 (new v.2.2 sc).1 h3 f.scope h2 h4
    exact ⟨e1.trans h1, e3, e2, e4⟩
  have hv := iterSlice_visit (appendFn grow new) f.scope P (f.scopes st) (fun v h => h.1) keep f.scope.len 0 (st, f, s)
    ⟨rfl, ok, ok, .inr (Nat.le_refl _)⟩ (by rw [AstRec.scopes, elems_length st ok]; omega)
  have key : ∀ (scs : List ScopeRec) (v : AState × AstRec × σ), SliceOK v.1 v.2.1.scope →
      let r := visit (appendFn grow new) scs v
      r.2.1.scopes r.1 = v.2.1.scopes v.1 ++ appended new scs v.2.2 ∧
      r.1.heap = v.1.heap ∧ r.2.1.file = v.2.1.file ∧ r.2.1.dir = v.2.1.dir ∧ r.2.1.name = v.2.1.name ∧ r.2.1.ext = v.2.1.ext := by
    intro scs
    induction scs with
    | nil => intro v hv; simp [visit, appended]
    | cons sc scs ih =>
      intro v hv
      obtain ⟨a1, a2, a3, a4, a5, a6, a7⟩ := C41_appendScope grow v.1 v.2.1 (new v.2.2 sc).1 hv
      simp only [visit, appendFn, appended]
      cases hb : (new v.2.2 sc).2.2 with
      | false => simp [a1, a3, a4, a5, a6, a7]
      | true =>
        have := ih ((v.2.1.appendScope grow v.1 (new v.2.2 sc).1).1, (v.2.1.appendScope grow v.1 (new v.2.2 sc).1).2, (new v.2.2 sc).2.1) a2
        simp only [a1, a3, a4, a5, a6, a7] at this
        simpa [List.append_assoc] using this
  have hr : r = visit (appendFn grow new) (f.scopes st) (st, f, s) := by
    show f.iterScopeW _ _ = _
    rw [AstRec.iterScopeW, hv, List.drop_zero]
  rw [hr]
  exact key (f.scopes st) (st, f, s) ok

/-- **C80** `ast.Scope()[i] = x` replaces exactly that scope, in every `Ast` that shares the slice, and panics exactly if there is none. -/
theorem C80_assign (st : AState) (sl : Slice) (ok : SliceOK st sl) (i : Nat) (x : ScopeRec) :
    (sl.len ≤ i → st.assign sl i x = none) ∧
    (i < sl.len → ∃ st', st.assign sl i x = some st' ∧ st'.elems sl = (st.elems sl).set i x ∧ st'.heap = st.heap ∧ SliceOK st' sl ∧
      ∀ t, t.arr ≠ sl.arr → st'.elems t = st.elems t) := by
  obtain ⟨h1, l, hl, h2⟩ := ok
  refine ⟨fun hi => by simp [AState.assign]; omega, fun hi => ?_⟩
  have ho : sl.off + i + [x].length ≤ l.length := by simp; omega
  have harr : (st.arrs.modify sl.arr fun l => AState.overwrite l (sl.off + i) [x])[sl.arr]? = some (AState.overwrite l (sl.off + i) [x]) := by
    simp [List.getElem?_modify, hl]
  refine ⟨{ st with arrs := st.arrs.modify sl.arr fun l => AState.overwrite l (sl.off + i) [x] }, by rw [AState.assign, if_pos hi], ?_, rfl, ⟨h1, _, harr, by rw [overwrite_length l [x] _ ho]; exact h2⟩, ?_⟩
  · apply List.ext_getElem?
    intro j
    rw [elems_get _ sl j _ harr, overwrite_get l [x] _ _ ho, List.getElem?_set]
    have hlen : (st.elems sl).length = sl.len := elems_length st ⟨h1, l, hl, h2⟩
    rw [elems_get st sl j l hl, hlen]
    by_cases hj : i = j
    · subst hj; simp [hi]
    · simp only [hj, if_false]
      by_cases hjl : j < sl.len
      · simp only [hjl, if_true]
        by_cases c1 : sl.off + j < sl.off + i
        · simp [c1]
        · have : ¬ sl.off + j < sl.off + i + [x].length := by simp; omega
          simp [c1, this]
          intro h3; omega
      · simp [hjl]
  · intro t ht
    simp [AState.elems, List.getElem?_modify, Ne.symm ht]

/-- **C80** A trap: an element that the callback assigns before its turn comes is visited as assigned.  Here the first call replaces the second
scope; what is visited is the first scope and the new one. -/
theorem C80_assign_seen : ∃ (st : AState) (f : AstRec), SliceOK st f.scope ∧ (f.scopes st).map (·.kind) = [.package_, .type_] ∧
    (f.iterScopeW (fun (w : AState × List ScopeKind) sc =>
      (((w.1.assign f.scope 1 ⟨0, .func_, none⟩).getD w.1, w.2 ++ [sc.kind]), true)) (st, [])).2 = [.package_, .func_] :=
  ⟨⟨Heap.empty, [[⟨0, .package_, none⟩, ⟨1, .type_, none⟩]]⟩, ⟨b!"f", [], [], [], ⟨0, 0, 2, 2⟩⟩, ⟨by decide, _, rfl, by decide⟩, by decide, by decide⟩

/-- `C80_append` on an `Ast` with room for one scope: every type is appended again. -/
example : let st : AState := ⟨Heap.empty, [[⟨0, .package_, none⟩, ⟨1, .type_, none⟩, ⟨2, .type_, none⟩, default]]⟩
    let f : AstRec := ⟨b!"f", [], [], [], ⟨0, 0, 3, 4⟩⟩
    let r := f.iterScopeW (appendFn (fun n => 2 * n) fun (s : Nat) sc => (if sc.kind = .type_ then [sc] else [], s + 1, true)) (st, f, 0)
    SliceOK st f.scope ∧ (r.2.1.scopes r.1).map (·.line) = [0, 1, 2, 1, 2] ∧ r.2.2 = 3 :=
  ⟨⟨by decide, _, rfl, by decide⟩, by decide, by decide⟩

end Goast
