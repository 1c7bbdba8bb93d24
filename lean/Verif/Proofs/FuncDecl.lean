import Verif.Proofs.Labels

/-!
# The labels of a whole function declaration
-/

set_option linter.unusedSimpArgs false
set_option linter.unusedVariables false

namespace Goast
open Heap

/-- The nodes `m` in front of `l` became the nodes `m'` with tokens `ts`; nothing else changed. -/
structure Step (h : Heap) (m l : List Addr) (h1 : Heap) (m' : List Addr) (ts : List Token) : Prop where
  wf : WF h1
  size : h1.size = h.size
  fwd : Fwd h1 (m ++ l).head? (m' ++ l)
  sub : m'.Sublist m
  toks : m'.map (kt h1) = ts
  frame : ∀ x, x ∉ m → h1.next (some x) = h.next (some x) ∧ kt h1 x = kt h x

theorem Fwd.head {h : Heap} {p : Ptr} {l : List Addr} (f : Fwd h p l) : p = l.head? := by
  cases f <;> rfl

theorem Fwd.change {h h' : Heap} : ∀ {a b c : List Addr} {p : Ptr}, Fwd h p (a ++ b) → (∀ x ∈ a, x < h'.size) →
    (∀ x ∈ a, h'.next (some x) = h.next (some x)) → Fwd h' b.head? c → Fwd h' p (a ++ c)
  | [], b, c, p, f, _, _, f' => by rw [show p = b.head? from f.head]; exact f'
  | x :: a, b, c, p, f, hs, hn, f' => by
    obtain ⟨rfl, ha, f⟩ := Fwd.cons_iff.1 f
    refine .cons (hs x (by simp)) ?_
    rw [hn x (by simp)]
    exact Fwd.change f (fun y hy => hs y (by simp [hy])) (fun y hy => hn y (by simp [hy])) f'

theorem Fwd.path {h : Heap} : ∀ {l : List Addr} {p : Ptr}, Fwd h p l → Path h l
  | [], _, _ => trivial
  | [_], _, _ => trivial
  | a :: b :: l, p, f => by
    obtain ⟨rfl, ha, f⟩ := Fwd.cons_iff.1 f
    exact ⟨f.head, Fwd.path f⟩

theorem Step.nil {h : Heap} {l : List Addr} (w : WF h) (f : Fwd h l.head? l) : Step h [] l h [] [] :=
  ⟨w, rfl, f, .slnil, rfl, fun _ _ => ⟨rfl, rfl⟩⟩

theorem Step.comp {h h1 h2 : Heap} {m m' m2 m2' l : List Addr} {ts us : List Token} (a : Step h m (m2 ++ l) h1 m' ts)
    (b : Step h1 m2 l h2 m2' us) (dis : ∀ x ∈ m, x ∉ m2) : Step h (m ++ m2) l h2 (m' ++ m2') (ts ++ us) := by
  have ms : ∀ x ∈ m', x ∈ m := fun x hx => a.sub.mem hx
  refine ⟨b.wf, b.size.trans a.size, ?_, a.sub.append b.sub, ?_, fun x hx => ?_⟩
  · rw [List.append_assoc, List.append_assoc]
    exact a.fwd.change (fun x hx => by rw [b.size]; exact a.fwd.lt x (by simp [hx]))
      (fun x hx => (b.frame x (dis x (ms x hx))).1) b.fwd
  · rw [List.map_append, b.toks, ← a.toks]
    congr 1
    exact List.map_congr_left fun x hx => (b.frame x (dis x (ms x hx))).2
  · simp only [List.mem_append, not_or] at hx
    exact ⟨(b.frame x hx.2).1.trans (a.frame x hx.1).1, (b.frame x hx.2).2.trans (a.frame x hx.1).2⟩

theorem Step.relab {h h1 : Heap} {m l : List Addr} {ts : List Token} (w : WF h) (f : Fwd h (m ++ l).head? (m ++ l))
    (r : Relab h h1 m ts) : Step h m l h1 m ts :=
  ⟨wf_of_links w r.next r.prev, r.size, f.congr (fun x hx => by rw [r.size]; exact f.lt x hx) (fun x _ => r.next _), .refl _, r.toks,
    fun x hx => ⟨r.next _, r.frame x hx⟩⟩

theorem Step.same {h : Heap} (m : List Addr) {l : List Addr} (w : WF h) (f : Fwd h (m ++ l).head? (m ++ l)) :
    Step h m l h m (m.map (kt h)) := .relab w f (.same h m)

/-- The rest behind a step is as before. -/
theorem Step.rest {h h1 : Heap} {m m' l : List Addr} {ts : List Token} (s : Step h m l h1 m' ts) (dis : ∀ x ∈ m, x ∉ l) :
    Fwd h1 l.head? l ∧ l.map (kt h1) = l.map (kt h) :=
  ⟨s.fwd.drop _, List.map_congr_left fun x hx => (s.frame x fun hh => dis x hh hx).2⟩

/-- Merging contiguous nodes. -/
theorem Step.merge {h h1 : Heap} {a : Addr} {m l : List Addr} {k : Kind} (w : WF h) (f : Fwd h (a :: m ++ l).head? (a :: m ++ l))
    (e : deferCombine h (some a :: m.map some) k = some h1) :
    Step h (a :: m) l h1 [a] [(k, h.text (some a) ++ (m.map fun x => h.text (some x)).flatten)] := by
  have la : a < h.size := f.lt a (by simp)
  have nd := f.nodup
  simp only [List.cons_append, List.nodup_cons, List.mem_append, not_or, List.nodup_append] at nd
  rcases List.eq_nil_or_concat m with rfl | ⟨m0, x, rfl⟩
  · obtain ⟨h', e', w', s', k', t', n'⟩ := deferCombine_one w la k
    simp only [List.map_nil] at e
    rw [e] at e'
    simp only [Option.some.injEq] at e'
    subst e'
    refine ⟨w', s', f.congr (fun x hx => by rw [s']; exact f.lt x hx) (fun x _ => n' _), .refl _, ?_, fun y hy => ⟨n' _, ?_⟩⟩
    · simp [kt, k', t']
    · simp only [List.mem_singleton] at hy
      simp [kt, k', t', hy]
  · rw [List.concat_eq_append] at *
    have hx : (m0 ++ [x]).getLast? = some x := by simp
    have hlast : h.next (some x) = l.head? := by
      have := Fwd.drop (a :: m0) (l₂ := x :: l) (by simpa using f)
      exact (Fwd.cons_iff.1 this).2.2.head
    obtain ⟨h', e', w', s', k', t', n'⟩ := deferCombine_links w la (rest := m0 ++ [x]) (fun z hz => f.lt z (by simp at hz ⊢; rcases hz with hz | hz <;> simp [hz]))
      (fun hh => nd.1.1 hh) hx (by
        rw [hlast]
        intro hh
        exact nd.1.2 (List.mem_of_mem_head? hh)) k
    rw [e] at e'
    simp only [Option.some.injEq] at e'
    subst e'
    have notin : ∀ y, y ∉ a :: (m0 ++ [x]) → ¬ (y ∈ m0 ++ [x] ∨ ∃ z ∈ m0 ++ [x], h.next (some y) = some z) := by
      rintro y hy (hh | ⟨z, hz, hh⟩)
      · exact hy (by simp only [List.mem_cons]; exact .inr hh)
      · obtain ⟨y', hy', e'⟩ := Path.pred (m0 ++ [x]) a z (Path.left (l := l) f.path) hz
        have h1 := (w.inverse _ _).1 hh
        rw [(w.inverse _ _).1 e'] at h1
        cases h1
        exact hy hy'
    refine ⟨w', s', ?_, by simp, ?_, fun y hy => ⟨?_, ?_⟩⟩
    · refine .cons (by rw [s']; exact la) ?_
      rw [n', if_pos rfl, hlast]
      have fl := f.drop (a :: (m0 ++ [x]))
      refine fl.congr (fun y hy => by rw [s']; exact fl.lt y hy) (fun y hy => ?_)
      have ya : y ≠ a := by rintro rfl; exact nd.1.2 hy
      have ym : y ∉ a :: (m0 ++ [x]) := by
        simp only [List.mem_cons, not_or]
        exact ⟨ya, fun hh => nd.2.2.2 y hh y hy rfl⟩
      rw [n', if_neg ya, if_neg (notin y ym)]
    · simp [kt, k', t', textOf]
    · have ya : y ≠ a := by rintro rfl; exact hy (by simp)
      rw [n', if_neg ya, if_neg (notin y hy)]
    · have ya : y ≠ a := by rintro rfl; exact hy (by simp)
      simp [kt, k', t', ya]

/-! ## The single result type -/

/-- The callback that looks for the first node that is no comment. -/
def commFn (ws : World × Counts) (a : Addr) : Option ((World × Counts) × Bool) :=
  some ((ws.1, ws.2.step (ws.1.heap.kind (some a))), decide (ws.1.heap.kind (some a) = .comment))

theorem findNext_comm {w w' : World} {p r : Ptr} (e : findNext w p [.comment] { targetReverse := true } [] = some (w', r)) :
    ∃ c, Runs (fun (ws : World × Counts) a => ws.1.heap.next (some a)) commFn (w, {}) p (w', c) r := by
  unfold findNext iterW at e
  obtain ⟨⟨⟨w1, c⟩, r1⟩, e1, e2⟩ := Option.map_eq_some_iff.1 e
  simp only [Prod.mk.injEq] at e2
  obtain ⟨rfl, rfl⟩ := e2
  refine ⟨c, w.heap.size + 1, ?_⟩
  rw [← e1]
  congr 1
  funext ws a
  simp only [commFn, handleHook, List.foldl_nil, findCont]
  congr 2
  by_cases hk : ws.1.heap.kind (some a) = .comment <;> simp [CharSet.new, CharSet.contain, hk]

theorem comm_run {w : World} : ∀ (cs ts : List Addr) {p : Ptr} {c c' : Counts} {w' : World} {r : Ptr}, Fwd w.heap p (cs ++ ts) →
    (∀ x ∈ cs, w.heap.kind (some x) = .comment) → (∀ x, ts.head? = some x → w.heap.kind (some x) ≠ .comment) →
    Runs (fun (ws : World × Counts) a => ws.1.heap.next (some a)) commFn (w, c) p (w', c') r → w' = w ∧ r = ts.head?
  | [], ts, p, c, c', w', r, f, hc, ht, run => by
    have := f.head
    subst this
    cases ts with
    | nil =>
      obtain ⟨e1, e2⟩ := run.end_
      simp only [Prod.mk.injEq] at e1
      exact ⟨e1.1, e2⟩
    | cons t ts =>
      have hk := ht t rfl
      obtain ⟨e1, e2⟩ := run.stop (a := t) (w1 := (w, c.step (w.heap.kind (some t)))) (by simp [commFn, hk])
      simp only [Prod.mk.injEq] at e1
      exact ⟨e1.1, e2⟩
  | x :: cs, ts, p, c, c', w', r, f, hc, ht, run => by
    obtain ⟨rfl, _, f⟩ := Fwd.cons_iff.1 f
    have run := run.cont (w1 := (w, c.step (w.heap.kind (some x)))) (by simp [commFn, hc x (by simp)])
    exact comm_run cs ts f (fun y hy => hc y (by simp [hy])) ht run

/-- The callback that collects a result type. -/
def gatherFn (ws : World × List Ptr) (a : Addr) : Option ((World × List Ptr) × Bool) :=
  match ws.1.heap.kind (some a) with
  | .newLine | .space | .curlyL => some (ws, false)
  | .comment => some (ws, true)
  | _ => some ((ws.1, appendUnrepeatable ws.2 [some a]), true)

theorem singleReturn_eq (d : Nat) (w : World) (a : Addr) (hk : w.heap.kind (some a) = .space) :
    singleReturn (d + 1) w (some a) [] =
      match findNext w (w.heap.next (some a)) [.comment] { targetReverse := true } [] with
      | none => none
      | some (w1, found) =>
        match w1.heap.kind found with
        | .parenL => parenRun d false false w1 (w.heap.next (some a)) []
        | .func_ => parameterFunc d w1 (w.heap.next (some a)) []
        | _ =>
          match iterW gatherFn w1 ([] : List Ptr) (w.heap.next (some a)) with
          | none => none
          | some ((w, buf), ret) =>
            match deferCombine w.heap buf .paramType with
            | none => none
            | some h => some ({ w with heap := h }, ret) := by
  rw [singleReturn]
  simp only [hk, ne_eq, not_true_eq_false, if_false]
  rfl

theorem iterW_runs {σ : Type} {fn : World × σ → Addr → Option ((World × σ) × Bool)} {w w' : World} {s s' : σ} {p r : Ptr}
    (e : iterW fn w s p = some ((w', s'), r)) : Runs (fun (ws : World × σ) a => ws.1.heap.next (some a)) fn (w, s) p (w', s') r :=
  ⟨_, e⟩

/-- Tokens at which a result type ends. -/
def EndsResult (k : Kind) : Prop := k = .newLine ∨ k = .space ∨ k = .curlyL

theorem gather_run {w : World} : ∀ (us ts : List Addr) {p : Ptr} {b b' : List Ptr} {w' : World} {r : Ptr}, Fwd w.heap p (us ++ ts) →
    (∀ x ∈ us, ¬ EndsResult (w.heap.kind (some x))) → (∀ x, ts.head? = some x → EndsResult (w.heap.kind (some x))) →
    (∀ x ∈ us, some x ∉ b) →
    Runs (fun (ws : World × List Ptr) a => ws.1.heap.next (some a)) gatherFn (w, b) p (w', b') r →
    w' = w ∧ r = ts.head? ∧ b' = b ++ (nonComments w.heap us).map some
  | [], ts, p, b, b', w', r, f, hu, ht, hb, run => by
    have := f.head
    subst this
    cases ts with
    | nil =>
      obtain ⟨e1, e2⟩ := run.end_
      simp only [Prod.mk.injEq] at e1
      exact ⟨e1.1, e2, by simp [e1.2, nonComments]⟩
    | cons t ts =>
      have hk := ht t rfl
      obtain ⟨e1, e2⟩ := run.stop (a := t) (w1 := (w, b)) (by rcases hk with hk | hk | hk <;> simp [gatherFn, hk])
      simp only [Prod.mk.injEq] at e1
      exact ⟨e1.1, e2, by simp [e1.2, nonComments]⟩
  | x :: us, ts, p, b, b', w', r, f, hu, ht, hb, run => by
    have nd := f.nodup
    simp only [List.cons_append, List.nodup_cons, List.mem_append, not_or] at nd
    obtain ⟨rfl, _, f⟩ := Fwd.cons_iff.1 f
    have hx := hu x (by simp)
    simp only [EndsResult, not_or] at hx
    by_cases hc : w.heap.kind (some x) = .comment
    · have run := run.cont (w1 := (w, b)) (by simp [gatherFn, hc])
      obtain ⟨h1, h2, h3⟩ := gather_run us ts f (fun y hy => hu y (by simp [hy])) ht (fun y hy => hb y (by simp [hy])) run
      exact ⟨h1, h2, by simp [h3, nonComments, hc]⟩
    · have hbx := hb x (by simp)
      have run := run.cont (w1 := (w, b ++ [some x])) (by
        simp only [gatherFn]
        have : appendUnrepeatable b [some x] = b ++ [some x] := by
          unfold appendUnrepeatable
          cases hl : b.getLast? with
          | none => rw [List.getLast?_eq_none_iff.1 hl]; rfl
          | some l =>
            simp only
            rw [if_neg]
            rintro rfl
            exact hbx (List.mem_of_getLast? hl)
        split <;> first | (exfalso; simp_all; done) | simp [this])
      obtain ⟨h1, h2, h3⟩ := gather_run us ts f (fun y hy => hu y (by simp [hy])) ht (fun y hy hh => by
        rcases List.mem_append.1 hh with hh | hh
        · exact hb y (by simp [hy]) hh
        · simp only [List.mem_singleton, Option.some.injEq] at hh
          subst hh
          exact nd.1.1 hy) run
      exact ⟨h1, h2, by simp [h3, nonComments, hc]⟩

/-- Behind the parameters: a space, comments and the end of a result. -/
theorem single_none (d : Nat) {h : Heap} {w' : World} {r : Ptr} {x : Addr} {cs ts : List Addr} (f : Fwd h (some x) (x :: (cs ++ ts)))
    (kx : h.kind (some x) = .space) (hc : ∀ y ∈ cs, h.kind (some y) = .comment)
    (ht : ∀ y, ts.head? = some y → EndsResult (h.kind (some y))) (e : singleReturn (d + 1) ⟨h, []⟩ (some x) [] = some (w', r)) :
    w' = ⟨h, []⟩ ∧ r = ts.head? := by
  rw [singleReturn_eq _ _ _ kx] at e
  have f' := (Fwd.cons_iff.1 f).2.2
  cases hf : findNext ⟨h, []⟩ (h.next (some x)) [.comment] { targetReverse := true } [] with
  | none => simp [hf] at e
  | some u =>
    obtain ⟨w1, q⟩ := u
    obtain ⟨c, run⟩ := findNext_comm hf
    obtain ⟨rfl, rfl⟩ := comm_run (w := ⟨h, []⟩) cs ts f' hc (fun y hy => by
      rcases ht y hy with k | k | k <;> simp [k]) run
    simp only [hf] at e
    have go : (match iterW gatherFn ⟨h, []⟩ ([] : List Ptr) (h.next (some x)) with
          | none => none
          | some ((w, buf), ret) =>
            match deferCombine w.heap buf .paramType with
            | none => none
            | some h => some ({ w with heap := h }, ret)) = some (w', r) → w' = ⟨h, []⟩ ∧ r = ts.head? := by
      intro e
      cases hg : iterW gatherFn ⟨h, []⟩ ([] : List Ptr) (h.next (some x)) with
      | none => simp [hg] at e
      | some u =>
        obtain ⟨⟨w2, buf⟩, ret⟩ := u
        obtain ⟨rfl, rfl, rfl⟩ := gather_run (w := ⟨h, []⟩) cs ts f' (fun y hy => by
          rw [show (World.mk h []).heap = h from rfl, hc y hy]; simp [EndsResult]) ht (by simp) (iterW_runs hg)
        have : nonComments h cs = [] := by
          rw [nonComments, List.filter_eq_nil_iff]
          intro y hy
          simp [hc y hy]
        simp only [hg, this, List.map_nil, List.append_nil, deferCombine] at e
        simp only [Option.some.injEq, Prod.mk.injEq] at e
        exact ⟨e.1.symm, e.2.symm⟩
    cases hz : ts.head? with
    | none =>
      rw [hz] at e
      rw [← hz]
      exact go (by simpa [Heap.kind] using e)
    | some z =>
      rw [hz] at e
      rw [← hz]
      rcases ht z hz with k | k | k <;> exact go (by simpa [k] using e)

/-- A space and a result type. -/
theorem single_result (d : Nat) {h : Heap} {w' : World} {r : Ptr} {x y : Addr} {us ts : List Addr} (w : WF h)
    (f : Fwd h (some x) (x :: (y :: us ++ ts))) (kx : h.kind (some x) = .space)
    (ky : h.kind (some y) ≠ .parenL ∧ h.kind (some y) ≠ .func_)
    (hu : ∀ z ∈ y :: us, ¬ EndsResult (h.kind (some z)) ∧ h.kind (some z) ≠ .comment)
    (ht : ∀ y, ts.head? = some y → EndsResult (h.kind (some y))) (e : singleReturn (d + 1) ⟨h, []⟩ (some x) [] = some (w', r)) :
    w'.buf = [] ∧ r = ts.head? ∧ Step h (y :: us) ts w'.heap [y] [(.paramType, h.text (some y) ++ (us.map fun x => h.text (some x)).flatten)] := by
  rw [singleReturn_eq _ _ _ kx] at e
  have f' := (Fwd.cons_iff.1 f).2.2
  cases hf : findNext ⟨h, []⟩ (h.next (some x)) [.comment] { targetReverse := true } [] with
  | none => simp [hf] at e
  | some u =>
    obtain ⟨w1, q⟩ := u
    obtain ⟨c, run⟩ := findNext_comm hf
    obtain ⟨rfl, rfl⟩ := comm_run (w := ⟨h, []⟩) [] (y :: us ++ ts) f' (by simp) (fun z hz => by
      simp only [List.cons_append, List.head?_cons, Option.some.injEq] at hz
      subst hz
      exact (hu y (by simp)).2) run
    simp only [hf, List.cons_append, List.head?_cons] at e
    have go : (match iterW gatherFn ⟨h, []⟩ ([] : List Ptr) (h.next (some x)) with
          | none => none
          | some ((w, buf), ret) =>
            match deferCombine w.heap buf .paramType with
            | none => none
            | some h => some ({ w with heap := h }, ret)) = some (w', r) → w'.buf = [] ∧ r = ts.head? ∧
              Step h (y :: us) ts w'.heap [y] [(.paramType, h.text (some y) ++ (us.map fun x => h.text (some x)).flatten)] := by
      intro e
      cases hg : iterW gatherFn ⟨h, []⟩ ([] : List Ptr) (h.next (some x)) with
      | none => simp [hg] at e
      | some u =>
        obtain ⟨⟨w2, buf⟩, ret⟩ := u
        obtain ⟨rfl, rfl, rfl⟩ := gather_run (w := ⟨h, []⟩) (y :: us) ts f' (fun z hz => (hu z hz).1) ht (by simp) (iterW_runs hg)
        have : nonComments h (y :: us) = y :: us := by
          rw [nonComments, List.filter_eq_self]
          intro z hz
          simp [(hu z hz).2]
        simp only [hg, this, List.nil_append, List.map_cons] at e
        split at e
        · cases e
        · rename_i h1 hd
          simp only [Option.some.injEq, Prod.mk.injEq] at e
          obtain ⟨rfl, rfl⟩ := e
          refine ⟨rfl, rfl, Step.merge w ?_ hd⟩
          have := f'.head
          rw [this] at f'
          exact f'
    generalize h.kind (some y) = k at e ky
    cases k <;> first | exact go e | exact absurd rfl ky.1 | exact absurd rfl ky.2

/-! ## Behind the name -/

/-- The state of a run over a function's signature at the rest `R`. -/
def SigDone (c : RCtx) (d : Nat) (fin : Bool) (h : Heap) (l : List Addr) (R ts' : List Token) (w' : World) (r : Ptr) : Prop :=
  ∃ m l₂ m' h₂, l = m ++ l₂ ∧ l₂.map (kt h) = R ∧ Step h m l₂ h₂ m' ts' ∧ Good c h₂ ∧
    JR false [] (generalBody d nlSet []) ⟨h₂, []⟩ ⟨false, none, (true, fin)⟩ l₂.head? w' r

/-- Put a step in front. -/
theorem SigDone.after {c : RCtx} {d : Nat} {fin : Bool} {h h1 : Heap} {m m' l : List Addr} {R ts us : List Token} {w' : World} {r : Ptr}
    (nd : (m ++ l).Nodup) (a : Step h m l h1 m' ts) (b : SigDone c d fin h1 l R us w' r) : SigDone c d fin h (m ++ l) R (ts ++ us) w' r := by
  obtain ⟨m2, l₂, m2', h2, rfl, b3, b4, b5, b6⟩ := b
  rw [List.nodup_append] at nd
  refine ⟨m ++ m2, l₂, m' ++ m2', h2, by simp, ?_, a.comp b4 fun x hx hx' => nd.2.2 x hx x (by simp [hx']) rfl, b5, b6⟩
  rw [← b3]
  exact (List.map_congr_left fun x hx => (a.frame x fun hh => nd.2.2 x hh x (by simp [hx]) rfl).2).symm

theorem Step.path {h h1 : Heap} {m m' l : List Addr} {ts : List Token} (s : Step h m l h1 m' ts) : Path h1 (m' ++ l) := s.fwd.path

theorem world_eta {w : World} {h : Heap} (e : w.heap = h) (b : w.buf = []) : w = ⟨h, []⟩ := by
  cases w; simp_all

/-- The invariant after one step of the loop. -/
theorem general_good {c : RCtx} {d : Nat} (o : c.OK) (hF : ∀ a, c.S a → c.f a ≤ c.F) (ne : c.ne = false) (hd : 8 * c.F + 2 ≤ d) {h : Heap} (g : Good c h) {y : Addr} (sy : c.S y)
    {s s1 : Bool × Bool} {w1 : World} {ctl : Ctl} (e : generalBody d nlSet [] ⟨h, []⟩ s y = some (w1, s1, ctl)) : Good c w1.heap := by
  obtain ⟨w2, s2, ctl2, e2, i⟩ := generalBody_inv (M := c.F) o nlSet H_nil (w := ⟨h, []⟩)
    ⟨g, by simp, by simp [ne]⟩ (Nat.le_refl _) sy (hF y sy) s hd
  rw [e] at e2
  simp only [Option.some.injEq, Prod.mk.injEq] at e2
  rw [e2.1]; exact i.good

theorem sig_run {c : RCtx} (d : Nat) (o : c.OK) (hF : ∀ a, c.S a → c.f a ≤ c.F) (ne : c.ne = false) (hd : 8 * c.F + 2 ≤ d + 3)
    {R : List Token} {fin s : Bool} {ts ts' : List Token} (S : Sig R fin s ts ts') : ∀ {h : Heap} {l : List Addr} {w' : World} {r : Ptr},
    WF h → Fwd h l.head? l → Good c h → (∀ x ∈ l, c.S x) → l.map (kt h) = ts →
    JR false [] (generalBody (d + 3) nlSet []) ⟨h, []⟩ ⟨false, none, (true, s)⟩ l.head? w' r → SigDone c (d + 3) fin h l R ts' w' r := by
  induction S with
  | stop =>
    intro h l w' r w f g hS e run
    exact ⟨[], l, [], h, rfl, e, Step.nil w f, g, run⟩
  | @pass seen t ts ts' hp hc hsq hn hb _ ih =>
    intro h l w' r w f g hS e run
    obtain ⟨y, l, rfl, e1, e2⟩ := List.map_eq_cons_iff.1 e
    have f' := (Fwd.cons_iff.1 f).2.2
    rw [← e1] at hp hc hsq hn hb
    simp only [kt] at hp hc hsq hn hb
    have run := run.cont (w1 := ⟨h, []⟩) (s1 := (true, seen)) (by
      simp only [generalBody, nlSet_contain]
      by_cases hk : h.kind (some y) = .newLine
      · simp [hk, hn hk]
      · simp only [hk, decide_false, Bool.false_eq_true, if_false]
        split <;> first | rfl | (exfalso; simp_all; done) | simp_all)
    have hh := f'.head
    rw [hh] at f'
    simp only [hh] at run
    have := ih w f' g (fun x hx => hS x (by simp [hx])) e2 run
    have := this.after (m := [y]) f.nodup (Step.same [y] w f)
    rw [← e1]
    exact this
  | @parens seen t u ps ps' ts ts' ht hu P _ ih =>
    intro h l w' r w f g hS e run
    obtain ⟨y, l, rfl, e1, e2⟩ := List.map_eq_cons_iff.1 e
    obtain ⟨ys, l2, rfl, e3, e4⟩ := List.map_eq_append_iff.1 e2
    obtain ⟨q, l3, rfl, e5, e6⟩ := List.map_eq_cons_iff.1 e4
    rw [← e1] at ht
    rw [← e5] at hu
    simp only [kt] at ht hu
    simp only [List.head?_cons] at run
    obtain ⟨x, hx⟩ := run.some_body
    have hb : generalBody (d + 3) nlSet [] ⟨h, []⟩ (true, seen) y = toJump (parenRun (d + 3) false false ⟨h, []⟩ (some y) []) (true, true) := by
      simp [generalBody, nlSet_contain, ht]
    cases hg : parenRun (d + 3) false false ⟨h, []⟩ (some y) [] with
    | none => rw [hb, hg] at hx; simp [toJump] at hx
    | some v =>
      obtain ⟨w1, q1⟩ := v
      have nd := f.nodup
      have pq : Path h (y :: (ys ++ [q])) := by
        have : y :: (ys ++ q :: l3) = (y :: (ys ++ [q])) ++ l3 := by simp
        rw [this] at f
        exact f.path.left
      have ndq : (y :: (ys ++ [q])).Nodup := by
        have : y :: (ys ++ q :: l3) = (y :: (ys ++ [q])) ++ l3 := by simp
        rw [this] at nd
        exact (List.nodup_append.1 nd).1
      have gg : Good c w1.heap := general_good o hF ne hd g (hS y (by simp)) (by rw [hb, hg]; rfl)
      obtain ⟨hbuf, rfl, rl⟩ := paren_exact (d + 1) false P e3 pq ndq (fun x hx => f.lt x (by simp [hx])) ht hu hg
      have run := run.jump_path (w1 := w1) (s1 := (true, true)) (q := q) (mid := ys) (by rw [hb, hg]; rfl) (rl.path pq) (by
        intro hh
        simp only [List.nodup_cons, List.nodup_append] at ndq
        exact ndq.2.2.2 q hh q (by simp) rfl)
      have rl2 : Relab h w1.heap (y :: (ys ++ [q])) (kt h y :: (ps' ++ [kt h q])) := by
        refine (Relab.same h [y]).cons ?_ (List.nodup_cons.1 ndq).1
        have qys : q ∉ ys := by
          intro hh
          simp only [List.nodup_cons, List.nodup_append] at ndq
          exact ndq.2.2.2 q hh q (by simp) rfl
        have kq : kt w1.heap q = kt h q := rl.frame q qys
        have := rl.append (Relab.same w1.heap [q]) (fun x hx hx' => by
          simp only [List.mem_singleton] at hx'
          subst hx'
          exact qys hx)
        simpa [kq] using this
      have st : Step h (y :: (ys ++ [q])) l3 w1.heap (y :: (ys ++ [q])) (kt h y :: (ps' ++ [kt h q])) :=
        Step.relab w (by simpa using f) rl2
      have kq : w1.heap.kind (some q) = .parenR := by
        have := rl.frame q (by
            intro hh
            simp only [List.nodup_cons, List.nodup_append] at ndq
            exact ndq.2.2.2 q hh q (by simp) rfl)
        rw [← hu]; exact congrArg Prod.fst this
      rw [world_eta rfl hbuf] at run
      have run := run.cont (w1 := ⟨w1.heap, []⟩) (s1 := (true, true)) (by simp [generalBody, nlSet_contain, kq])
      have nd2 : (y :: (ys ++ [q]) ++ l3).Nodup := by simpa using nd
      obtain ⟨f3, m3⟩ := st.rest (fun x hx hx' => (List.nodup_append.1 nd2).2.2 x hx x hx' rfl)
      have hq : w1.heap.next (some q) = l3.head? := by
        rw [rl.next]
        have := Fwd.drop (y :: ys) (l₂ := q :: l3) (by simpa using f)
        exact (Fwd.cons_iff.1 this).2.2.head
      simp only [hq] at run
      have := (ih st.wf f3 gg (fun x hx => hS x (by simp [hx])) (by rw [m3]; exact e6) run).after nd2 st
      rw [← e1, ← e5]
      simpa using this
  | @body seen t u ts inner rest rest' ht hc _ ih =>
    intro h l w' r w f g hS e run
    obtain ⟨y, l, rfl, e1, e2⟩ := List.map_eq_cons_iff.1 e
    rw [← e1] at ht
    simp only [kt] at ht
    rw [← e2] at hc
    obtain ⟨i', u', rest'', hc', rfl, rfl, er⟩ := closeAt_map _ _ h l 0 _ _ _ hc
    simp only [List.head?_cons] at run
    obtain ⟨x, hx⟩ := run.some_body
    have hb : generalBody (d + 3) nlSet [] ⟨h, []⟩ (true, seen) y = toJump (curlyRun ⟨h, []⟩ (some y) []) (true, seen) := by
      simp [generalBody, nlSet_contain, ht]
    cases hg : curlyRun ⟨h, []⟩ (some y) [] with
    | none => rw [hb, hg] at hx; simp [toJump] at hx
    | some v =>
      obtain ⟨w1, q1⟩ := v
      obtain ⟨rfl, rfl, rfl, kz⟩ := skipNest_exact (by decide) ht f.path hc' hg
      have nd := f.nodup
      have ex : y :: (i' ++ u' :: rest'') = (y :: (i' ++ [u'])) ++ rest'' := by simp
      rw [ex] at f nd ⊢
      have run := run.jump_path (w1 := ⟨h, []⟩) (s1 := (true, seen)) (q := u') (mid := i') (by rw [hb, hg]; rfl) f.path.left (by
        intro hh
        have := (List.nodup_append.1 nd).1
        simp only [List.nodup_cons, List.nodup_append] at this
        exact this.2.2.2 u' hh u' (by simp) rfl)
      have run := run.cont (w1 := ⟨h, []⟩) (s1 := (true, seen)) (by simp [generalBody, nlSet_contain, kz])
      have f3 := f.drop
      have hq : h.next (some u') = rest''.head? := by
        have := Fwd.drop (y :: i') (l₂ := u' :: rest'') (by simpa using f)
        exact (Fwd.cons_iff.1 this).2.2.head
      simp only [hq] at run
      have := (ih w f3 g (fun x hx => hS x (by simp [hx])) er run).after nd (Step.same _ w f)
      rw [← e1]
      simpa using this
  | @square seen t u ts inner rest rest' ht hc _ ih =>
    intro h l w' r w f g hS e run
    obtain ⟨y, l, rfl, e1, e2⟩ := List.map_eq_cons_iff.1 e
    rw [← e1] at ht
    simp only [kt] at ht
    rw [← e2] at hc
    obtain ⟨i', u', rest'', hc', rfl, rfl, er⟩ := closeAt_map _ _ h l 0 _ _ _ hc
    simp only [List.head?_cons] at run
    obtain ⟨x, hx⟩ := run.some_body
    have hb : generalBody (d + 3) nlSet [] ⟨h, []⟩ (true, seen) y = toJump (squareRun ⟨h, []⟩ (some y) []) (true, true) := by
      simp [generalBody, nlSet_contain, ht]
    cases hg : squareRun ⟨h, []⟩ (some y) [] with
    | none => rw [hb, hg] at hx; simp [toJump] at hx
    | some v =>
      obtain ⟨w1, q1⟩ := v
      obtain ⟨rfl, rfl, rfl, kz⟩ := skipNest_exact (by decide) ht f.path hc' hg
      have nd := f.nodup
      have ex : y :: (i' ++ u' :: rest'') = (y :: (i' ++ [u'])) ++ rest'' := by simp
      rw [ex] at f nd ⊢
      have run := run.jump_path (w1 := ⟨h, []⟩) (s1 := (true, true)) (q := u') (mid := i') (by rw [hb, hg]; rfl) f.path.left (by
        intro hh
        have := (List.nodup_append.1 nd).1
        simp only [List.nodup_cons, List.nodup_append] at this
        exact this.2.2.2 u' hh u' (by simp) rfl)
      have run := run.cont (w1 := ⟨h, []⟩) (s1 := (true, true)) (by simp [generalBody, nlSet_contain, kz])
      have f3 := f.drop
      have hq : h.next (some u') = rest''.head? := by
        have := Fwd.drop (y :: i') (l₂ := u' :: rest'') (by simpa using f)
        exact (Fwd.cons_iff.1 this).2.2.head
      simp only [hq] at run
      have := (ih w f3 g (fun x hx => hS x (by simp [hx])) er run).after nd (Step.same _ w f)
      rw [← e1]
      simpa using this
  | @space t cs ts ts' ht hc hn _ ih =>
    intro h l w' r w f g hS e run
    obtain ⟨y, l, rfl, e1, e2⟩ := List.map_eq_cons_iff.1 e
    obtain ⟨ys, l2, rfl, e3, e4⟩ := List.map_eq_append_iff.1 e2
    rw [← e1] at ht
    simp only [kt] at ht
    simp only [List.head?_cons] at run
    obtain ⟨x, hx⟩ := run.some_body
    have hb : generalBody (d + 3) nlSet [] ⟨h, []⟩ (true, true) y = toJump (singleReturn (d + 3) ⟨h, []⟩ (some y) []) (true, true) := by
      simp [generalBody, nlSet_contain, ht]
    cases hg : singleReturn (d + 3) ⟨h, []⟩ (some y) [] with
    | none => rw [hb, hg] at hx; simp [toJump] at hx
    | some v =>
      obtain ⟨w1, q1⟩ := v
      obtain ⟨rfl, rfl⟩ := single_none (d + 2) f ht (fun z hz => hc (kt h z) (by rw [← e3]; exact List.mem_map_of_mem hz))
        (fun z hz => hn (kt h z) (by rw [← e4, List.head?_map, hz]; rfl)) hg
      have nd := f.nodup
      have ex : y :: (ys ++ l2) = (y :: ys) ++ l2 := rfl
      rw [ex] at f nd ⊢
      have st := Step.same (y :: ys) w f
      have f3 := f.drop
      suffices hh : SigDone c (d + 3) fin h l2 R ts' w' r by
        have := hh.after nd st
        rw [← e1, ← e3]
        simpa using this
      cases l2 with
      | nil =>
        have run := run.jump (w1 := ⟨h, []⟩) (s1 := (true, true)) (q := none) (by rw [hb, hg]; rfl)
        simp only [decide_true] at run
        obtain ⟨rfl, rfl⟩ := run.skipAll
        exact ih w f3 g (by simp) e4 ⟨_, 0, rfl⟩
      | cons q l3 =>
        have pq : Path h (y :: (ys ++ [q])) := by
          have : y :: ys ++ q :: l3 = (y :: (ys ++ [q])) ++ l3 := by simp
          rw [this] at f
          exact f.path.left
        have run := run.jump_path (w1 := ⟨h, []⟩) (s1 := (true, true)) (q := q) (mid := ys) (by rw [hb, hg]; rfl) pq (by
          intro hh
          exact (List.nodup_append.1 nd).2.2 q (by simp [hh]) q (by simp) rfl)
        exact ih w f3 g (fun x hx => hS x (by simp [hx])) e4 run
  | @results b t u ps ps' ts ts' hb' ht hu P _ ih =>
    intro h l w' r w f g hS e run
    obtain ⟨z, l, rfl, e0, e⟩ := List.map_eq_cons_iff.1 e
    obtain ⟨y, l, rfl, e1, e2⟩ := List.map_eq_cons_iff.1 e
    obtain ⟨ys, l2, rfl, e3, e4⟩ := List.map_eq_append_iff.1 e2
    obtain ⟨q, l3, rfl, e5, e6⟩ := List.map_eq_cons_iff.1 e4
    rw [← e0] at hb'
    rw [← e1] at ht
    rw [← e5] at hu
    simp only [kt] at ht hu hb'
    simp only [List.head?_cons] at run
    obtain ⟨x, hx⟩ := run.some_body
    have hb : generalBody (d + 3) nlSet [] ⟨h, []⟩ (true, true) z = toJump (singleReturn (d + 3) ⟨h, []⟩ (some z) []) (true, true) := by
      simp [generalBody, nlSet_contain, hb']
    have hzy : h.next (some z) = some y := (Fwd.cons_iff.1 f).2.2.head
    have f1 := (Fwd.cons_iff.1 f).2.2
    cases hg : singleReturn (d + 3) ⟨h, []⟩ (some z) [] with
    | none => rw [hb, hg] at hx; simp [toJump] at hx
    | some v =>
      obtain ⟨w1, q1⟩ := v
      have hg0 := hg
      have gg : Good c w1.heap := general_good o hF ne hd g (hS z (by simp)) (by rw [hb, hg]; rfl)
      rw [singleReturn_eq _ _ _ hb'] at hg
      cases hf : findNext ⟨h, []⟩ (h.next (some z)) [.comment] { targetReverse := true } [] with
      | none => simp [hf] at hg
      | some v2 =>
        obtain ⟨w2, q2⟩ := v2
        obtain ⟨c, run2⟩ := findNext_comm hf
        obtain ⟨rfl, rfl⟩ := comm_run (w := ⟨h, []⟩) [] (y :: (ys ++ q :: l3)) f1 (by simp) (fun z hz => by
          simp only [List.head?_cons, Option.some.injEq] at hz
          subst hz
          simp [ht]) run2
        simp only [hf, List.head?_cons, ht] at hg
        rw [hzy] at hg
        have nd := f.nodup
        have pq : Path h (z :: y :: (ys ++ [q])) := by
          have : z :: y :: (ys ++ q :: l3) = (z :: y :: (ys ++ [q])) ++ l3 := by simp
          rw [this] at f
          exact f.path.left
        have ndq' : (z :: y :: (ys ++ [q])).Nodup := by
          have : z :: y :: (ys ++ q :: l3) = (z :: y :: (ys ++ [q])) ++ l3 := by simp
          rw [this] at nd
          exact (List.nodup_append.1 nd).1
        have ndq := (List.nodup_cons.1 ndq').2
        have qys : q ∉ ys := by
          intro hh
          simp only [List.nodup_cons, List.nodup_append] at ndq
          exact ndq.2.2.2 q hh q (by simp) rfl
        obtain ⟨hbuf, rfl, rl⟩ := paren_exact d false P e3 pq.tail ndq (fun x hx => f.lt x (by simp [hx])) ht hu hg
        have run := run.jump_path (w1 := w1) (s1 := (true, true)) (q := q) (mid := y :: ys) (by rw [hb, hg0]; rfl) (rl.path pq) (by
          intro hh
          rcases List.mem_cons.1 hh with rfl | hh
          · exact (List.nodup_cons.1 ndq).1 (by simp)
          · exact qys hh)
        have kq : kt w1.heap q = kt h q := rl.frame q qys
        have rl2 : Relab h w1.heap (z :: y :: (ys ++ [q])) (kt h z :: kt h y :: (ps' ++ [kt h q])) := by
          refine (Relab.same h [z]).cons ((Relab.same h [y]).cons ?_ (List.nodup_cons.1 ndq).1) (List.nodup_cons.1 ndq').1
          have := rl.append (Relab.same w1.heap [q]) (fun x hx hx' => by
            simp only [List.mem_singleton] at hx'
            subst hx'
            exact qys hx)
          simpa [kq] using this
        have st : Step h (z :: y :: (ys ++ [q])) l3 w1.heap (z :: y :: (ys ++ [q])) (kt h z :: kt h y :: (ps' ++ [kt h q])) :=
          Step.relab w (by simpa using f) rl2
        have kq : w1.heap.kind (some q) = .parenR := by rw [← hu]; exact congrArg Prod.fst kq
        rw [world_eta rfl hbuf] at run
        have run := run.cont (w1 := ⟨w1.heap, []⟩) (s1 := (true, true)) (by simp [generalBody, nlSet_contain, kq])
        have nd2 : (z :: y :: (ys ++ [q]) ++ l3).Nodup := by simpa using nd
        obtain ⟨f3, m3⟩ := st.rest (fun x hx hx' => (List.nodup_append.1 nd2).2.2 x hx x hx' rfl)
        have hq : w1.heap.next (some q) = l3.head? := by
          rw [rl.next]
          have := Fwd.drop (z :: y :: ys) (l₂ := q :: l3) (by simpa using f)
          exact (Fwd.cons_iff.1 this).2.2.head
        simp only [hq] at run
        have := (ih st.wf f3 gg (fun x hx => hS x (by simp [hx])) (by rw [m3]; exact e6) run).after nd2 st
        rw [← e0, ← e1, ← e5]
        simpa using this
  | @func b t l0 u ps ps' ts ts' hb' ht hl hu P _ ih =>
    intro h l w' r w f g hS e run
    obtain ⟨z, l, rfl, e0, e⟩ := List.map_eq_cons_iff.1 e
    obtain ⟨y, l, rfl, e1, e2⟩ := List.map_eq_cons_iff.1 e
    obtain ⟨o', l, rfl, e7, e2⟩ := List.map_eq_cons_iff.1 e2
    obtain ⟨ys, l2, rfl, e3, e4⟩ := List.map_eq_append_iff.1 e2
    obtain ⟨q, l3, rfl, e5, e6⟩ := List.map_eq_cons_iff.1 e4
    rw [← e0] at hb'
    rw [← e1] at ht
    rw [← e7] at hl
    rw [← e5] at hu
    simp only [kt] at ht hu hb' hl
    simp only [List.head?_cons] at run
    obtain ⟨x, hx⟩ := run.some_body
    have hb : generalBody (d + 3) nlSet [] ⟨h, []⟩ (true, true) z = toJump (singleReturn (d + 3) ⟨h, []⟩ (some z) []) (true, true) := by
      simp [generalBody, nlSet_contain, hb']
    have hzy : h.next (some z) = some y := (Fwd.cons_iff.1 f).2.2.head
    have f1 := (Fwd.cons_iff.1 f).2.2
    cases hg : singleReturn (d + 3) ⟨h, []⟩ (some z) [] with
    | none => rw [hb, hg] at hx; simp [toJump] at hx
    | some v =>
      obtain ⟨w1, q1⟩ := v
      have hg0 := hg
      have gg : Good c w1.heap := general_good o hF ne hd g (hS z (by simp)) (by rw [hb, hg]; rfl)
      rw [singleReturn_eq _ _ _ hb'] at hg
      cases hf : findNext ⟨h, []⟩ (h.next (some z)) [.comment] { targetReverse := true } [] with
      | none => simp [hf] at hg
      | some v2 =>
        obtain ⟨w2, q2⟩ := v2
        obtain ⟨cc, run2⟩ := findNext_comm hf
        obtain ⟨rfl, rfl⟩ := comm_run (w := ⟨h, []⟩) [] (y :: o' :: (ys ++ q :: l3)) f1 (by simp) (fun z hz => by
          simp only [List.head?_cons, Option.some.injEq] at hz
          subst hz
          simp [ht]) run2
        simp only [hf, List.head?_cons, ht] at hg
        rw [hzy] at hg
        have nd := f.nodup
        have ex : z :: y :: o' :: (ys ++ q :: l3) = (z :: y :: o' :: (ys ++ [q])) ++ l3 := by simp
        have pq : Path h (z :: y :: o' :: (ys ++ [q])) := by
          rw [ex] at f
          exact f.path.left
        have ndq' : (z :: y :: o' :: (ys ++ [q])).Nodup := by
          rw [ex] at nd
          exact (List.nodup_append.1 nd).1
        have ndq := (List.nodup_cons.1 ndq').2
        have ndp := (List.nodup_cons.1 ndq).2
        have qys : q ∉ ys := by
          intro hh
          simp only [List.nodup_cons, List.nodup_append] at ndp
          exact ndp.2.2.2 q hh q (by simp) rfl
        obtain ⟨hbuf, hq1, rl⟩ := parameterFunc_exact (params_run false P) _ e3 pq.tail ndq (fun x hx => f.lt x (by simp [hx])) ht hl hu hg
        have hq : h.next (some q) = l3.head? := by
          have := Fwd.drop (z :: y :: o' :: ys) (l₂ := q :: l3) (by simpa using f)
          exact (Fwd.cons_iff.1 this).2.2.head
        have kq : kt w1.heap q = kt h q := rl.frame q qys
        have rl2 : Relab h w1.heap (z :: y :: o' :: (ys ++ [q])) (kt h z :: kt h y :: kt h o' :: (ps' ++ [kt h q])) := by
          refine (Relab.same h [z]).cons ((Relab.same h [y]).cons ((Relab.same h [o']).cons ?_ (List.nodup_cons.1 ndp).1) (List.nodup_cons.1 ndq).1)
            (List.nodup_cons.1 ndq').1
          have := rl.append (Relab.same w1.heap [q]) (fun x hx hx' => by
            simp only [List.mem_singleton] at hx'
            subst hx'
            exact qys hx)
          simpa [kq] using this
        rw [ex] at f nd ⊢
        have st : Step h (z :: y :: o' :: (ys ++ [q])) l3 w1.heap (z :: y :: o' :: (ys ++ [q])) (kt h z :: kt h y :: kt h o' :: (ps' ++ [kt h q])) :=
          Step.relab w (by simpa using f) rl2
        obtain ⟨f3, m3⟩ := st.rest (fun x hx hx' => (List.nodup_append.1 nd).2.2 x hx x hx' rfl)
        rw [hq] at hq1
        subst hq1
        suffices hh : SigDone c (d + 3) fin w1.heap l3 R ts' w' r by
          have := hh.after nd st
          rw [← e0, ← e1, ← e7, ← e5]
          simpa using this
        cases l3 with
        | nil =>
          have run := run.jump (w1 := w1) (s1 := (true, true)) (q := none) (by rw [hb, hg0]; rfl)
          simp only [decide_true] at run
          obtain ⟨rfl, rfl⟩ := run.skipAll
          rw [world_eta (w := w') rfl hbuf]
          exact ih st.wf f3 gg (by simp) (by rw [m3]; exact e6) ⟨_, 0, rfl⟩
        | cons q' l4 =>
          have run := run.jump_path (w1 := w1) (s1 := (true, true)) (q := q') (mid := y :: o' :: (ys ++ [q])) (by rw [hb, hg0]; rfl) (by
            have := st.path
            have ex2 : z :: y :: o' :: (ys ++ [q]) ++ q' :: l4 = (z :: (y :: o' :: (ys ++ [q]) ++ [q'])) ++ l4 := by simp
            rw [ex2] at this
            exact this.left) (by
            intro hh
            exact (List.nodup_append.1 nd).2.2 q' (List.mem_cons_of_mem _ hh) q' (by simp) rfl)
          rw [world_eta (w := w1) rfl hbuf] at run
          exact ih st.wf f3 gg (fun x hx => hS x (by simp [hx])) (by rw [m3]; exact e6) run
  | @result b t us ts ts' hb' ht hu hn _ ih =>
    intro h l w' r w f g hS e run
    obtain ⟨z, l, rfl, e0, e⟩ := List.map_eq_cons_iff.1 e
    obtain ⟨ys, l2, rfl, e3, e4⟩ := List.map_eq_append_iff.1 e
    obtain ⟨y, ys, rfl, e1, e2⟩ := List.map_eq_cons_iff.1 e3
    have e3' : (y :: ys).map (kt h) = t :: us := by simp [e1, e2]
    rw [← e0] at hb'
    rw [← e1] at ht
    simp only [kt] at ht hb'
    simp only [List.head?_cons] at run
    obtain ⟨x, hx⟩ := run.some_body
    have hb : generalBody (d + 3) nlSet [] ⟨h, []⟩ (true, true) z = toJump (singleReturn (d + 3) ⟨h, []⟩ (some z) []) (true, true) := by
      simp [generalBody, nlSet_contain, hb']
    cases hg : singleReturn (d + 3) ⟨h, []⟩ (some z) [] with
    | none => rw [hb, hg] at hx; simp [toJump] at hx
    | some v =>
      obtain ⟨w1, q1⟩ := v
      obtain ⟨hbuf, rfl, st⟩ := single_result (d + 2) w f hb' ht (fun x hx => by
          have := hu (kt h x) (by rw [← e3']; exact List.mem_map_of_mem hx)
          refine ⟨?_, this.2.2.2⟩
          rintro (k | k | k)
          · exact this.1 k
          · exact this.2.1 k
          · exact this.2.2.1 k)
        (fun z hz => hn (kt h z) (by rw [← e4, List.head?_map, hz]; rfl)) hg
      have nd := f.nodup
      have ex : z :: (y :: ys ++ l2) = [z] ++ ((y :: ys) ++ l2) := rfl
      have st2 := (Step.same [z] (l := (y :: ys) ++ l2) w f).comp st (by
        intro x hx hx'
        simp only [List.mem_singleton] at hx
        subst hx
        exact (List.nodup_cons.1 nd).1 (List.mem_append_left _ hx'))
      have nd2 : ([z] ++ (y :: ys) ++ l2).Nodup := by simpa using nd
      obtain ⟨f3, m3⟩ := st2.rest (fun x hx hx' => (List.nodup_append.1 nd2).2.2 x hx x hx' rfl)
      have gg : Good c w1.heap := general_good o hF ne hd g (hS z (by simp)) (by rw [hb, hg]; rfl)
      suffices hh : SigDone c (d + 3) fin w1.heap l2 R ts' w' r by
        have := hh.after nd2 st2
        rw [← e0, ← e1, ← e2]
        simp only [List.map_cons, List.map_nil, List.map_map] at this ⊢
        exact this
      cases l2 with
      | nil =>
        have run := run.jump (w1 := w1) (s1 := (true, true)) (q := none) (by rw [hb, hg]; rfl)
        simp only [decide_true] at run
        obtain ⟨rfl, rfl⟩ := run.skipAll
        rw [world_eta (w := w') rfl hbuf]
        exact ih st2.wf f3 gg (by simp) (by rw [m3]; exact e4) ⟨_, 0, rfl⟩
      | cons q l3 =>
        have run := run.jump_path (w1 := w1) (s1 := (true, true)) (q := q) (mid := [y]) (by rw [hb, hg]; rfl) (by
          have := st2.path
          exact Path.left (m := [z, y, q]) (l := l3) this) (by
          intro hh
          simp only [List.mem_singleton] at hh
          subst hh
          exact (List.nodup_append.1 nd2).2.2 q (by simp) q (by simp) rfl)
        rw [world_eta (w := w1) rfl hbuf] at run
        exact ih st2.wf f3 gg (fun x hx => hS x (by simp [hx])) (by rw [m3]; exact e4) run

end Goast
