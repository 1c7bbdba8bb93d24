import Verif.Proofs.Copy

/-!
# `NewNodes` and preservation of acyclicity
-/

namespace Goast
namespace Heap

theorem line_extend_ge {h : Heap} {rs} {i : Nat} {r : NodeRec} (hr : rs[i]? = some r) :
    (h.extend rs).line (some (h.size + i)) = r.line ∧ (h.extend rs).kind (some (h.size + i)) = r.kind ∧
    (h.extend rs).text (some (h.size + i)) = r.text := by
  simp only [line, kind, text, getElem?_extend_ge, hr, and_self]

/-- What the loop of `NewNodes` achieves. -/
structure NewNodesPost (h : Heap) (cur : Addr) (L : Int) (ts : List Bytes) (h' : Heap) : Prop where
  wf : WF h'
  size : h'.size = h.size + ts.length
  fwd : Fwd h' (some cur) (cur :: List.range' h.size ts.length)
  next_old : ∀ x, x < h.size → x ≠ cur → h'.next (some x) = h.next (some x)
  prev_old : ∀ x, x < h.size → h'.prev (some x) = h.prev (some x)
  data_old : ∀ x, x < h.size → h'.line (some x) = h.line (some x) ∧
    h'.kind (some x) = h.kind (some x) ∧ h'.text (some x) = h.text (some x)
  data_new : ∀ i t, ts[i]? = some t → h'.line (some (h.size + i)) = L + countNL (ts.take i).flatten ∧
    h'.kind (some (h.size + i)) = Kind.new t ∧ h'.text (some (h.size + i)) = t

theorem countNL_append (a b : Bytes) : countNL (a ++ b) = countNL a + countNL b := by
  simp [countNL, List.count_append]

theorem newNodesLoop_post (ts : List Bytes) : ∀ (h : Heap) (cur : Addr) (L : Int), WF h → cur < h.size →
    h.next (some cur) = none → NewNodesPost h cur L ts (newNodesLoop h cur L ts) := by
  induction ts with
  | nil =>
    intro h cur L w hc hn
    exact ⟨w, rfl, .cons hc (by rw [newNodesLoop, hn]; exact .nil), fun _ _ _ => rfl, fun _ _ => rfl,
      fun _ _ => ⟨rfl, rfl, rfl⟩, by simp⟩
  | cons t ts ih =>
    intro h cur L w hc hn
    rw [newNodesLoop]
    simp only [newNode_eq, List.headD_nil]
    generalize hh1 : h.extend [⟨L, Kind.new t, t, none, none⟩] = h1
    have w1 : WF h1 := by rw [← hh1]; exact wf_extend_unlinked w (by simp) (by simp)
    have s1 : h1.size = h.size + 1 := by rw [← hh1]; simp
    have n1 : ∀ p, h1.next p = h.next p := by
      intro p; rw [← hh1]; exact next_extend_unlinked (by simp) p
    have p1 : ∀ p, h1.prev p = h.prev p := by
      intro p; rw [← hh1]; exact prev_extend_unlinked (by simp) p
    have d1 := @line_extend_ge h [⟨L, Kind.new t, t, none, none⟩] 0 _ rfl
    rw [hh1] at d1
    have v1 : Valid h1 (some cur) := by intro a ha; cases ha; omega
    have v2 : Valid h1 (some h.size) := by intro a ha; cases ha; omega
    have e := insertNext_links w1 v1 v2 (by simp; omega) (by rw [n1, hn]; simp)
    have w2 := wf_insertNext w1 v1 v2
    have sd := sameData_insertNext h1 (some cur) (some h.size)
    generalize (h1.insertNext (some cur) (some h.size)).1 = h2 at e w2 sd ⊢
    have hnext : h2.next (some cur) = some h.size := by rw [(e cur).1]; simp
    have hnew : h2.next (some h.size) = none := by
      rw [(e h.size).1, n1, n1, p1, prev_of_ge (Nat.le_refl _), hn]
      simp; intro; omega
    rw [hnext]
    simp only
    have := ih h2 h.size (L + countNL t) w2 (by rw [sd.1]; omega) hnew
    have s2 : h2.size = h.size + 1 := by rw [sd.1, s1]
    refine ⟨this.wf, by rw [this.size, s2]; simp; omega, ?_, ?_, ?_, ?_, ?_⟩
    · have f := this.fwd
      have hcur := this.next_old cur (by omega) (by omega)
      rw [List.length_cons, List.range'_succ]
      refine .cons (by rw [this.size]; omega) ?_
      rw [hcur, hnext]
      rw [s2] at f
      exact f
    · intro x hx hxc
      rw [this.next_old x (by omega) (by omega), (e x).1, n1, p1, prev_of_ge (Nat.le_refl _)]
      have : x ≠ h.size := by omega
      simp [hxc, this, n1]
    · intro x hx
      rw [this.prev_old x (by omega), (e x).2, n1, n1, p1, hn, next_of_ge (Nat.le_refl _)]
      have : x ≠ h.size := by omega
      simp [this]
    · intro x hx
      have a1 := this.data_old x (by omega)
      have a2 := sd.2 (some x)
      rw [a1.1, a1.2.1, a1.2.2, a2.1, a2.2.1, a2.2.2, ← hh1]
      exact ⟨line_extend_lt hx, kind_extend_lt hx, text_extend_lt hx⟩
    · intro i t' hi
      cases i with
      | zero =>
        simp only [List.getElem?_cons_zero, Option.some.injEq] at hi
        subst hi
        have a1 := this.data_old h.size (by omega)
        have a2 := sd.2 (some h.size)
        rw [Nat.add_zero] at d1
        rw [Nat.add_zero, a1.1, a1.2.1, a1.2.2, a2.1, a2.2.1, a2.2.2, d1.1, d1.2.1, d1.2.2]
        refine ⟨?_, rfl, rfl⟩
        show L = L + ((countNL ([] : Bytes) : Nat) : Int)
        simp [countNL]
      | succ i =>
        rw [List.getElem?_cons_succ] at hi
        have := this.data_new i t' hi
        rw [s2, show h.size + 1 + i = h.size + (i + 1) by omega] at this
        refine ⟨?_, this.2⟩
        rw [this.1, List.take_succ_cons, List.flatten_cons, countNL_append]
        omega

/-! ## Acyclicity -/

/-- Fewer links: still ranked. -/
theorem _root_.Goast.Ranked.of_sub {h h' : Heap} (r : Ranked h)
    (hs : ∀ a b, h'.next (some a) = some b → h.next (some a) = some b) : Ranked h' := by
  obtain ⟨f, hf⟩ := r
  exact ⟨f, fun a b hab => hf a b (hs a b hab)⟩

theorem ranked_isolate {h : Heap} (w : WF h) (r : Ranked h) {n : Ptr} (hn : Valid h n) :
    Ranked (h.isolate n) := by
  refine r.of_sub ?_
  intro a b hab
  rw [(isolate_links w hn a).1] at hab
  split at hab
  · cases hab
  · exact hab

theorem ranked_removeNext {h : Heap} (w : WF h) (r : Ranked h) {n : Ptr} (hn : Valid h n) :
    Ranked (h.removeNext n).1 := by
  refine r.of_sub ?_
  intro a b hab
  rw [(removeNext_links w hn a).1] at hab
  split at hab
  · cases hab
  · exact hab

theorem ranked_removePrev {h : Heap} (w : WF h) (r : Ranked h) {n : Ptr} (hn : Valid h n) :
    Ranked (h.removePrev n).1 := by
  refine r.of_sub ?_
  intro a b hab
  rw [(removePrev_links w hn a).2] at hab
  split at hab
  · cases hab
  · exact hab

theorem ranked_takeNext {h : Heap} (w : WF h) (r : Ranked h) {n : Ptr} (hn : Valid h n) :
    Ranked (h.takeNext n).1 := by
  obtain ⟨f, hf⟩ := r
  refine ⟨f, ?_⟩
  intro a b hab
  rw [(takeNext_links w hn a).1] at hab
  split at hab
  · rename_i he
    split at hab
    · cases hab
    · subst he
      cases h1 : h.next (some a) with
      | none => rw [h1] at hab; cases hab
      | some c =>
        rw [h1] at hab
        have := hf _ _ hab
        have := hf _ _ h1
        omega
  · split at hab
    · cases hab
    · exact hf _ _ hab

theorem ranked_takePrev {h : Heap} (w : WF h) (r : Ranked h) {n : Ptr} (hn : Valid h n) :
    Ranked (h.takePrev n).1 := by
  obtain ⟨f, hf⟩ := r
  refine ⟨f, ?_⟩
  intro a b hab
  rw [(takePrev_links w hn a).2] at hab
  split at hab
  · cases hab
  · split at hab
    · rename_i he
      split at hab
      · cases hab
      · subst hab
        cases h1 : h.prev (some b) with
        | none => rw [h1] at he; cases he
        | some c =>
          rw [h1] at he
          have := hf _ _ ((w.inverse _ _).2 he.symm)
          have := hf _ _ ((w.inverse _ _).2 h1)
          omega
    · exact hf _ _ hab

theorem ranked_insertNext {h : Heap} (w : WF h) (r : Ranked h) {n m : Ptr} (hn : Valid h n)
    (hm : Valid h m) : Ranked (h.insertNext n m).1 := by
  by_cases h1 : n = m ∨ h.next n = m
  · simp only [insertNext, h1, if_true]; exact r
  · obtain ⟨f, hf⟩ := r
    have e := insertNext_links w hn hm (fun hh => h1 (.inl hh)) (fun hh => h1 (.inr hh))
    refine ⟨fun x => if some x = m then (match h.next n with | none => 1 | some c => 2 * f c + 3)
      else 2 * f x + 2, ?_⟩
    intro a b hab
    rw [(e a).1] at hab
    have i := w.inverse
    rcases n with _ | n <;> rcases m with _ | m
    · simp at h1
    · simp only [next_none] at *; grind
    · simp at *; grind
    · simp only [Option.some.injEq] at *
      rcases hc : h.next (some n) with _ | c
      · simp only [hc] at *; grind
      · have := hf _ _ hc
        simp only [hc] at *; grind

theorem ranked_insertPrev {h : Heap} (w : WF h) (r : Ranked h) {n m : Ptr} (hn : Valid h n)
    (hm : Valid h m) : Ranked (h.insertPrev n m).1 := by
  by_cases h1 : n = m ∨ h.prev n = m
  · simp only [insertPrev, h1, if_true]; exact r
  · obtain ⟨f, hf⟩ := r
    have e := insertPrev_links w hn hm (fun hh => h1 (.inl hh)) (fun hh => h1 (.inr hh))
    have i := w.inverse
    refine ⟨fun x => if some x = m then (match n with | none => 0 | some c => 2 * f c + 3)
      else 2 * f x + 2, ?_⟩
    intro a b hab
    rw [(e a).2] at hab
    rcases n with _ | n <;> rcases m with _ | m
    · simp at h1
    · simp only [prev_none] at *; grind
    · simp at *; grind
    · simp only [Option.some.injEq] at *
      rcases hc : h.prev (some n) with _ | c
      · simp only [hc] at *; grind
      · have := hf _ _ ((i _ _).2 hc)
        simp only [hc] at *; grind

theorem _root_.Goast.Reach.tail {h : Heap} {a b c : Addr} (r : Reach h a b) (hbc : h.next (some b) = some c) :
    Reach h a c := by
  induction r with
  | refl => exact .step hbc (.refl _)
  | step h1 _ ih => exact .step h1 (ih hbc)

theorem reach_le {h : Heap} {f : Addr → Nat} (hf : ∀ a b, h.next (some a) = some b → f b < f a) {a b : Addr}
    (r : Reach h a b) : f b ≤ f a := by
  induction r with
  | refl => exact Nat.le_refl _
  | step hab _ ih => have := hf _ _ hab; omega

open Classical in
theorem ranked_replaceNext {h : Heap} (w : WF h) (r : Ranked h) {n m : Addr} (hn : Valid h (some n))
    (hm : Valid h (some m)) (h1 : n ≠ m) (h2 : h.next (some n) ≠ some m) :
    Ranked (h.replaceNext (some n) (some m)).1 ↔ ¬ Reach h m n := by
  have e := replaceNext_links w hn hm (by simpa using h1) h2
  have i := w.inverse
  obtain ⟨f, hf⟩ := r
  constructor
  · rintro ⟨g, hg⟩ hr
    have key : ∀ a b, Reach h a b → b = n → Reach h m a → g n ≤ g a := by
      intro a b hab
      induction hab with
      | refl a => rintro rfl _; exact Nat.le_refl _
      | @step a b c hab _ ih =>
        intro hc hma
        by_cases han : a = n
        · subst han; exact Nat.le_refl _
        · have hmb : Reach h m b := hma.tail hab
          have hb := ih hc hmb
          have : (h.replaceNext (some n) (some m)).1.next (some a) = some b := by
            rw [(e a).1, if_neg (by simpa using han), if_neg, hab]
            intro hh
            have := hf _ _ ((i _ _).2 hh.symm)
            have := reach_le hf hma
            omega
          have := hg _ _ this
          omega
    have hnm : (h.replaceNext (some n) (some m)).1.next (some n) = some m := by rw [(e n).1]; simp
    have := hg _ _ hnm
    have := key m n hr rfl (.refl m)
    omega
  · intro hr
    refine ⟨fun x => if Reach h x n then f x + f m + 1 else f x, ?_⟩
    intro a b hab
    rw [(e a).1] at hab
    split at hab
    · rename_i ha
      cases ha; cases hab
      have : Reach h n n := .refl n
      simp only [this, hr, if_true, if_false]
      omega
    · rename_i ha
      split at hab
      · cases hab
      · have : Reach h a n ↔ Reach h b n := by
          constructor
          · intro hh
            cases hh with
            | refl => exact absurd rfl ha
            | step h3 h4 => rw [hab] at h3; cases h3; exact h4
          · exact fun hh => .step hab hh
        have := hf _ _ hab
        by_cases hb : Reach h b n
        · simp only [*, if_true]; omega
        · simp only [*, if_false]

theorem next_replaceNext_none {h : Heap} (w : WF h) {n m : Ptr} (hn : Valid h n) (hm : Valid h m)
    (h0 : n = none ∨ m = none) : ∀ a b, (h.replaceNext n m).1.next (some a) = some b → h.next (some a) = some b := by
  by_cases h1 : n = m ∨ h.next n = m
  · simp only [replaceNext, h1, if_true]; exact fun _ _ hh => hh
  · have e := replaceNext_links w hn hm (fun hh => h1 (.inl hh)) (fun hh => h1 (.inr hh))
    intro a b hab
    rw [(e a).1] at hab
    rcases h0 with rfl | rfl
    · simp at hab; exact hab.2
    · split at hab
      · cases hab
      · split at hab
        · cases hab
        · exact hab

theorem ranked_isolateAll (ms : List Ptr) : ∀ {h : Heap}, WF h → Ranked h → (∀ m ∈ ms, Valid h m) →
    Ranked (h.isolateAll ms) := by
  induction ms with
  | nil => intro h _ r _; exact r
  | cons m ms ih =>
    intro h w r hv
    refine ih (wf_isolate w (hv m (by simp))) (ranked_isolate w r (hv m (by simp))) ?_
    intro m' hm' a ha
    have := hv m' (by simp [hm']) a ha
    rwa [(sameData_isolate h m).1]

end Heap
end Goast
