import Verif.Proofs.LabelsHook

/-!
# The labels of the fields of a struct
-/

set_option linter.unusedSimpArgs false
set_option linter.unusedVariables false

namespace Goast
open Heap

/-! ## Counting the names of a line -/

/-- `getRowNameCount` on a list of kinds. -/
def rowScan : RowSt → List Kind → RowSt
  | s, [] => s
  | s, k :: ks => if (s.step k).2 then rowScan (s.step k).1 ks else (s.step k).1

/-- The callback of `getRowNameCount`. -/
def scanFn (ws : World × RowSt) (a : Addr) : Option ((World × RowSt) × Bool) :=
  some ((ws.1, (ws.2.step (ws.1.heap.kind (some a))).1), (ws.2.step (ws.1.heap.kind (some a))).2)

theorem scan_run {w : World} : ∀ (l : List Addr) {p : Ptr} {s s' : RowSt} {w' : World} {r : Ptr}, Fwd w.heap p l →
    Runs (fun (ws : World × RowSt) a => ws.1.heap.next (some a)) scanFn (w, s) p (w', s') r →
    s' = rowScan s (l.map fun a => w.heap.kind (some a))
  | [], p, s, s', w', r, f, run => by
    cases Fwd.nil_iff.1 f
    obtain ⟨e1, e2⟩ := run.end_
    simp only [Prod.mk.injEq] at e1
    exact e1.2
  | x :: l, p, s, s', w', r, f, run => by
    obtain ⟨rfl, _, f⟩ := Fwd.cons_iff.1 f
    rw [List.map_cons, rowScan]
    cases hb : (s.step (w.heap.kind (some x))).2 with
    | true =>
      have run := run.cont (w1 := (w, (s.step (w.heap.kind (some x))).1)) (by simp [scanFn, hb])
      simpa using scan_run l f run
    | false =>
      have := (run.stop (w1 := (w, (s.step (w.heap.kind (some x))).1)) (by simp [scanFn, hb])).1
      simp only [Prod.mk.injEq] at this
      simpa using this.2

theorem getRowNameCount_scan {w : World} {l : List Addr} {p : Ptr} {n : Nat} (f : Fwd w.heap p l) (e : getRowNameCount w p = some n) :
    n = (rowScan {} (l.map fun a => w.heap.kind (some a))).nameCount := by
  unfold getRowNameCount at e
  obtain ⟨⟨⟨w1, s1⟩, r1⟩, e1, e2⟩ := Option.map_eq_some_iff.1 e
  rw [← scan_run l f (show Runs _ scanFn _ _ (w1, s1) r1 from ⟨_, e1⟩)]
  exact e2.symm

/-- Blanks before the first word do not count. -/
theorem scan_lead : ∀ (bs : List Token) (ks : List Kind) (s : RowSt), (∀ x ∈ bs, isGap x) → s.rawCount = 0 →
    rowScan s (bs.map Prod.fst ++ ks) = rowScan s ks
  | [], _, _, _, _ => rfl
  | b :: bs, ks, s, hb, h0 => by
    rw [List.map_cons, List.cons_append, rowScan]
    have : s.step b.1 = (s, true) := by
      rcases hb b (by simp) with k | k | k <;> simp [RowSt.step, k, h0]
    rw [this]
    exact scan_lead bs ks s (fun x hx => hb x (by simp [hx])) h0

/-- A comma was seen, and the `j`th name is being read. -/
def AtName (j : Nat) (s : RowSt) : Prop := s.hasComma = true ∧ s.cacheNameCount = j ∧ s.nameCount = j ∧ s.rawCount ≠ 0 ∧ j ≠ 0

theorem scan_gaps (j : Nat) : ∀ (bs : List Token) (s : RowSt), (∀ x ∈ bs, isGap x) → AtName j s →
    ∃ s', AtName j s' ∧ ∀ ks, rowScan s (bs.map Prod.fst ++ ks) = rowScan s' ks
  | [], s, _, a => ⟨s, a, fun _ => rfl⟩
  | b :: bs, s, hb, a => by
    obtain ⟨s1, a1, e1⟩ : ∃ s1, AtName j s1 ∧ s.step b.1 = (s1, true) := by
      rcases hb b (by simp) with k | k | k
      · refine ⟨{ s with hasSpaceOrAfterRaw := true }, a, ?_⟩
        simp [RowSt.step, k, a.2.2.2.1, a.1]
      · exact ⟨s, a, by simp [RowSt.step, k]⟩
      · exact ⟨s, a, by simp [RowSt.step, k]⟩
    obtain ⟨s', a', e'⟩ := scan_gaps j bs s1 (fun x hx => hb x (by simp [hx])) a1
    exact ⟨s', a', fun ks => by rw [List.map_cons, List.cons_append, rowScan, e1]; exact e' ks⟩

theorem scan_names {n : Nat} {ns : List Token} (N : Names n ns) : ∀ (j : Nat) (s : RowSt), AtName j s →
    ∃ s', AtName (j + n - 1) s' ∧ ∀ ks, rowScan s (ns.map Prod.fst ++ ks) = rowScan s' ks := by
  induction N with
  | one ht =>
    intro j s a
    exact ⟨{ s with rawCount := s.rawCount + 1 }, ⟨a.1, a.2.1, a.2.2.1, by simp, a.2.2.2.2⟩, fun ks => by simp [rowScan, RowSt.step, ht]⟩
  | @more n t c bs cs ts ht hb hc hcs _ ih =>
    intro j s a
    obtain ⟨s2, a2, e2⟩ := scan_gaps j bs { s with rawCount := s.rawCount + 1 } hb ⟨a.1, a.2.1, a.2.2.1, by simp, a.2.2.2.2⟩
    have a3 : AtName (j + 1) { s2 with hasComma := true, cacheNameCount := s2.cacheNameCount + 1, nameCount := s2.cacheNameCount + 1 } :=
      ⟨rfl, by simp [a2.2.1], by simp [a2.2.1], a2.2.2.2.1, by omega⟩
    obtain ⟨s4, a4, e4⟩ := scan_gaps (j + 1) cs _ hcs a3
    obtain ⟨s5, a5, e5⟩ := ih (j + 1) s4 a4
    refine ⟨s5, by simpa [Nat.add_assoc, Nat.add_comm 1 n] using a5, fun ks => ?_⟩
    simp only [List.map_cons, List.map_append, List.cons_append, List.append_assoc]
    rw [rowScan]
    simp only [RowSt.step, ht, if_true]
    rw [e2, rowScan]
    have hz : s2.cacheNameCount ≠ 0 := by rw [a2.2.1]; exact a2.2.2.2.2
    simp only [RowSt.step, hc, hz, if_false, if_true]
    rw [e4, e5]

/-- The names and a space behind them were seen. -/
def AtType (j : Nat) (s : RowSt) : Prop := s.cacheNameCount = j ∧ s.hasSpaceOrAfterRaw = true ∧ s.rawCount ≠ 0 ∧ j ≠ 0

theorem scan_type (j : Nat) : ∀ (ty : List Token) (s : RowSt) (ks : List Kind), commaFree ty → AtType j s →
    (rowScan s (ty.map Prod.fst ++ .newLine :: ks)).nameCount = j
  | [], s, ks, _, a => by simp [rowScan, RowSt.step, a.2.1, a.1]
  | t :: ty, s, ks, hc, a => by
    rw [commaFree] at hc
    rw [List.map_cons, List.cons_append, rowScan]
    by_cases ht : t.1 = .raw ∨ isGap t
    · obtain ⟨s1, a1, e1⟩ : ∃ s1, AtType j s1 ∧ s.step t.1 = (s1, true) := by
        rcases ht with k | k | k | k
        · exact ⟨{ s with rawCount := s.rawCount + 1 }, ⟨a.1, a.2.1, by simp, a.2.2.2⟩, by simp [RowSt.step, k]⟩
        · refine ⟨s, a, ?_⟩
          have hz : s.cacheNameCount ≠ 0 := by rw [a.1]; exact a.2.2.2
          have h1 := a.2.1
          cases s
          simp_all [RowSt.step, AtType]
        · exact ⟨s, a, by simp [RowSt.step, k]⟩
        · exact ⟨s, a, by simp [RowSt.step, k]⟩
      rw [e1]
      exact scan_type j ty s1 ks (hc.2 ht) a1
    · simp only [isGap, not_or] at ht
      have : s.step t.1 = ({ s with nameCount := s.cacheNameCount }, false) := by
        have h1 := a.2.1
        have h2 := hc.1
        unfold RowSt.step
        split <;> simp_all
      rw [this]
      exact a.1

theorem scan_field {n : Nat} {us : List Token} (F : Field n us) (ks : List Kind) :
    (rowScan {} (us.map Prod.fst ++ .newLine :: ks)).nameCount = n := by
  cases F with
  | blank hb => rw [scan_lead _ _ _ hb rfl]; simp [rowScan, RowSt.step]
  | @named _ t bs ns ty hb hn ht hc =>
    simp only [List.map_append, List.map_cons, List.append_assoc, List.cons_append]
    rw [scan_lead _ _ _ hb rfl]
    -- from the state behind the names
    have fin : ∀ (s : RowSt), AtName n s → (rowScan s (t.1 :: (ty.map Prod.fst ++ .newLine :: ks))).nameCount = n := by
      intro s a
      rw [rowScan]
      simp only [RowSt.step, ht, a.2.2.2.1, a.1, ne_eq, not_false_eq_true, if_true]
      exact scan_type n ty _ ks hc ⟨a.2.1, rfl, a.2.2.2.1, a.2.2.2.2⟩
    cases hn with
    | one ht' =>
      rw [List.map_cons, List.map_nil, List.cons_append, List.nil_append, rowScan]
      simp only [RowSt.step, ht', if_true]
      rw [rowScan]
      simp only [RowSt.step, ht]
      exact scan_type 1 ty _ ks hc ⟨rfl, rfl, by simp, by simp⟩
    | @more n t' c bs' cs ts ht' hb' hc' hcs r =>
      simp only [List.map_cons, List.map_append, List.cons_append, List.append_assoc]
      rw [rowScan]
      simp only [RowSt.step, ht', if_true]
      -- blanks before the first comma
      have lead : ∀ (bs' : List Token) (s : RowSt), (∀ x ∈ bs', isGap x) → s.hasComma = false → s.cacheNameCount ≤ 1 → s.rawCount ≠ 0 →
          ∃ s', s'.hasComma = false ∧ s'.cacheNameCount ≤ 1 ∧ s'.rawCount ≠ 0 ∧ ∀ ks, rowScan s (bs'.map Prod.fst ++ ks) = rowScan s' ks := by
        intro bs'
        induction bs' with
        | nil => intro s _ h1 h2 h3; exact ⟨s, h1, h2, h3, fun _ => rfl⟩
        | cons b bs' ih =>
          intro s hb h1 h2 h3
          obtain ⟨s1, e1, h1, h2, h3⟩ : ∃ s1, s.step b.1 = (s1, true) ∧ s1.hasComma = false ∧ s1.cacheNameCount ≤ 1 ∧ s1.rawCount ≠ 0 := by
            rcases hb b (by simp) with k | k | k
            · by_cases hz : s.cacheNameCount = 0
              · exact ⟨_, by simp [RowSt.step, k, h3, h1, hz]; rfl, by simp [h1], by simp [hz], by simp [h3]⟩
              · exact ⟨_, by simp [RowSt.step, k, h3, h1, hz]; rfl, by simp [h1], by simp [h2], by simp [h3]⟩
            · exact ⟨s, by simp [RowSt.step, k], h1, h2, h3⟩
            · exact ⟨s, by simp [RowSt.step, k], h1, h2, h3⟩
          obtain ⟨s', g1, g2, g3, g4⟩ := ih s1 (fun x hx => hb x (by simp [hx])) h1 h2 h3
          exact ⟨s', g1, g2, g3, fun ks => by rw [List.map_cons, List.cons_append, rowScan, e1]; exact g4 ks⟩
      obtain ⟨s2, g1, g2, g3, g4⟩ := lead bs' { ({} : RowSt) with rawCount := ({} : RowSt).rawCount + 1 } hb' rfl (by simp) (by simp)
      rw [g4, rowScan]
      obtain ⟨s3, a3, e3⟩ : ∃ s3, AtName 2 s3 ∧ s2.step c.1 = (s3, true) := by
        by_cases hz : s2.cacheNameCount = 0
        · exact ⟨{ s2 with hasComma := true, cacheNameCount := 2, nameCount := 2 }, ⟨rfl, rfl, rfl, g3, by simp⟩, by simp [RowSt.step, hc', hz]⟩
        · have hz1 : s2.cacheNameCount = 1 := by omega
          exact ⟨{ s2 with hasComma := true, cacheNameCount := 2, nameCount := 2 }, ⟨rfl, rfl, rfl, g3, by simp⟩, by simp [RowSt.step, hc', hz1]⟩
      rw [e3]
      obtain ⟨s4, a4, e4⟩ := scan_gaps 2 cs s3 hcs a3
      obtain ⟨s5, a5, e5⟩ := scan_names r 2 s4 a4
      simp only [if_true]
      rw [e4, e5]
      have : 2 + n - 1 = n + 1 := by omega
      rw [this] at a5
      exact fin s5 a5
  | @embedded t bs ty hb ht hty =>
    simp only [List.map_append, List.map_cons, List.append_assoc, List.cons_append]
    rw [scan_lead _ _ _ hb rfl, rowScan]
    simp only [RowSt.step, ht, if_true]
    cases ty with
    | nil => simp [rowScan, RowSt.step]
    | cons x ty =>
      obtain ⟨h1, h2, h3⟩ := hty x rfl
      simp only [isGap, not_or] at h3
      rw [List.map_cons, List.cons_append, rowScan]
      have : ∀ s : RowSt, s.hasSpaceOrAfterRaw = false → s.step x.1 = (s, false) := by
        intro s hs
        unfold RowSt.step
        split <;> simp_all
      rw [this _ rfl]; rfl
  | @other t bs ty hb ht =>
    simp only [List.map_append, List.map_cons, List.append_assoc, List.cons_append]
    rw [scan_lead _ _ _ hb rfl, rowScan]
    obtain ⟨h1, h2, h3⟩ := ht
    simp only [isGap, not_or] at h3
    have : ∀ s : RowSt, s.hasSpaceOrAfterRaw = false → s.step t.1 = (s, false) := by
      intro s hs
      unfold RowSt.step
      split <;> simp_all
    rw [this _ rfl]; rfl

/-! ## Lines -/

/-- The callback of `handleStructRow`. -/
def rowBody (d : Nat) (w : World) (paramNameCount : Nat) (a : Addr) : Option (World × Nat × Ctl) :=
  match w.heap.kind (some a) with
  | .newLine => some (w, paramNameCount, .stop)
  | .comment | .tab | .space | .comma => some (w, paramNameCount, .cont)
  | .raw =>
    if paramNameCount ≠ 0 then
      some ({ w with heap := w.heap.setKind (some a) .paramName }, paramNameCount - 1, .cont)
    else some ({ w with heap := w.heap.setKind (some a) .paramType }, paramNameCount, .cont)
  | .func_ =>
    toJump (funcRun d { isParameter := true } w (some a) [.rawToParamType]) paramNameCount
  | _ => some (w, paramNameCount, .cont)

theorem structRow_eq (d : Nat) (w : World) (head : Ptr) : structRow d w head =
    match getRowNameCount w head with
    | none => none
    | some count => jumpLoop false [] (rowBody d) w count head := rfl

theorem row_loop (d : Nat) {n : Nat} {ts ts' : List Token} (L : Row n ts ts') : ∀ {us : List Addr} {h : Heap} {w' : World} {r : Ptr} {e : Addr},
    us.map (kt h) = ts → Path h (us ++ [e]) → (us ++ [e]).Nodup → (∀ x ∈ us, x < h.size) →
    h.kind (some e) = .newLine → JR false [] (rowBody d) ⟨h, []⟩ ⟨false, none, n⟩ (us ++ [e]).head? w' r →
    w'.buf = [] ∧ r = some e ∧ Relab h w'.heap us ts' := by
  induction L with
  | @nil n =>
    intro us h w' r e em p nd lt ke run
    cases List.map_eq_nil_iff.1 em
    obtain ⟨rfl, rfl⟩ := run.stop (w1 := ⟨h, []⟩) (s1 := n) (by simp [rowBody, ke])
    exact ⟨rfl, rfl, Relab.nil h⟩
  | @word n t ts ts' ht _ ih =>
    intro us h w' r e em p nd lt ke run
    obtain ⟨y, us, rfl, e1, e2⟩ := List.map_eq_cons_iff.1 em
    have nx : h.next (some y) = (us ++ [e]).head? := Path.next p (by simp)
    have nd' := List.nodup_cons.1 nd
    simp only [List.cons_append, List.head?_cons] at run
    have ye : y ≠ e := by rintro rfl; exact nd'.1 (by simp)
    have hr : h.kind (some y) = .raw := by rw [← ht, ← e1]; rfl
    obtain ⟨k, m, hb, hk, hm⟩ : ∃ k m, rowBody d ⟨h, []⟩ n y = some (⟨h.setKind (some y) k, []⟩, m, .cont) ∧
        k = (if n ≠ 0 then .paramName else .paramType) ∧ m = n - 1 := by
      by_cases hn : n = 0
      · exact ⟨.paramType, n, by simp [rowBody, hr, hn], by simp [hn], by simp [hn]⟩
      · exact ⟨.paramName, n - 1, by simp [rowBody, hr, hn], by simp [hn], rfl⟩
    subst hm
    have run := run.cont hb
    have rl : Relab h (h.setKind (some y) k) [y] [(k, h.text (some y))] := Relab.set (lt y (by simp)) k
    have out : ∀ x, x ≠ y → kt (h.setKind (some y) k) x = kt h x := fun x hx => rl.frame x (by simpa using hx)
    have yus : ∀ x ∈ us, x ≠ y := fun x hx hh => nd'.1 (by subst hh; simp [hx])
    rw [rl.next, nx] at run
    have hm : us.map (kt (h.setKind (some y) k)) = us.map (kt h) := List.map_congr_left fun x hx => out x (yus x hx)
    obtain ⟨b1, b2, b3⟩ := ih (hm.trans e2) (rl.path p.tail) nd'.2 (fun x hx => by rw [rl.size]; exact lt x (by simp [hx]))
      (by
        have := congrArg Prod.fst (out e (Ne.symm ye))
        simp only [kt] at this
        rw [this]; exact ke) run
    refine ⟨b1, b2, ?_⟩
    rw [← hk, ← e1]
    exact rl.cons b3 fun hh => nd'.1 (by simp [hh])
  | @keep n t ts ts' ht _ ih =>
    intro us h w' r e em p nd lt ke run
    obtain ⟨y, us, rfl, e1, e2⟩ := List.map_eq_cons_iff.1 em
    have nx : h.next (some y) = (us ++ [e]).head? := Path.next p (by simp)
    have nd' := List.nodup_cons.1 nd
    simp only [List.cons_append, List.head?_cons] at run
    rw [← e1] at ht
    simp only [kt] at ht
    have run := run.cont (w1 := ⟨h, []⟩) (s1 := n) (by
      unfold rowBody
      split <;> first | rfl | (exfalso; simp_all; done))
    rw [nx] at run
    obtain ⟨b1, b2, b3⟩ := ih e2 p.tail nd'.2 (fun x hx => lt x (by simp [hx])) ke run
    refine ⟨b1, b2, ?_⟩
    rw [← e1]
    exact (Relab.same h [y]).cons b3 fun hh => nd'.1 (by simp [hh])
  | @func n t l u ps ps' ts ts' ht hl hu P _ ih =>
    intro us h w' r e em p nd lt ke run
    obtain ⟨y, ys, rfl, e1, em⟩ := List.map_eq_cons_iff.1 em
    obtain ⟨l', ys, rfl, e2, em⟩ := List.map_eq_cons_iff.1 em
    obtain ⟨ys, l2, rfl, e3, em⟩ := List.map_eq_append_iff.1 em
    obtain ⟨u', l3, rfl, e4, em⟩ := List.map_eq_cons_iff.1 em
    simp only [List.cons_append, List.head?_cons] at run p nd
    rw [← e1] at ht ⊢
    rw [← e2] at hl ⊢
    rw [← e4] at hu ⊢
    have ky : h.kind (some y) = .func_ := ht
    have ex : y :: l' :: (ys ++ u' :: l3 ++ [e]) = (y :: l' :: (ys ++ [u'])) ++ (l3 ++ [e]) := by simp
    rw [ex] at p nd
    obtain ⟨x, hx⟩ := run.some_body
    have hb : rowBody d ⟨h, []⟩ n y = toJump (funcRun d { isParameter := true } ⟨h, []⟩ (some y) HK) n := by
      simp [rowBody, ky]
    cases hg : funcRun d { isParameter := true } ⟨h, []⟩ (some y) HK with
    | none => rw [hb, hg] at hx; simp [toJump] at hx
    | some v =>
      obtain ⟨w1, q⟩ := v
      obtain ⟨hbuf, hq, rl⟩ := fieldFunc_exact d P e3 p.left (List.nodup_append.1 nd).1 (fun x hx => lt x (by simp [hx])) ky hl hu hg
      have p3 : Path h (u' :: (l3 ++ [e])) := Path.drop (y :: l' :: ys) (by simpa using p)
      obtain ⟨z, m, hz⟩ : ∃ z m, l3 ++ [e] = z :: m := by
        cases l3 with
        | nil => exact ⟨e, [], rfl⟩
        | cons z m => exact ⟨z, m ++ [e], rfl⟩
      rw [p3.next (by simp : l3 ++ [e] ≠ []), hz, List.head?_cons] at hq
      subst hq
      have pz : Path h (y :: (l' :: (ys ++ [u']) ++ [z])) := by
        rw [hz, ← List.singleton_append (l := m), ← List.append_assoc] at p
        exact p.left
      have run := run.jump_path (w1 := w1) (s1 := n) (q := z) (mid := l' :: (ys ++ [u'])) (by rw [hb, hg]; rfl) (rl.path pz) (by
        intro hh
        exact (List.nodup_append.1 nd).2.2 z (List.mem_cons_of_mem _ hh) z (by rw [hz]; simp) rfl)
      have rl2 : Relab h w1.heap (y :: l' :: (ys ++ [u'])) (kt h y :: kt h l' :: (ps'.map typeWord ++ [kt h u'])) := by
        have nd1 := (List.nodup_append.1 nd).1
        refine (Relab.same h [y]).cons ((Relab.same h [l']).cons ?_ (List.nodup_cons.1 (List.nodup_cons.1 nd1).2).1) (List.nodup_cons.1 nd1).1
        have uys : u' ∉ ys := by
          intro hh
          simp only [List.nodup_cons, List.nodup_append] at nd1
          exact nd1.2.2.2.2 u' hh u' (by simp) rfl
        have kq : kt w1.heap u' = kt h u' := rl.frame u' uys
        have := rl.append (Relab.same w1.heap [u']) (fun x hx hx' => by
          simp only [List.mem_singleton] at hx'
          subst hx'
          exact uys hx)
        simpa [kq] using this
      have dis : ∀ x ∈ l3 ++ [e], x ∉ y :: l' :: (ys ++ [u']) := fun x hx hx' => (List.nodup_append.1 nd).2.2 x hx' x hx rfl
      have em' : l3.map (kt w1.heap) = ts := by
        rw [← em]; exact rl2.map (fun x hx => dis x (by simp [hx]))
      have ke' : w1.heap.kind (some e) = h.kind (some e) := congrArg Prod.fst (rl2.frame e (dis e (by simp)))
      rw [world_eta rfl hbuf] at run
      obtain ⟨h1, h2, h3⟩ := ih em' (rl.path p3.tail) (List.nodup_append.1 nd).2.1 (fun x hx => by rw [rl.size]; exact lt x (by simp [hx]))
        (by rw [ke']; exact ke) (r := r) (w' := w') (by rw [hz]; exact run)
      refine ⟨h1, h2, ?_⟩
      have := rl2.append h3 (fun x hx hx' => dis x (by simp [hx']) hx)
      simpa using this

theorem Row.first {n : Nat} {t : Token} {ts ts' : List Token} (L : Row n (t :: ts) ts') : t.1 ≠ .newLine := by
  cases L with
  | word ht _ => rw [ht]; decide
  | keep ht _ => exact ht.2.1
  | func ht _ _ _ _ => rw [ht]; decide

theorem row_exact (d : Nat) {us rest : List Addr} {h : Heap} {n : Nat} {w' : World} {r : Ptr} {y e : Addr} {us' : List Token}
    (f : Fwd h (some y) (y :: us ++ e :: rest)) (ke : h.kind (some e) = .newLine)
    (F : Field n ((y :: us).map (kt h))) (L : Row n ((y :: us).map (kt h)) us') (run : structRow d ⟨h, []⟩ (some y) = some (w', r)) :
    w'.buf = [] ∧ r = some e ∧ Relab h w'.heap (y :: us) us' := by
  rw [structRow_eq] at run
  split at run
  · cases run
  · rename_i count hc
    have := getRowNameCount_scan f hc
    have hk : (y :: us ++ e :: rest).map (fun a => h.kind (some a)) =
        ((y :: us).map (kt h)).map Prod.fst ++ .newLine :: rest.map (fun a => h.kind (some a)) := by
      rw [List.map_append, List.map_map]; congr 1; simp [ke]
    rw [show (World.mk h []).heap = h from rfl, hk, scan_field F] at this
    subst this
    have ex : y :: us ++ e :: rest = (y :: us ++ [e]) ++ rest := by simp
    rw [ex] at f
    exact row_loop d L rfl f.path.left (List.nodup_append.1 f.nodup).1 (fun x hx => f.lt x (List.mem_append_left _ (List.mem_append_left _ hx))) ke (JR.of_jumpLoop run)

/-! ## The whole struct -/

/-- The callback of `structResetter.Run`. -/
def structBody (d : Nat) (w : World) (_ : Unit) (a : Addr) : Option (World × Unit × Ctl) :=
  match w.heap.kind (some a) with
  | .curlyR => some (w, (), .stop)
  | .comment | .curlyL | .newLine => some (w, (), .cont)
  | _ => toJump (structRow d w (some a)) ()

theorem structRun_eq (d : Nat) (w : World) (head : Ptr) : structRun d w head =
    match findNext w head [.curlyL] {} [] with
    | none => none
    | some (w, f) => jumpLoop false [] (structBody d) w () (w.heap.next f) := rfl

theorem fields_loop (d : Nat) {R ts ts' : List Token} (F : Fields R ts ts') (hR : ∃ u M, R = u :: M ∧ u.1 = .curlyR) : ∀ {h : Heap} {l : List Addr} {w' : World}
    {r : Ptr}, Fwd h l.head? l → l.map (kt h) = ts → JR false [] (structBody d) ⟨h, []⟩ ⟨false, none, ()⟩ l.head? w' r →
    ∃ m q l₂, l = m ++ q :: l₂ ∧ (q :: l₂).map (kt h) = R ∧ w'.buf = [] ∧ r = some q ∧ Relab h w'.heap m ts' := by
  induction F with
  | stop =>
    intro h l w' r f e run
    obtain ⟨u, M, rfl, hu⟩ := hR
    obtain ⟨q, l₂, rfl, e1, e2⟩ := List.map_eq_cons_iff.1 e
    have kq : h.kind (some q) = .curlyR := by rw [← hu, ← e1]; rfl
    obtain ⟨rfl, rfl⟩ := run.stop (w1 := ⟨h, []⟩) (s1 := ()) (by simp [structBody, kq])
    exact ⟨[], q, l₂, rfl, e, rfl, rfl, Relab.nil h⟩
  | @skip t ts ts' ht _ ih =>
    intro h l w' r f e run
    obtain ⟨y, l, rfl, e1, e2⟩ := List.map_eq_cons_iff.1 e
    have f' := (Fwd.cons_iff.1 f).2.2
    rw [← e1] at ht
    simp only [kt] at ht
    have run := run.cont (w1 := ⟨h, []⟩) (s1 := ()) (by rcases ht with k | k | k <;> simp [structBody, k])
    have hh := f'.head
    rw [hh] at f'
    simp only [hh] at run
    obtain ⟨m, q, l₂, rfl, b1, b2, b3, b4⟩ := ih f' e2 run
    refine ⟨y :: m, q, l₂, rfl, b1, b2, b3, ?_⟩
    rw [← e1]
    exact (Relab.same h [y]).cons b4 fun hh => (List.nodup_cons.1 f.nodup).1 (by simp [hh])
  | @line n t u us us' ts ts' first F L hn _ ih =>
    intro h l w' r f e run
    obtain ⟨ys, l, rfl, e1, e2⟩ := List.map_eq_append_iff.1 e
    obtain ⟨z, l, rfl, e3, e4⟩ := List.map_eq_cons_iff.1 e2
    obtain ⟨y, ys, rfl, e5, e6⟩ := List.map_eq_cons_iff.1 e1
    have kz : h.kind (some z) = .newLine := by rw [← hn, ← e3]; rfl
    have hnl := L.first
    rw [← e1] at F L
    rw [← e5] at first hnl
    simp only [kt] at first hnl
    simp only [List.cons_append, List.head?_cons] at run f
    obtain ⟨x, hx⟩ := run.some_body
    have hb : structBody d ⟨h, []⟩ () y = toJump (structRow d ⟨h, []⟩ (some y)) () := by
      unfold structBody
      split <;> first | rfl | (exfalso; simp_all; done)
    cases hg : structRow d ⟨h, []⟩ (some y) with
    | none => rw [hb, hg] at hx; simp [toJump] at hx
    | some v =>
      obtain ⟨w1, q1⟩ := v
      obtain ⟨b1, rfl, rl⟩ := row_exact d (us := ys) (rest := l) (e := z) f kz F L hg
      have nd := f.nodup
      have pz : Path h (y :: (ys ++ [z])) := by
        have : y :: (ys ++ z :: l) = (y :: (ys ++ [z])) ++ l := by simp
        rw [this] at f
        exact f.path.left
      have zys : z ∉ y :: ys := by
        intro hh
        have : y :: (ys ++ z :: l) = (y :: ys) ++ z :: l := rfl
        rw [this, List.nodup_append] at nd
        exact nd.2.2 z hh z (by simp) rfl
      have run := run.jump_path (w1 := w1) (s1 := ()) (q := z) (mid := ys) (by rw [hb, hg]; rfl) (rl.path pz) fun hh => zys (by simp [hh])
      have kz1 : w1.heap.kind (some z) = .newLine := by
        rw [← kz]; exact congrArg Prod.fst (rl.frame z zys)
      rw [world_eta rfl b1] at run
      have run := run.cont (w1 := ⟨w1.heap, []⟩) (s1 := ()) (by simp [structBody, kz1])
      have fz : Fwd h (some z) (z :: l) := by
        have := Fwd.drop (y :: ys) (l₂ := z :: l) f
        exact this
      have f' := (Fwd.cons_iff.1 fz).2.2
      have hh := f'.head
      rw [hh] at f'
      simp only [rl.next, hh] at run
      have out : ∀ x ∈ l, x ∉ y :: ys := by
        intro x hx hh
        have : y :: (ys ++ z :: l) = (y :: ys) ++ z :: l := rfl
        rw [this, List.nodup_append] at nd
        exact nd.2.2 x hh x (by simp [hx]) rfl
      obtain ⟨m, q, l₂, rfl, c1, c2, c3, c4⟩ := ih (f'.congr (fun x hx => by rw [rl.size]; exact f'.lt x hx) (fun x _ => rl.next _)) (by
        rw [rl.map out]; exact e4) run
      refine ⟨y :: ys ++ z :: m, q, l₂, by simp, ?_, c2, c3, ?_⟩
      · rw [← c1]
        exact (rl.map fun x hx => out x (List.mem_append_right _ hx)).symm
      · refine rl.append ?_ ?_
        · rw [← e3, ← rl.frame z zys]
          exact (Relab.same w1.heap [z]).cons c4 fun hh => (List.nodup_cons.1 fz.nodup).1 (by simp [hh])
        · intro x hx hx'
          rcases List.mem_cons.1 hx' with rfl | hx'
          · exact zys hx
          · exact out x (by simp [hx']) hx

/-! ## Finding the opening bracket -/

/-- The callback that looks for `{`. -/
def curlyFn (ws : World × Counts) (a : Addr) : Option ((World × Counts) × Bool) :=
  some ((ws.1, ws.2.step (ws.1.heap.kind (some a))), decide (ws.1.heap.kind (some a) ≠ .curlyL))

theorem findNext_curly {w w' : World} {p r : Ptr} (e : findNext w p [.curlyL] {} [] = some (w', r)) :
    ∃ c, Runs (fun (ws : World × Counts) a => ws.1.heap.next (some a)) curlyFn (w, {}) p (w', c) r := by
  unfold findNext iterW at e
  obtain ⟨⟨⟨w1, c⟩, r1⟩, e1, e2⟩ := Option.map_eq_some_iff.1 e
  simp only [Prod.mk.injEq] at e2
  obtain ⟨rfl, rfl⟩ := e2
  refine ⟨c, w.heap.size + 1, ?_⟩
  rw [← e1]
  congr 1
  funext ws a
  simp only [curlyFn, handleHook, List.foldl_nil, findCont]
  congr 2
  by_cases hk : ws.1.heap.kind (some a) = .curlyL <;> simp [CharSet.new, CharSet.contain, hk]

theorem curly_run {w : World} {o : Addr} : ∀ (gap rest : List Addr) {p : Ptr} {c c' : Counts} {w' : World} {r : Ptr}, Fwd w.heap p (gap ++ o :: rest) →
    (∀ x ∈ gap, w.heap.kind (some x) ≠ .curlyL) → w.heap.kind (some o) = .curlyL →
    Runs (fun (ws : World × Counts) a => ws.1.heap.next (some a)) curlyFn (w, c) p (w', c') r → w' = w ∧ r = some o
  | [], rest, p, c, c', w', r, f, hg, ho, run => by
    have := f.head
    subst this
    obtain ⟨e1, e2⟩ := run.stop (a := o) (w1 := (w, c.step (w.heap.kind (some o)))) (by simp [curlyFn, ho])
    simp only [Prod.mk.injEq] at e1
    exact ⟨e1.1, e2⟩
  | x :: gap, rest, p, c, c', w', r, f, hg, ho, run => by
    obtain ⟨rfl, _, f⟩ := Fwd.cons_iff.1 f
    have run := run.cont (w1 := (w, c.step (w.heap.kind (some x)))) (by simp [curlyFn, hg x (by simp)])
    exact curly_run gap rest f (fun y hy => hg y (by simp [hy])) ho run

/-- `struct … { … }`: the fields get their labels, and the result is the closing bracket. -/
theorem struct_exact (d : Nat) {R ts ts' : List Token} (F : Fields R ts ts') (hR : ∃ u M, R = u :: M ∧ u.1 = .curlyR) {h : Heap} {y o : Addr}
    {gap l : List Addr} {w' : World} {r : Ptr} (f : Fwd h (some y) (y :: (gap ++ o :: l))) (hy : h.kind (some y) ≠ .curlyL)
    (hg : ∀ x ∈ gap, h.kind (some x) ≠ .curlyL) (ho : h.kind (some o) = .curlyL)
    (el : l.map (kt h) = ts) (e : structRun d ⟨h, []⟩ (some y) = some (w', r)) :
    ∃ m q l₂, l = m ++ q :: l₂ ∧ (q :: l₂).map (kt h) = R ∧ w'.buf = [] ∧ r = some q ∧ Relab h w'.heap m ts' := by
  rw [structRun_eq] at e
  split at e
  · cases e
  · rename_i w1 p1 hf
    obtain ⟨c, run⟩ := findNext_curly hf
    obtain ⟨rfl, rfl⟩ := curly_run (w := ⟨h, []⟩) (y :: gap) l (by simpa using f) (by
      intro x hx
      rcases List.mem_cons.1 hx with rfl | hx
      · exact hy
      · exact hg x hx) ho run
    have run := JR.of_jumpLoop e
    have fo := Fwd.drop (y :: gap) (l₂ := o :: l) (by simpa using f)
    have f' := (Fwd.cons_iff.1 fo).2.2
    have hh := f'.head
    simp only [hh] at run
    rw [hh] at f'
    exact fields_loop d F hR f' el run

end Goast
