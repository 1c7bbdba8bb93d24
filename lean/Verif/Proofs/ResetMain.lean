import Verif.Proofs.ResetInv

/-!
# The mutually recursive resetters keep the invariant and terminate
-/

set_option linter.unusedSimpArgs false
set_option linter.unusedVariables false

namespace Goast

variable {c : RCtx}

/-- The call returns, keeps the invariant, and its result is nil or a node of rank at most `M`. -/
def Tot (c : RCtx) (M : Nat) (r : Option (World × Ptr)) : Prop :=
  ∃ w p, r = some (w, p) ∧ Inv c w ∧ c.P M p

/-- What a callback body must do. -/
def TotB {σ : Type} (c : RCtx) (r : Option (World × σ × Ctl)) : Prop :=
  ∃ w s ctl, r = some (w, s, ctl) ∧ Inv c w

theorem Tot.jump {σ : Type} {M : Nat} {r : Option (World × Ptr)} (t : Tot c M r) (s : σ) : TotB c (toJump r s) := by
  obtain ⟨w, p, rfl, i, hp⟩ := t
  exact ⟨w, s, _, rfl, i⟩

theorem Tot.mono {M M' : Nat} {r : Option (World × Ptr)} (t : Tot c M r) (h : M ≤ M') : Tot c M' r := by
  obtain ⟨w, p, e, i, hp⟩ := t
  exact ⟨w, p, e, i, hp.mono h⟩

theorem TotB.same {σ : Type} {w : World} (i : Inv c w) (s : σ) (ctl : Ctl) : TotB c (some (w, s, ctl)) :=
  ⟨w, s, ctl, rfl, i⟩

/-- All six functions at depth `d`. -/
structure Fns (c : RCtx) (d : Nat) : Prop where
  paren : ∀ M skip rec w head hooks, M ≤ c.F → c.H hooks → Inv c w → c.P M head → 8 * M + 1 ≤ d →
    Tot c M (parenRun d skip rec w head hooks)
  single : ∀ M w head hooks, M ≤ c.F → c.H hooks → Inv c w → c.P M head → 8 * M + 2 ≤ d →
    Tot c M (singleReturn d w head hooks)
  general : ∀ M w head rk hooks, M ≤ c.F → c.H hooks → Inv c w → c.P M head → 8 * M + 3 ≤ d →
    Tot c M (generalFunc d w head rk hooks)
  param : ∀ M w head hooks, M ≤ c.F → c.H hooks → Inv c w → c.P M head → 8 * M + 4 ≤ d →
    Tot c M (parameterFunc d w head hooks)
  func : ∀ M cfg w head hooks, M ≤ c.F → c.H hooks → Inv c w → c.P M head → 8 * M + 5 ≤ d →
    Tot c M (funcRun d cfg w head hooks)
  pparam : ∀ M rec w head hooks, M ≤ c.F → c.H hooks → Inv c w → c.P M head → 8 * M + 6 ≤ d →
    Tot c M (parenParam d rec w head hooks)

theorem next_handleHook (p : Ptr) (hooks : List Hook) : ∀ (w : World) (q : Ptr),
    (handleHook w p hooks).heap.next q = w.heap.next q := by
  induction hooks with
  | nil => intro w q; rfl
  | cons k ks ih =>
    intro w q
    simp only [handleHook, List.foldl_cons] at ih ⊢
    rw [ih]
    cases k <;> simp only [runHook]
    split <;> simp

/-- Hooks leave every kind other than `Raw` alone. -/
theorem kind_handleHook (p : Ptr) (hooks : List Hook) : ∀ (w : World) (q : Ptr), w.heap.kind q ≠ .raw →
    (handleHook w p hooks).heap.kind q = w.heap.kind q := by
  induction hooks with
  | nil => intro w q _; rfl
  | cons k ks ih =>
    intro w q hq
    have hk : (runHook w p k).heap.kind q = w.heap.kind q := by
      cases k <;> simp only [runHook]
      split
      · rename_i hr
        rcases p with _ | a
        · rfl
        · have la : a < w.heap.size := by
            apply Classical.byContradiction
            intro hn
            have : w.heap.cells[a]? = none := List.getElem?_eq_none (Nat.le_of_not_lt hn)
            simp [Heap.kind, this] at hr
          rw [Heap.kind_setKind _ _ _ _ la]
          split
          · rename_i e; subst e; exact absurd hr hq
          · rfl
      · rfl
    simp only [handleHook, List.foldl_cons] at ih ⊢
    rw [ih _ _ (by rw [hk]; exact hq), hk]

theorem nonComments_congr {h h' : Heap} (g : Good c h) (g' : Good c h') (l : List Addr) :
    nonComments h' l = nonComments h l := by
  unfold nonComments
  apply List.filter_congr
  intro a _
  have := (g'.comm (some a)).trans (g.comm (some a)).symm
  simp [this]

theorem path_congr {h h' : Heap} (e : ∀ p, h'.next p = h.next p) : ∀ l, Path h l → Path h' l
  | [], _ => trivial
  | [_], _ => trivial
  | _ :: b :: l, ⟨h1, h2⟩ => ⟨by rw [e]; exact h1, path_congr e (b :: l) h2⟩

theorem path_lt {h : Heap} (g : Good c h) : ∀ (l : List Addr) (n : Addr), Path h (n :: l) → ∀ q ∈ l, c.f q < c.f n
  | [], _, _, _, hq => by simp at hq
  | b :: l, n, ⟨h1, h2⟩, q, hq => by
    have hb := g.rank n b h1
    rcases List.mem_cons.1 hq with rfl | hq
    · exact hb
    · have := path_lt g l b h2 q hq; omega

theorem path_snoc {h : Heap} : ∀ (l : List Addr) (a : Addr), Path h l →
    (∀ x, l.getLast? = some x → h.next (some x) = some a) → Path h (l ++ [a])
  | [], _, _, _ => trivial
  | [x], a, _, hl => ⟨hl x rfl, trivial⟩
  | x :: y :: l, a, ⟨h1, h2⟩, hl => ⟨h1, path_snoc (y :: l) a h2 (fun z hz => hl z (by rw [List.getLast?_cons_cons]; exact hz))⟩

theorem path_drop {h : Heap} : ∀ (l₁ l₂ : List Addr), Path h (l₁ ++ l₂) → Path h l₂
  | [], _, hp => hp
  | [x], [], _ => trivial
  | [x], b :: l, ⟨_, h2⟩ => h2
  | x :: y :: l₁, l₂, ⟨_, h2⟩ => path_drop (y :: l₁) l₂ h2

/-- The state of the collecting loop of `handleSingleReturnType`: the nodes visited so far are a path
`l` ending before `p`, and `buf` holds its non-comment nodes. -/
structure Collect (c : RCtx) (head : Ptr) (M : Nat) (ws : World × List Ptr) (p : Ptr) (l : List Addr) : Prop where
  inv : Inv c ws.1
  path : Path ws.1.heap l
  last : ∀ x, l.getLast? = some x → ws.1.heap.next (some x) = p
  empty : l = [] → p = head
  buf : ws.2 = (nonComments ws.1.heap l).map some
  mem : ∀ a ∈ l, c.S a ∧ c.f a ≤ M
  pos : c.P M p
  below : ∀ b, p = some b → ∀ a ∈ l, c.f b < c.f a

/-- The body of the collecting loop. -/
def collectFn (hooks : List Hook) (ws : World × List Ptr) (a : Addr) : Option ((World × List Ptr) × Bool) :=
  let w := handleHook ws.1 (some a) hooks
  match w.heap.kind (some a) with
  | .newLine | .space | .curlyL => some ((w, ws.2), false)
  | .comment => some ((w, ws.2), true)
  | _ => some ((w, appendUnrepeatable ws.2 [some a]), true)

theorem collect_cases (hooks : List Hook) (ws : World × List Ptr) (a : Addr) :
    collectFn hooks ws a = some ((handleHook ws.1 (some a) hooks, ws.2), false) ∨
    ((handleHook ws.1 (some a) hooks).heap.kind (some a) = .comment ∧
      collectFn hooks ws a = some ((handleHook ws.1 (some a) hooks, ws.2), true)) ∨
    ((handleHook ws.1 (some a) hooks).heap.kind (some a) ≠ .comment ∧
      collectFn hooks ws a = some ((handleHook ws.1 (some a) hooks, appendUnrepeatable ws.2 [some a]), true)) := by
  simp only [collectFn]
  cases hk : (handleHook ws.1 (some a) hooks).heap.kind (some a) <;> simp

theorem collect_rule (o : c.OK) {hooks : List Hook} (hh : c.H hooks) {w : World} (i : Inv c w) {M : Nat}
    (hM : M ≤ c.F) {head : Ptr} (hp : c.P M head) :
    ∃ ws r l, iterW (collectFn hooks) w ([] : List Ptr) head = some (ws, r) ∧ Collect c head M ws r l := by
  have := loop_rule (fun (ws : World × List Ptr) p => ∃ l, Collect c head M ws p l)
    (fun ws p => ∃ l, Collect c head M ws p l)
    (fun ws a => ws.1.heap.next (some a)) (collectFn hooks) c.f (fun _ h => h) ?_ (w.heap.size + 1) (w, []) head
    ⟨[], i, trivial, by simp, fun _ => rfl, rfl, by simp, hp, by simp⟩ ?_
  · obtain ⟨ws, r, e, l, h⟩ := this
    exact ⟨ws, r, l, e, h⟩
  · rintro ws a ⟨l, co⟩
    have sa := (co.pos a rfl).1
    have fa := (co.pos a rfl).2
    have i1 : Inv c (handleHook ws.1 (some a) hooks) := co.inv.hook o (co.pos.mono hM) hooks hh
    have nx := next_handleHook (some a) hooks ws.1
    have nc := nonComments_congr co.inv.good i1.good l
    have path1 : Path (handleHook ws.1 (some a) hooks).heap l := path_congr nx l co.path
    have last1 : ∀ x, l.getLast? = some x → (handleHook ws.1 (some a) hooks).heap.next (some x) = some a := by
      intro x hx; rw [nx]; exact co.last x hx
    -- a longer path
    have ext : ∀ buf', buf' = (nonComments (handleHook ws.1 (some a) hooks).heap (l ++ [a])).map some →
        Collect c head M (handleHook ws.1 (some a) hooks, buf')
          ((handleHook ws.1 (some a) hooks).heap.next (some a)) (l ++ [a]) ∧
        ∀ a', (handleHook ws.1 (some a) hooks).heap.next (some a) = some a' → c.f a' < c.f a := by
      intro buf' hb
      have lt := i1.good.next_lt o sa
      refine ⟨⟨i1, path_snoc l a path1 last1, by simp, by simp, hb, ?_, i1.good.next_P o co.pos, ?_⟩, fun a' h => (lt a' h).2⟩
      · intro x hx
        rcases List.mem_append.1 hx with hx | hx
        · exact co.mem x hx
        · simp at hx; subst hx; exact ⟨sa, fa⟩
      · intro b hb x hx
        have hb := (lt b hb).2
        rcases List.mem_append.1 hx with hx | hx
        · have := co.below a rfl x hx; omega
        · simp at hx; subst hx; exact hb
    rcases collect_cases hooks ws a with e | ⟨hk, e⟩ | ⟨hk, e⟩
    · refine ⟨_, _, e, fun _ => ⟨l, i1, path1, last1, co.empty, ?_, co.mem, co.pos, co.below⟩, by simp⟩
      rw [nc]; exact co.buf
    · have := ext ws.2 (by
        rw [co.buf, ← nc]
        simp [nonComments, List.filter_append, hk])
      exact ⟨_, _, e, by simp, fun _ => ⟨⟨_, this.1⟩, this.2⟩⟩
    · have := ext (appendUnrepeatable ws.2 [some a]) (by
        have hmap : (nonComments (handleHook ws.1 (some a) hooks).heap (l ++ [a])).map some = ws.2 ++ [some a] := by
          rw [co.buf, ← nc]
          simp [nonComments, List.filter_append, hk]
        rw [hmap]
        unfold appendUnrepeatable
        cases hl : ws.2.getLast? with
        | none => simp_all
        | some x =>
          simp only
          rw [if_neg]
          rintro rfl
          have hm := List.mem_of_getLast? hl
          rw [co.buf] at hm
          simp only [List.mem_map, Option.some.injEq, exists_eq_right] at hm
          have := co.below a rfl a (List.mem_filter.1 hm).1
          omega)
      exact ⟨_, _, e, by simp, fun _ => ⟨⟨_, this.1⟩, this.2⟩⟩
  · intro a ha
    have := o.bound a (hp a ha).1
    rw [i.good.size]; omega

theorem filter_eq_cons {α : Type} {q : α → Bool} : ∀ {l : List α} {n : α} {rest : List α}, l.filter q = n :: rest →
    ∃ l₁ l₂, l = l₁ ++ n :: l₂ ∧ q n = true ∧ l₂.filter q = rest ∧ (∀ a ∈ l₁, q a = false)
  | [], _, _, h => by simp at h
  | a :: l, n, rest, h => by
    rw [List.filter_cons] at h
    split at h
    · rename_i hq
      cases h
      exact ⟨[], l, rfl, hq, rfl, by simp⟩
    · rename_i hq
      obtain ⟨l₁, l₂, rfl, h1, h2, h3⟩ := filter_eq_cons h
      refine ⟨a :: l₁, l₂, rfl, h1, h2, ?_⟩
      intro b hb
      rcases List.mem_cons.1 hb with rfl | hb
      · simpa using hq
      · exact h3 b hb

/-- The deferred merge after the collecting loop. -/
theorem collect_merge (o : c.OK) {head : Ptr} {M : Nat} (hM : M ≤ c.F) {ws : World × List Ptr} {p : Ptr} {l : List Addr}
    (co : Collect c head M ws p l) : ∃ h', deferCombine ws.1.heap ws.2 .paramType = some h' ∧ Good c h' := by
  cases hb : nonComments ws.1.heap l with
  | nil =>
    refine ⟨ws.1.heap, ?_, co.inv.good⟩
    rw [co.buf, hb]; rfl
  | cons n rest =>
    obtain ⟨l₁, l₂, rfl, h1, h2, _⟩ := filter_eq_cons hb
    have sn := (co.mem n (by simp)).1
    have pa := path_drop l₁ (n :: l₂) co.path
    have nc : ws.1.heap.kind (some n) ≠ .comment := by simpa using h1
    have e : ws.2 = some n :: (nonComments ws.1.heap l₂).map some := by
      rw [co.buf, hb, ← h2]; rfl
    obtain ⟨h', e', hg⟩ := co.inv.good.merge o (a := n) (rest := (nonComments ws.1.heap l₂).map some) sn nc (by
      intro q hq
      obtain ⟨b, hb, rfl⟩ := List.mem_map.1 hq
      have hb := (List.mem_filter.1 hb).1
      exact .some (co.mem b (by simp [hb])).1 (Nat.le_of_lt (path_lt co.inv.good l₂ n pa b hb)))
    refine ⟨h', by rw [e]; exact e', hg (o.xMerge _ n l₂ h' co.inv.good sn (Nat.le_trans (co.mem n (by simp)).2 hM) nc pa e')⟩

theorem P_pred (o : c.OK) {M : Nat} {h : Heap} (g : Good c h) {p : Ptr} (hp : c.P M p) {b : Addr}
    (e : h.next p = some b) : c.P (M - 1) (some b) ∧ 1 ≤ M := by
  rcases p with _ | a
  · cases e
  · have := g.next_lt o (hp a rfl).1 b e
    have h2 := (hp a rfl).2
    exact ⟨.some this.1 (by omega), by omega⟩

theorem fns (o : c.OK) : ∀ d, Fns c d := by
  intro d
  induction d with
  | zero => exact ⟨by omega, by omega, by omega, by omega, by omega, by omega⟩
  | succ d ih =>
    refine ⟨?_, ?_, ?_, ?_, ?_, ?_⟩
    · -- parenRun
      intro M skip rec w head hooks hM hh i hp hd
      rw [parenRun]
      split
      · exact skipNestNext_inv o i hM hp _ _ hh
      · split
        · exact ⟨_, _, rfl, i.hook o (hp.mono hM) hooks hh, (i.hook o (hp.mono hM) hooks hh).good.next_P o hp⟩
        · rename_i hk
          have hk : w.heap.kind head = .parenL := Classical.not_not.1 hk
          rcases head with _ | a
          · simp [Heap.kind] at hk
          · -- the first iteration passes over the opening bracket
            have i1 := i.hook o (hp.mono hM) hooks hh
            have k1 : (handleHook w (some a) hooks).heap.kind (some a) = .parenL := by
              rw [kind_handleHook _ _ _ _ (by rw [hk]; decide), hk]
            have hb : a < w.heap.size := i.good.lt o (hp a rfl).1
            have bnd := o.bound a (hp a rfl).1
            have hz : w.heap.size = c.h0.size := i.good.size
            have hpn : c.P (M - 1) ((handleHook w (some a) hooks).heap.next (some a)) := by
              intro b eb
              exact (P_pred o i1.good hp eb).1 b rfl
            have hf : ∀ b, (handleHook w (some a) hooks).heap.next (some a) = some b → c.f b < w.heap.size := by
              intro b eb
              have := i1.good.next_lt o (hp a rfl).1 b eb
              omega
            have step : ∀ body : World → Unit → Addr → Option (World × Unit × Ctl),
                (∀ w, w.heap.kind (some a) = .parenL → body w () a = some (w, (), .cont)) →
                (∀ w s b, Inv c w → c.S b → c.f b ≤ M - 1 → 1 ≤ M → TotB c (body w s b)) →
                Tot c M (jumpLoop false hooks body w () (some a)) := by
              intro body b1 b2
              have hb2 : ∀ w s b, Inv c w → c.S b → c.f b ≤ M - 1 → 1 ≤ M → TotB c (body w s b) := b2
              by_cases hM1 : 1 ≤ M
              · obtain ⟨w', j', r, e, h1, h2⟩ := jump_rule o false hooks hh body (M := M - 1) (by omega)
                  (fun w s b i s1 s2 => hb2 w s b i s1 s2 hM1) i1 ⟨false, none, ()⟩ hpn hf
                refine ⟨w', r, ?_, h1, h2.mono (by omega)⟩
                simp only [jumpLoop, iterW, loop]
                have : jumpStep false hooks body (w, ⟨false, none, ()⟩) a =
                    some ((handleHook w (some a) hooks, ⟨false, none, ()⟩), true) := by
                  simp [jumpStep, b1 _ k1, applyCtl]
                simp only [this, e, Option.map_some]
              · refine ⟨handleHook w (some a) hooks, none, ?_, i1, .none⟩
                simp only [jumpLoop, iterW, loop]
                have : jumpStep false hooks body (w, ⟨false, none, ()⟩) a =
                    some ((handleHook w (some a) hooks, ⟨false, none, ()⟩), true) := by
                  simp [jumpStep, b1 _ k1, applyCtl]
                have hn : (handleHook w (some a) hooks).heap.next (some a) = none := by
                  cases hn : (handleHook w (some a) hooks).heap.next (some a) with
                  | none => rfl
                  | some b => exact absurd (P_pred o i1.good hp hn).2 hM1
                simp only [this, hn, loop, Option.map_some]
            apply step
            · intro w hw; simp only [hw]
            · intro w s b i sb fb hM1
              split
              · exact .same i _ _
              · exact .same i _ _
              · exact .same i _ _
              · exact .same i _ _
              · exact .same i _ _
              · exact .same i _ _
              · exact .same i _ _
              · exact (ih.pparam (M - 1) rec w (some b) hooks (by omega) hh i (.some sb fb) (by omega)).jump _
    · -- singleReturn
      intro M w head hooks hM hh i hp hd
      rw [singleReturn]
      split
      · exact ⟨_, _, rfl, i.hook o (hp.mono hM) hooks hh, (i.hook o (hp.mono hM) hooks hh).good.next_P o hp⟩
      · have hp1 : c.P M (w.heap.next head) := i.good.next_P o hp
        obtain ⟨w1, found, e1, i1, hf⟩ := findNext_inv o i hM hp1 [.comment] { targetReverse := true } hh
        have hnext : found ≠ none → ∃ b, w.heap.next head = some b := by
          intro hfd
          cases hn : w.heap.next head with
          | some b => exact ⟨b, rfl⟩
          | none =>
            rw [hn] at e1
            simp [findNext, iterW, loop] at e1
            exact absurd e1.2.symm hfd
        simp only [e1]
        split
        · rename_i hk
          obtain ⟨b, hb⟩ := hnext (by rintro rfl; simp [Heap.kind] at hk)
          have := P_pred o i.good hp hb
          rw [hb]
          exact (ih.paren (M - 1) _ _ w1 (some b) hooks (by omega) hh i1 this.1 (by omega)).mono (by omega)
        · rename_i hk
          obtain ⟨b, hb⟩ := hnext (by rintro rfl; simp [Heap.kind] at hk)
          have := P_pred o i.good hp hb
          rw [hb]
          exact (ih.param (M - 1) w1 (some b) hooks (by omega) hh i1 this.1 (by omega)).mono (by omega)
        · obtain ⟨ws, r, l, e, co⟩ := collect_rule o hh i1 hM hp1
          obtain ⟨h', e', g'⟩ := collect_merge o hM co
          have e : iterW (fun (ws : World × List Ptr) a =>
              let w := handleHook ws.1 (some a) hooks
              match w.heap.kind (some a) with
              | .newLine | .space | .curlyL => some ((w, ws.2), false)
              | .comment => some ((w, ws.2), true)
              | _ => some ((w, appendUnrepeatable ws.2 [some a]), true)) w1 ([] : List Ptr) (w.heap.next head)
              = some (ws, r) := e
          obtain ⟨w2, buf⟩ := ws
          refine ⟨{ w2 with heap := h' }, r, ?_, co.inv.heap g', co.pos⟩
          split
          · rename_i hn; exact absurd (e.symm.trans hn) (by simp)
          · rename_i hn
            have hn := e.symm.trans hn
            cases hn
            simp only [e']
    · -- generalFunc
      intro M w head rk hooks hM hh i hp hd
      rw [generalFunc]
      have i1 : Inv c (if decide (w.heap.kind head = .func_) = true then handleHook w head hooks else w) := by
        split
        · exact i.hook o (hp.mono hM) hooks hh
        · exact i
      simp only
      generalize (if decide (w.heap.kind head = .func_) = true then handleHook w head hooks else w) = w1 at i1 ⊢
      have hp1 : c.P M (if decide (w.heap.kind head = .func_) = true then w1.heap.next head else head) := by
        split
        · exact i1.good.next_P o hp
        · exact hp
      generalize (if rk.length ≠ 0 then CharSet.new rk else CharSet.new [.newLine]) = cs
      refine jumpLoop_rule o false hooks hh _ hM ?_ i1 _ hp1
      intro w s a i sa fa
      show TotB c _
      have ha : c.P M (some a) := .some sa fa
      split
      · exact .same i _ _
      · split
        · exact .same i _ _
        · rename_i hk
          split
          · exact .same (i.setKind o sa (Nat.le_trans fa hM) (by rw [hk]; decide) (by decide)) _ _
          · exact .same i _ _
        · split
          · exact (ih.single M w (some a) hooks hM hh i ha (by omega)).jump _
          · exact .same i _ _
        · exact (ih.paren M _ _ w (some a) hooks hM hh i ha (by omega)).jump _
        · exact (show Tot c M _ from skipNestNext_inv o i hM ha _ _ hh).jump _
        · exact (show Tot c M _ from skipNestNext_inv o i hM ha _ _ hh).jump _
        · exact .same i _ _
    · -- parameterFunc
      intro M w head hooks hM hh i hp hd
      rw [parameterFunc]
      obtain ⟨w', n, e, i', hn⟩ := ih.general M w head [.comma, .parenR, .newLine] hooks hM hh i hp (by omega)
      simp only [e]
      split
      · exact ⟨_, _, rfl, i'.hook o (hn.mono hM) hooks hh, (i'.hook o (hn.mono hM) hooks hh).good.next_P o hn⟩
      · exact ⟨_, _, rfl, i', hn⟩
    · -- funcRun
      intro M r w head hooks hM hh i hp hd
      rw [funcRun]
      split
      · exact ih.param M w head hooks hM hh i hp (by omega)
      · split
        · exact ih.general M w head _ hooks hM hh i hp (by omega)
        · obtain ⟨b, eb⟩ := isTemporaryFunc_inv o i hM hp
          simp only [eb]
          cases b with
          | true => exact ih.general M w head _ hooks hM hh i hp (by omega)
          | false =>
            simp only
            split
            · exact ⟨_, _, rfl, i.hook o (hp.mono hM) hooks hh, (i.hook o (hp.mono hM) hooks hh).good.next_P o hp⟩
            · have i1 : Inv c (if r.isFuncKeywordLeading = true then handleHook w head hooks else w) := by
                split
                · exact i.hook o (hp.mono hM) hooks hh
                · exact i
              generalize (if r.isFuncKeywordLeading = true then handleHook w head hooks else w) = w1 at i1 ⊢
              have hp1 : c.P M (if r.isFuncKeywordLeading = true then w1.heap.next head else head) := by
                split
                · exact i1.good.next_P o hp
                · exact hp
              generalize (if r.isFuncKeywordLeading = true then w1.heap.next head else head) = head1 at hp1 ⊢
              refine jumpLoop_rule o false hooks hh _ hM ?_ i1 _ hp1
              intro w s a i sa fa
              show TotB c _
              have ha : c.P M (some a) := .some sa fa
              split
              · exact .same i _ _
              · generalize (if s.1 = false then decide (w.heap.kind (some a) = .parenL) else s.2) = im
                split
                · exact (ih.paren M _ _ w (some a) hooks hM hh i ha (by omega)).jump _
                · split
                  · exact .same i _ _
                  · exact (ih.general M w head1 _ hooks hM hh i hp1 (by omega)).jump _
    · -- parenParam
      intro M rec w head hooks hM hh i hp hd
      rw [parenParam]
      obtain ⟨n, en⟩ := validParamCount_inv o i hp
      simp only [en]
      refine jumpLoop_rule o false hooks hh _ hM ?_ i _ hp
      intro w s a i sa fa
      show TotB c _
      have ha : c.P M (some a) := .some sa fa
      have t1 : IsResetKind (if rec = true then Kind.methodReceiverType else .paramType) := by split <;> decide
      have t2 : IsResetKind (if rec = true then Kind.methodReceiverName else .paramName) := by split <;> decide
      split
      · exact .same i _ _
      · exact .same i _ _
      · exact (show Tot c M _ from skipNestNext_inv o i hM ha _ _ hh).jump _
      · exact .same i _ _
      · exact .same i _ _
      · exact .same i _ _
      · exact .same i _ _
      · exact .same i _ _
      · exact (ih.func M _ w (some a) hooks hM hh i ha (by omega)).jump _
      · rename_i hk
        split
        · exact .same (i.setKind o sa (Nat.le_trans fa hM) (by rw [hk]; decide) t1) _ _
        · split
          · exact .same (i.setKind o sa (Nat.le_trans fa hM) (by rw [hk]; decide) t2) _ _
          · exact .same (i.setKind o sa (Nat.le_trans fa hM) (by rw [hk]; decide) t1) _ _
      · rename_i hk
        split
        · exact .same (i.setKind o sa (Nat.le_trans fa hM) (by rw [hk]; decide) t1) _ _
        · split
          · exact .same (i.setKind o sa (Nat.le_trans fa hM) (by rw [hk]; decide) t2) _ _
          · exact .same (i.setKind o sa (Nat.le_trans fa hM) (by rw [hk]; decide) t1) _ _
      · rename_i hk
        split
        · exact .same (i.setKind o sa (Nat.le_trans fa hM) (by rw [hk]; decide) t1) _ _
        · split
          · exact .same (i.setKind o sa (Nat.le_trans fa hM) (by rw [hk]; decide) t2) _ _
          · exact .same (i.setKind o sa (Nat.le_trans fa hM) (by rw [hk]; decide) t1) _ _
      · exact .same i _ _

end Goast
