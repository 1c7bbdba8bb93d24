import Verif.Proofs.AlikeSim
import Verif.Spec.ParseSteps

/-! # Proofs: what one sees of scopes in corresponding memories -/

set_option linter.unusedSimpArgs false
set_option linter.unusedVariables false

namespace Goast

variable {ρ : Corr}

/-- Addresses that correspond one by one. -/
def AddrsRel (ρ : Corr) : List Nat → List Nat → Prop
  | [], [] => True
  | a :: as, b :: bs => ρ.rel a b ∧ AddrsRel ρ as bs
  | _, _ => False

theorem AddrsRel.append : ∀ {as bs as' bs' : List Nat}, AddrsRel ρ as bs → AddrsRel ρ as' bs' → AddrsRel ρ (as ++ as') (bs ++ bs')
  | [], [], _, _, _, h' => h'
  | [], _ :: _, _, _, h, _ => h.elim
  | _ :: _, [], _, _, h, _ => h.elim
  | _ :: _, _ :: _, _, _, h, h' => ⟨h.1, AddrsRel.append h.2 h'⟩

theorem AddrsRel.mem : ∀ {as bs : List Nat}, AddrsRel ρ as bs → ∀ b ∈ bs, ∃ a ∈ as, ρ.rel a b
  | [], [], _, _, h => by cases h
  | [], _ :: _, h, _, _ => h.elim
  | _ :: _, [], h, _, _ => h.elim
  | a :: as, b :: bs, h, c, hc => by
    rcases List.mem_cons.1 hc with rfl | hc
    · exact ⟨a, by simp, h.1⟩
    · obtain ⟨x, hx, hr⟩ := AddrsRel.mem h.2 c hc
      exact ⟨x, by simp [hx], hr⟩

theorem AddrsRel.nodup : ∀ {as bs : List Nat}, AddrsRel ρ as bs → as.Nodup → bs.Nodup
  | [], [], _, _ => List.nodup_nil
  | [], _ :: _, h, _ => h.elim
  | _ :: _, [], h, _ => h.elim
  | a :: as, b :: bs, h, n => by
    rw [List.nodup_cons] at n ⊢
    refine ⟨fun hb => ?_, AddrsRel.nodup h.2 n.2⟩
    obtain ⟨x, hx, hr⟩ := AddrsRel.mem h.2 b hb
    exact n.1 (ρ.inj _ _ _ h.1 hr ▸ hx)

theorem Listed.rel {h : Heap} {m : Mem} (i : MemRel ρ h m) {p n : Ptr} {as : List Nat} {l : List (Int × Kind × Bytes)} (hl : Listed h.mem p n as l) :
    ∀ {p' n' : Ptr}, PtrRel ρ p p' → PtrRel ρ n n' → ∃ bs, Listed m p' n' bs l ∧ AddrsRel ρ as bs := by
  induction hl with
  | nil =>
    intro p' n' _ hn
    cases n' with
    | none => exact ⟨[], .nil, trivial⟩
    | some b => exact hn.elim
  | @cons p a r as l hr hp _ ih =>
    intro p' n' hp' hn
    cases n' with
    | none => exact hn.elim
    | some b =>
      obtain ⟨s, s', hs, hs', hf⟩ := i a b hn
      have : r = s := by
        have hr' : h.cells[a]? = some r := hr
        rw [hs] at hr'; cases hr'; rfl
      subst this
      obtain ⟨bs, h1, h2⟩ := ih (p' := some b) (n' := s'.next) hn (hf .next)
      have e1 : r.line = s'.line := hf .line
      have e2 : r.kind = s'.kind := hf .kind
      have e3 : r.text = s'.text := hf .text
      have e4 : PtrRel ρ r.prev s'.prev := hf .prev
      refine ⟨b :: bs, ?_, hn, h2⟩
      rw [e1, e2, e3]
      refine .cons hs' ?_ h1
      subst hp
      cases hq : r.prev with
      | none =>
        rw [hq] at e4 hp'
        rw [e4.none_iff.1 rfl, hp'.none_iff.1 rfl]
      | some x =>
        rw [hq] at e4 hp'
        cases hq' : s'.prev with
        | none => rw [hq'] at e4; exact e4.elim
        | some y =>
          cases p' with
          | none => exact hp'.elim
          | some y' => rw [hq'] at e4; rw [ρ.fn _ _ _ e4 hp']

theorem Shown.rel {h : Heap} {m : Mem} (i : MemRel ρ h m) {scs : List ScopeRec} {ass : List (List Nat)}
    {out : List (ScopeKind × Int × List (Int × Kind × Bytes))} (hl : Shown h.mem scs ass out) :
    ∀ {scs' : List ScopeRec}, ScopesRel ρ scs scs' → ∃ bss, Shown m scs' bss out ∧ AddrsRel ρ ass.flatten bss.flatten := by
  induction hl with
  | nil =>
    intro scs' hs
    cases scs' with
    | nil => exact ⟨[], .nil, trivial⟩
    | cons _ _ => exact hs.elim
  | @cons sc scs as ass l out h1 _ ih =>
    intro scs' hs
    cases scs' with
    | nil => exact hs.elim
    | cons sc' scs' =>
      obtain ⟨bss, h2, h3⟩ := ih hs.2
      obtain ⟨bs, h4, h5⟩ := h1.rel i (p' := none) trivial hs.1.2.2
      refine ⟨bs :: bss, ?_, ?_⟩
      · rw [hs.1.1, hs.1.2.1]; exact .cons h4 h2
      · simp only [List.flatten_cons]; exact h5.append h3

theorem Listed.congr {m m' : Mem} {p n : Ptr} {as : List Nat} {l : List (Int × Kind × Bytes)} (hl : Listed m p n as l) :
    (∀ a ∈ as, m' a = m a) → Listed m' p n as l := by
  induction hl with
  | nil => intro _; exact .nil
  | @cons p a r as l hr hp _ ih => intro h; exact .cons (by rw [h a (by simp), hr]) hp (ih fun b hb => h b (by simp [hb]))

theorem Shown.congr {m m' : Mem} {scs : List ScopeRec} {ass : List (List Nat)} {out : List (ScopeKind × Int × List (Int × Kind × Bytes))}
    (hl : Shown m scs ass out) : (∀ a ∈ ass.flatten, m' a = m a) → Shown m' scs ass out := by
  induction hl with
  | nil => intro _; exact .nil
  | @cons sc scs as ass l out h1 _ ih =>
    intro h
    exact .cons (h1.congr fun a ha => h a (by simp [ha])) (ih fun a ha => h a (by rw [List.flatten_cons]; exact List.mem_append_right _ ha))

theorem Listed.exists {m : Mem} {p n : Ptr} {as : List Nat} {l : List (Int × Kind × Bytes)} (hl : Listed m p n as l) : ∀ a ∈ as, m a ≠ none := by
  induction hl with
  | nil => intro a h; cases h
  | @cons p a r as l hr hp _ ih =>
    intro b hb
    rcases List.mem_cons.1 hb with rfl | hb
    · rw [hr]; exact fun h => nomatch h
    · exact ih b hb

theorem Shown.exists {m : Mem} {scs : List ScopeRec} {ass : List (List Nat)} {out : List (ScopeKind × Int × List (Int × Kind × Bytes))}
    (hl : Shown m scs ass out) : ∀ a ∈ ass.flatten, m a ≠ none := by
  induction hl with
  | nil => intro a h; cases h
  | @cons sc scs as ass l out h1 _ ih =>
    intro b hb
    rw [List.flatten_cons] at hb
    rcases List.mem_append.1 hb with hb | hb
    · exact h1.exists b hb
    · exact ih b hb

theorem listed_of_chain {h : Heap} {l : List Addr} (c : Chain h l) : ∀ (l₂ l₁ : List Addr), l = l₁ ++ l₂ →
    Listed h.mem l₁.getLast? l₂.head? l₂ (l₂.map (data h))
  | [], l₁, _ => .nil
  | a :: l₂, l₁, e => by
    obtain ⟨c1, c2, c3, c4⟩ := c
    have ha : a < h.size := c1 a (by rw [e]; simp)
    have hr : h.cells[a]? = some h.cells[a] := List.getElem?_eq_getElem ha
    have hp : h.prev (some a) = l₁.getLast? := by
      rcases List.eq_nil_or_concat l₁ with rfl | ⟨l3, x, rfl⟩
      · exact c2 a (by rw [e]; rfl)
      · rw [(c4 l3 x a l₂ (by rw [e]; simp)).2]; simp
    have hn : h.next (some a) = l₂.head? := by
      cases l₂ with
      | nil => exact c3 a (by rw [e]; simp)
      | cons b l₂ => exact (c4 l₁ a b l₂ (by rw [e])).1
    have ih := listed_of_chain ⟨c1, c2, c3, c4⟩ l₂ (l₁ ++ [a]) (by rw [e]; simp)
    have hd : data h a = (h.cells[a].line, h.cells[a].kind, h.cells[a].text) := by
      simp only [data, Heap.line, Heap.kind, Heap.text, hr]
    simp only [Heap.prev, hr] at hp
    simp only [Heap.next, hr] at hn
    rw [List.map_cons, hd, List.head?_cons]
    refine .cons hr hp ?_
    have : (l₁ ++ [a]).getLast? = some a := by simp
    rw [this] at ih
    show Listed h.mem (some a) h.cells[a].next l₂ _
    have hn' : h.cells[a].next = l₂.head? := hn
    rw [hn']; exact ih

theorem shown_of_chains {h : Heap} : ∀ {scs : List ScopeRec} {ls : List (List Addr)}, scs.map (·.node) = ls.map List.head? → (∀ l ∈ ls, Chain h l) →
    ∃ out, Shown h.mem scs ls out
  | [], [], _, _ => ⟨[], .nil⟩
  | [], _ :: _, e, _ => by simp at e
  | _ :: _, [], e, _ => by simp at e
  | sc :: scs, l :: ls, e, hc => by
    simp only [List.map_cons, List.cons.injEq] at e
    obtain ⟨out, ho⟩ := shown_of_chains e.2 fun l hl => hc l (by simp [hl])
    refine ⟨_, .cons (l := l.map (data h)) ?_ ho⟩
    rw [e.1]
    exact listed_of_chain (hc l (by simp)) l [] rfl

end Goast
