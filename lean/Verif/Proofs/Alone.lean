import Verif.Proofs.LikeReset
import Verif.Proofs.RelocateView
import Verif.Proofs.Parse
import Verif.Spec.Compose

/-!
# The scope of a group of nodes is what `resetKind` makes of these nodes alone
-/

set_option linter.unusedSimpArgs false
set_option linter.unusedVariables false

namespace Goast
open Heap

/-- The nodes `ts` as one chain, and nothing else. -/
def canon (ts : List Tok) : Heap := Heap.empty.extend (recs 0 ts)

theorem size_canon (ts : List Tok) : (canon ts).size = ts.length := by simp [canon, Heap.empty, Heap.size, Heap.extend]

theorem cells_canon (ts : List Tok) : (canon ts).cells = recs 0 ts := by simp [canon, Heap.empty, Heap.extend]

theorem next_canon (ts : List Tok) (i : Nat) : (canon ts).next (some i) = if i + 1 < ts.length then some (i + 1) else none := by
  have := next_recs Heap.empty ts i
  simpa [canon, Heap.empty, Heap.size] using this

theorem prev_canon (ts : List Tok) (i : Nat) : (canon ts).prev (some i) = if i = 0 ∨ ts.length ≤ i then none else some (i - 1) := by
  simp only [Heap.prev, cells_canon, getElem?_recs]
  by_cases hi : i < ts.length
  · simp [hi, Nat.not_le.2 hi]
  · simp [List.getElem?_eq_none (Nat.not_lt.1 hi), Nat.not_lt.1 hi]

theorem wf_canon (ts : List Tok) : WF (canon ts) := by
  constructor
  · intro a b
    rw [next_canon, prev_canon]
    constructor
    · intro h
      split at h
      · simp only [Option.some.injEq] at h
        subst h
        rw [if_neg (by omega)]
        simp
      · cases h
    · intro h
      split at h
      · cases h
      · simp only [Option.some.injEq] at h
        subst h
        rw [if_pos (by omega)]
        simp; omega
  · intro a h
    rw [next_canon] at h
    split at h <;> simp at h

theorem acyclic_canon (ts : List Tok) : Acyclic (canon ts) := by
  refine Ranked.fwd (wf_canon ts) ⟨fun a => ts.length - a, fun a b h => ?_⟩
  rw [next_canon] at h
  split at h
  · simp only [Option.some.injEq] at h; subst h; show ts.length - (a + 1) < ts.length - a; omega
  · cases h

theorem line_canon (ts : List Tok) (i : Nat) (hi : i < ts.length) : (canon ts).line (some i) = ts[i].line := by
  simp only [Heap.line, cells_canon, getElem?_recs, List.getElem?_eq_getElem hi, Option.map_some]

/-- A node as a token. -/
def tokOf (h : Heap) (a : Addr) : Tok := ⟨h.line (some a), h.kind (some a), h.text (some a)⟩

/-- Where the nodes of the group `g` are in a heap of `n` nodes. -/
def place (g : List Addr) (n : Nat) (i : Nat) : Addr := (g[i]?).getD (n + i)

theorem chain_next {h : Heap} {g : List Addr} (c : Chain h g) (i : Nat) (hi : i < g.length) : h.next (some g[i]) = g[i + 1]? := by
  by_cases h1 : i + 1 < g.length
  · have e : g = g.take i ++ g[i] :: g[i + 1] :: g.drop (i + 2) := by simp
    rw [(c.2.2.2 _ _ _ _ e).1]
    simp [h1]
  · rw [List.getElem?_eq_none (by omega)]
    apply c.2.2.1
    rw [List.getLast?_eq_getElem?]
    have : g.length - 1 = i := by omega
    simp [this]

theorem chain_prev {h : Heap} {g : List Addr} (c : Chain h g) (i : Nat) (hi : i < g.length) : h.prev (some g[i]) = if i = 0 then none else g[i - 1]? := by
  cases i with
  | zero =>
    simp only [if_true]
    apply c.2.1
    rw [List.head?_eq_getElem?]
    simp
  | succ i =>
    have e : g = g.take i ++ g[i] :: g[i + 1] :: g.drop (i + 2) := by simp
    rw [(c.2.2.2 _ _ _ _ e).2]
    simp

theorem group_like {h : Heap} {g : List Addr} (c : Chain h g) : Like (place g h.size) (canon (g.map (tokOf h))) h := by
  have lt : ∀ i (hi : i < g.length), g[i] < h.size := fun i hi => c.1 _ (List.getElem_mem hi)
  refine ⟨?_, ?_, ?_⟩
  · intro a b e
    unfold place at e
    by_cases ha : a < g.length <;> by_cases hb : b < g.length
    · simp only [ha, hb, List.getElem?_eq_getElem, Option.getD_some] at e
      have nd := List.pairwise_iff_getElem.1 c.nodup
      rcases Nat.lt_trichotomy a b with hab | hab | hab
      · exact absurd e (nd a b ha hb hab)
      · exact hab
      · exact absurd e.symm (nd b a hb ha hab)
    · simp only [ha, List.getElem?_eq_getElem, List.getElem?_eq_none (Nat.not_lt.1 hb), Option.getD_some, Option.getD_none] at e
      have := lt a ha; omega
    · simp only [hb, List.getElem?_eq_getElem, List.getElem?_eq_none (Nat.not_lt.1 ha), Option.getD_some, Option.getD_none] at e
      have := lt b hb; omega
    · simp only [List.getElem?_eq_none (Nat.not_lt.1 ha), List.getElem?_eq_none (Nat.not_lt.1 hb), Option.getD_none] at e
      omega
  · intro i
    rw [cells_canon, getElem?_recs]
    by_cases hi : i < g.length
    · have hp : place g h.size i = g[i] := by simp [place, hi]
      obtain ⟨r, hr⟩ := getElem?_of_lt (lt i hi)
      rw [hp, hr]
      have n1 := chain_next c i hi
      have p1 := chain_prev c i hi
      simp only [Heap.next, Heap.prev, hr, Option.bind_some] at n1 p1
      have tk : tokOf h g[i] = ⟨r.line, r.kind, r.text⟩ := by simp [tokOf, Heap.line, Heap.kind, Heap.text, hr]
      simp only [Option.map_some, List.getElem?_map, hi, List.getElem?_eq_getElem, Option.some.injEq, core, coreAt, tk,
        Prod.mk.injEq, true_and, n1, p1, List.length_map]
      have k1 : r.kind = (tokOf h g[i]).kind := by rw [tk]
      have t1 : r.text = (tokOf h g[i]).text := by rw [tk]
      refine ⟨by rw [List.getElem_map]; exact k1, by rw [List.getElem_map]; exact t1, ?_, ?_⟩
      · by_cases h0 : i = 0
        · simp [h0]
        · have : i - 1 < g.length := by omega
          simp [h0, place, this]
      · by_cases h1 : i + 1 < g.length
        · simp [h1, place]
        · simp [h1, List.getElem?_eq_none (Nat.not_lt.1 h1)]
    · have hp : place g h.size i = h.size + i := by simp [place, List.getElem?_eq_none (Nat.not_lt.1 hi)]
      rw [hp, List.getElem?_eq_none (by simp [Heap.size]), List.getElem?_eq_none (by simpa using hi)]
      rfl
  · rw [size_canon, List.length_map]
    exact c.fwd.length_le

theorem Like.emb0 {φ : Addr → Addr} {h H : Heap} (L : Like φ h H) : Emb0 φ (fun _ => True) h H where
  nextC _ _ := trivial
  prevC _ _ := trivial
  size {a} _ ha := by
    rcases L.cases a with ⟨h1, _⟩ | ⟨r, r', _, h2, _⟩
    · rw [List.getElem?_eq_none_iff] at h1
      simp only [Heap.size] at ha; omega
    · exact (List.getElem?_eq_some_iff.1 h2).1
  next _ := L.next (some _)
  prev _ := L.prev (some _)
  kind _ := L.kind (some _)
  text _ := L.text (some _)

theorem walk_map_acc {α : Type} (f : Addr → α) : ∀ (l : List Addr) (s : List α),
    (walk (fun (s : List α) a => (s ++ [f a], true)) s l).1 = s ++ l.map f
  | [], s => by simp [walk]
  | a :: l, s => by
    rw [walk]
    simp [walk_map_acc f l]

/-- What the methods show of a scope at another place, with all lines changed by the same number. -/
theorem Emb0.look {φ : Addr → Addr} {R : Addr → Prop} {h H : Heap} (E : Emb0 φ R h H) {sc : ScopeRec} {l : List Addr} (f : Fwd h sc.node l)
    (hp : ∀ a, sc.node = some a → R a) {n : Int} (hl : ∀ a ∈ l, H.line (some (φ a)) = h.line (some a) + n) :
    ScopeRec.look H { sc.at φ with line := sc.line + n } = (sc.look h).below n := by
  obtain ⟨r1, a1, b1⟩ := E.funcName f hp
  obtain ⟨r2, a2, b2⟩ := E.typeName f hp
  obtain ⟨r3, a3, b3⟩ := E.structName f hp
  obtain ⟨r4, a4, b4⟩ := E.interfaceName f hp
  obtain ⟨r5, a5, b5⟩ := E.methodReceiver f hp
  obtain ⟨r6, a6, b6⟩ := E.methodName f hp
  obtain ⟨f', hr⟩ := E.fwd f hp
  have e1 : ScopeRec.getFuncName H { line := sc.line + n, kind := sc.kind, node := sc.node.map φ } = some r1 := b1
  have e2 : ScopeRec.getTypeName H { line := sc.line + n, kind := sc.kind, node := sc.node.map φ } = some r2 := b2
  have e3 : ScopeRec.getStructName H { line := sc.line + n, kind := sc.kind, node := sc.node.map φ } = some r3 := b3
  have e4 : ScopeRec.getInterfaceName H { line := sc.line + n, kind := sc.kind, node := sc.node.map φ } = some r4 := b4
  have e5 : ScopeRec.getMethodReceiver H { line := sc.line + n, kind := sc.kind, node := sc.node.map φ } = some r5 := b5
  have e6 : ScopeRec.getMethodName H { line := sc.line + n, kind := sc.kind, node := sc.node.map φ } = some r6 := b6
  simp only [ScopeRec.at]
  simp only [ScopeRec.look, Look.below, a1, a2, a3, a4, a5, a6, e1, e2, e3, e4, e5, e6, Look.mk.injEq, and_true, true_and, ScopeRec.lineNo]
  refine ⟨by omega, ?_⟩
  rw [iterNext_eq H _ f', iterNext_eq h _ f]
  simp only [Option.map_some, Option.some.injEq, walk_map_acc, List.nil_append, List.map_map]
  refine List.map_congr_left (fun a ha => ?_)
  have ra := hr a ha
  simp [hl a ha, E.kind ra, E.text ra]

/-- What the methods show of the scope made of the tokens `ts` alone. -/
def lookTok (ts : List Tok) : Look :=
  match resetKind (canon ts) (some 0) with
  | none => default
  | some (h, _) => ScopeRec.look h { line := (ts.head?.map Tok.line).getD (-2), kind := newScopeKind ((ts.head?.map Tok.text).getD []), node := some 0 }
where default : Look := ⟨.unknown, 0, none, none, none, none, none, none, none⟩

theorem Look.below_zero (v : Look) : v.below 0 = v := by
  cases v with | mk k l nd _ _ _ _ _ _ =>
  simp only [Look.below, Int.add_zero, Look.mk.injEq, and_true, true_and]
  cases nd <;> simp

/-- The course of `resetKind` on tokens alone. -/
theorem canon_reset {ts : List Tok} (hne : ts ≠ []) : ∃ h q l, resetKind (canon ts) (some 0) = some (h, q) ∧ WF h ∧ Acyclic h ∧
    Fwd h (some 0) l ∧ (∀ i ∈ l, i < ts.length) ∧ (∀ p, h.line p = (canon ts).line p) ∧ h.size = ts.length := by
  have hlen : 0 < ts.length := List.length_pos_iff.2 hne
  obtain ⟨h, q, e⟩ := C16_resetKind_total (wf_canon ts) (acyclic_canon ts) (n := some 0) (by intro a ha; cases ha; rw [size_canon]; exact hlen)
  obtain ⟨l0, ch, h0⟩ := Acyclic.exists_chain (wf_canon ts) (acyclic_canon ts) 0 (by rw [size_canon]; exact hlen)
  have loc := C17_resetKind_local (wf_canon ts) (acyclic_canon ts) ch h0 e
  have hsz : h.size = ts.length := by rw [loc.2.2.1, size_canon]
  obtain ⟨l, f⟩ := loc.2.1 0 (by rw [hsz]; exact hlen)
  exact ⟨h, q, l, e, loc.1, loc.2.1, f, fun i hi => by rw [← hsz]; exact f.lt i hi, loc.2.2.2.2.1, hsz⟩

/-- The scope of a group, in the end, is the scope of its tokens alone. -/
theorem group_look {h h' : Heap} {a : Addr} {g : List Addr} (gr : GroupReset h h' (a :: g)) (lines : ∀ p, h'.line p = h.line p) :
    (scopeOf h (a :: g)).look h' = lookTok ((a :: g).map (tokOf h)) := by
  obtain ⟨h1, h2, r, w, ac, ch, sz, s1, e, s2, sz'⟩ := gr.ex
  have tk : (a :: g).map (tokOf h) = (a :: g).map (tokOf h1) := by
    refine List.map_congr_left (fun b hb => ?_)
    have := (s1 b hb).2.2
    simp only [data, Prod.mk.injEq] at this
    simp [tokOf, this]
  rw [tk]
  have L := group_like ch
  generalize hts : (a :: g).map (tokOf h1) = ts at L
  have hne : ts ≠ [] := by rw [← hts]; simp
  have hlen : ts.length = (a :: g).length := by rw [← hts]; simp
  obtain ⟨c1, q, l, ec, wc, acc, fc, lc, lnc, szc⟩ := canon_reset hne
  obtain ⟨H', eH, L1⟩ := resetKind_like L ec
  have p0 : place (a :: g) h1.size 0 = a := by simp [place]
  rw [Option.map_some, p0] at eH
  simp only [List.head?_cons] at e
  rw [e] at eH
  simp only [Option.some.injEq, Prod.mk.injEq] at eH
  obtain ⟨rfl, _⟩ := eH
  have loc := C17_resetKind_local w ac ch (a := a) (by simp) e
  -- from the tokens alone to `h2`
  have E1 := L1.emb0
  have hplace : ∀ i (hi : i < ts.length), ∃ b ∈ a :: g, place (a :: g) h1.size i = b ∧ h1.line (some b) = ts[i].line := by
    intro i hi
    have hi' : i < (a :: g).length := by omega
    refine ⟨(a :: g)[i], List.getElem_mem hi', by rw [place, List.getElem?_eq_getElem hi']; rfl, ?_⟩
    have : ts[i] = tokOf h1 (a :: g)[i] := by
      subst hts
      rw [List.getElem_map]
    rw [this]
    rfl
  have k1 := E1.look (sc := { line := h1.line (some a), kind := newScopeKind (h1.text (some a)), node := some 0 }) (n := 0) fc (fun _ _ => trivial) (by
    intro i hi
    obtain ⟨b, hb, e1, e2⟩ := hplace i (lc i hi)
    rw [e1, Int.add_zero, lnc, line_canon _ _ (lc i hi), loc.2.2.2.2.1, e2])
  rw [Look.below_zero] at k1
  -- from `h2` to the end
  have inG : ∀ b, b < h2.size → b ∈ a :: g → b < h'.size := by
    intro b hb _
    rw [loc.2.2.1] at hb
    omega
  have E2 : Emb0 id (· ∈ a :: g) h2 h' :=
    { nextC := fun {x y} hx hy => loc.2.2.2.2.2.1 x y hx hy
      prevC := fun {x y} hx hy => loc.2.2.2.2.2.2 x y hx hy
      size := fun {x} hx hlt => inG x hlt hx
      next := fun {x} hx => by rw [Option.map_id_fun]; exact (s2 x hx).1
      prev := fun {x} hx => by rw [Option.map_id_fun]; exact (s2 x hx).2.1
      kind := fun {x} hx => by have := (s2 x hx).2.2; simp only [data, Prod.mk.injEq] at this; exact this.2.1
      text := fun {x} hx => by have := (s2 x hx).2.2; simp only [data, Prod.mk.injEq] at this; exact this.2.2 }
  obtain ⟨l2, f2⟩ := loc.2.1 a (by rw [loc.2.2.1]; exact ch.1 a (by simp))
  have hmem := (E2.fwd f2 (fun b hb => by cases hb; simp)).2
  have k2 := E2.look (sc := { line := h1.line (some a), kind := newScopeKind (h1.text (some a)), node := some a }) (n := 0) f2 (fun b hb => by cases hb; simp) (by
    intro b hb
    have := (s2 b (hmem b hb)).2.2
    simp only [data, Prod.mk.injEq] at this
    rw [Int.add_zero, id, this.1])
  rw [Look.below_zero] at k2
  have da := (s1 a (by simp)).2.2
  simp only [data, Prod.mk.injEq] at da
  have hh : ts.head? = some (tokOf h1 a) := by rw [← hts]; rfl
  simp only [ScopeRec.at, Option.map_some, id, Int.add_zero, p0] at k1 k2
  simp only [lookTok, ec, scopeOf, List.head?_cons, hh, Option.map_some, Option.getD_some, tokOf]
  rw [← k1, ← k2, da.1, da.2.2]

end Goast
