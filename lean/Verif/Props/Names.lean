import Verif.Props.Getters
import Verif.Proofs.Method
import Verif.Proofs.Division

/-!
# C19-C21: the getters find the declared names
-/

set_option linter.unusedSimpArgs false
set_option linter.unusedVariables false

namespace Goast
open Heap

variable {ord : Nat → List (Bytes × Ext)} {h : Heap}

theorem Ident.word {s : Bytes} (i : Ident s) : Word s := ⟨i.wordBytes, i.ne_nil, C43_ident_raw s i⟩

/-- The search of `GetFuncName`. -/
theorem getFuncName_eq (h : Heap) (d : ScopeRec) (hd : d.kind = .func_) {l : List Addr} (f : Fwd h d.node l) :
    d.getFuncName h = some (match l.find? fun a => decide (h.kind (some a) = .funcName) with
      | some a => (h.text (some a), true)
      | none => ([], false)) := by
  unfold ScopeRec.getFuncName
  rw [if_neg (by simp [hd]), C32_iterNext h _ f, Option.map_some]
  congr 1
  clear f
  have key : ∀ (l : List Addr) (s : Bytes × Bool), (walk (fun (s : Bytes × Bool) a =>
      if h.kind (some a) = .funcName then ((h.text (some a), true), false) else (s, true)) s l).1 =
      match l.find? fun a => decide (h.kind (some a) = .funcName) with
      | some a => (h.text (some a), true)
      | none => s := by
    intro l
    induction l with
    | nil => intro s; rfl
    | cons a l ih =>
      intro s
      by_cases hk : h.kind (some a) = .funcName
      · simp [walk, hk]
      · simp only [walk, hk, if_false, if_true, ih, List.find?_cons, decide_false]
  exact key l ([], false)

/-- The first nodes of a scope, before and after its kinds are reset. -/
theorem scope_front (ho : MapOrder ord) (w : WF h) (ac : Acyclic h) {startLine : Int} {text : Bytes} {h1 h' : Heap} {p : Ptr}
    {st : ParseSt} (e1 : extractOrd ord h text = some (h1, p)) (e2 : splitScopes h1 startLine p = some st)
    (e3 : parseScopeOrd ord h startLine text = some (h', st.scs)) {sc : ScopeRec} (hsc : sc ∈ st.scs) {xs : List Lexeme} {rest : Bytes}
    (ht : chainText st.heap sc.node = some (pieces xs ++ rest))
    (hx : ∀ more, ∃ ys, lexAll (pieces xs ++ rest ++ more) = xs ++ ys) (ne : ∀ x ∈ xs, x.text ≠ []) :
    ∃ a g g₁ g₂ ha hb r l', a :: g = g₁ ++ g₂ ∧ sc.node = some a ∧ sc.kind = newScopeKind (ha.text (some a)) ∧ WF ha ∧ Acyclic ha ∧ Chain ha (a :: g) ∧
      g₁.map (fun a => (ha.kind (some a), ha.text (some a))) = xs.map Lexeme.kt ∧
      (Fwd st.heap sc.node (a :: g) ∧ kindsOf st.heap (a :: g) = kindsOf ha (a :: g)) ∧
      resetKind ha (some a) = some (hb, r) ∧ Chain h' (a :: l') ∧
      ∀ x ∈ a :: g, h'.next (some x) = hb.next (some x) ∧ h'.kind (some x) = hb.kind (some x) ∧ h'.text (some x) = hb.text (some x) := by
  obtain ⟨h1', p', l, st', h'', P⟩ := parsed ho w ac startLine text
  have := P.extract; rw [e1] at this; cases this
  have := P.split; rw [e2] at this; cases this
  have := P.parse; rw [e3] at this; cases this
  obtain ⟨a, g, hg, hn, hs, htx⟩ := P.scope hsc
  rw [ht] at htx
  have htx := (Option.some.inj htx).symm
  obtain ⟨g₁, g₂, eg, hk⟩ := P.group_front ho hg htx hx ne
  obtain ⟨ha, hb, r, wa, aca, cha, sza, s1, er, s2, szb⟩ := (P.group3 _ hg).ex
  obtain ⟨l', ch', _⟩ := (P.group3 _ hg).chain
  have kt : ∀ x ∈ a :: g, ha.kind (some x) = h1.kind (some x) ∧ ha.text (some x) = h1.text (some x) := by
    intro x hx
    have := (s1 x hx).2.2
    simp only [data, Prod.mk.injEq] at this
    exact ⟨this.2.1.trans (P.data2.2 _).2.1, this.2.2.trans (P.data2.2 _).2.2⟩
  refine ⟨a, g, g₁, g₂, ha, hb, r, l', eg, hn, ?_, wa, aca, cha, ?_, ?_, er, ch', ?_⟩
  · rw [hs, (kt a (by simp)).2]; rfl
  · rw [← hk]
    apply List.map_congr_left
    intro x hx
    have := kt x (by rw [eg]; simp [hx])
    rw [this.1, this.2]
  · have := (P.groups _ hg).fwd
    simp only [List.head?_cons] at this
    rw [← hn] at this
    refine ⟨this, ?_⟩
    apply List.map_congr_left
    intro x hx
    rw [(kt x hx).1, (P.data2.2 _).2.1]
  · intro x hx
    have := s2 x hx
    have d := this.2.2
    simp only [data, Prod.mk.injEq] at d
    exact ⟨this.1, d.2.1, d.2.2⟩

theorem space_sep : (32 : UInt8) ∈ separatorBytes := by decide

/-- A keyword, a space, a word and a separator. -/
theorem lex_kw_word {kw name : Bytes} (hkw : ∀ b ∈ kw, WordByte b) (nekw : kw ≠ []) (hn : Word name) {c : UInt8} (hc : c ∈ separatorBytes)
    (rest : Bytes) : lexAll (kw ++ 32 :: (name ++ c :: rest)) =
      ⟨kw, false⟩ :: ⟨[32], false⟩ :: ⟨name, false⟩ :: ⟨[c], false⟩ :: lexAll rest := by
  rw [lexAll_word hkw nekw space_sep, lexAll_word hn.bytes hn.ne_nil hc]

/-- The nodes at the beginning of a chain. -/
theorem chain_front {h : Heap} {a : Addr} {l : List Addr} (ch : Chain h (a :: l)) {b n : Addr}
    (h1 : h.next (some a) = some b) (h2 : h.next (some b) = some n) : ∃ l', l = b :: n :: l' := by
  have f := ch.fwd
  simp only [List.head?_cons] at f
  obtain ⟨_, _, f⟩ := Fwd.cons_iff.1 f
  rw [h1] at f
  cases l with
  | nil => cases f
  | cons x l =>
    obtain ⟨hx, _, f⟩ := Fwd.cons_iff.1 f
    cases hx
    rw [h2] at f
    cases l with
    | nil => cases f
    | cons y l =>
      obtain ⟨hy, _, f⟩ := Fwd.cons_iff.1 f
      cases hy
      exact ⟨l, rfl⟩

/-! ## C19 -/

/-- **C19** A scope whose text is `func NAME` followed by a separator (space, bracket, comma, colon, semicolon, tab or line
end) and anything: `GetFuncName` returns NAME. -/
theorem C19_func_name (ho : MapOrder ord) (w : WF h) (ac : Acyclic h) {startLine : Int} {text : Bytes} {h' : Heap} {scs : List ScopeRec}
    (e : parseScopeOrd ord h startLine text = some (h', scs)) {i : Nat} {sc : ScopeRec} (hsc : scs[i]? = some sc)
    {name rest : Bytes} {c : UInt8} (hn : Word name) (hc : c ∈ separatorBytes)
    {g : List Token} (hg : (sectionsOf startLine text).2[i]? = some g)
    (ht : tokText g = b!"func " ++ name ++ c :: rest) :
    sc.getFuncName h' = some (name, true) := by
  obtain ⟨h1, p, st, e1, e2, rfl, hm, htx, hkk⟩ := section_at ho w ac e hsc hg
  obtain ⟨a, gg, g₁, g₂, ha, hb, r, l', eg, hnode, hkind, wa, aca, cha, hkt, hks, er, ch', same⟩ :=
    scope_front ho w ac e1 e2 e hm (xs := [⟨b!"func", false⟩, ⟨[32], false⟩, ⟨name, false⟩, ⟨[c], false⟩]) (rest := rest)
      (by rw [htx, ht]; simp [pieces])
      (fun more => ⟨lexAll (rest ++ more), by
        have := lex_kw_word (kw := b!"func") (by decide) (by decide) hn hc (rest ++ more)
        simpa [pieces] using this⟩)
      (by intro x hx; simp at hx; rcases hx with rfl | rfl | rfl | rfl <;> simp [hn.ne_nil])
  have len := congrArg List.length hkt
  simp only [List.length_map, List.length_cons, List.length_nil] at len
  obtain ⟨a', b, n, z, rfl⟩ : ∃ a' b n z, g₁ = [a', b, n, z] := by
    match g₁, len with
    | [a', b, n, z], _ => exact ⟨a', b, n, z, rfl⟩
  simp only [List.cons_append, List.nil_append, List.cons.injEq] at eg
  obtain ⟨rfl, rfl⟩ := eg
  simp only [List.map_cons, List.map_nil, Lexeme.kt, List.cons.injEq, Prod.mk.injEq, Bool.false_eq_true, if_false] at hkt
  obtain ⟨⟨ka, ta⟩, ⟨kb, tb⟩, ⟨kn, tn⟩, _⟩ := hkt
  have ka : ha.kind (some a) = .func_ := by rw [ka]; decide
  have kb : ha.kind (some b) = .space := by rw [kb]; decide
  rw [hn.raw] at kn
  obtain ⟨n1, n2, k1, k2, k3, t3⟩ := resetKind_func_name wa aca cha ka kb kn er
  have sa := same a (by simp)
  have sb := same b (by simp)
  have sn := same n (by simp)
  obtain ⟨l'', rfl⟩ := chain_front ch' (sa.1.trans n1) (sb.1.trans n2)
  have fw := ch'.fwd
  rw [List.head?_cons, ← hnode] at fw
  have kind : sc.kind = .func_ := by rw [hkind, ta]; decide
  rw [getFuncName_eq h' sc kind fw]
  simp [List.find?_cons, sa.2.1, sb.2.1, sn.2.1, k1, k2, k3, sn.2.2, t3, tn]

/-- **C19** On a scope that is no func scope it returns `("", false)`. -/
theorem C19_other (h : Heap) (d : ScopeRec) (hd : d.kind ≠ .func_) : d.getFuncName h = some ([], false) := by
  simp [ScopeRec.getFuncName, hd]

/-! ## C21 -/

/-- **C21** A scope whose text is `type NAME` followed by a separator and anything: `GetTypeName` returns NAME. -/
theorem C21_type_name (ho : MapOrder ord) (w : WF h) (ac : Acyclic h) {startLine : Int} {text : Bytes} {h' : Heap} {scs : List ScopeRec}
    (e : parseScopeOrd ord h startLine text = some (h', scs)) {i : Nat} {sc : ScopeRec} (hsc : scs[i]? = some sc)
    {name rest : Bytes} {c : UInt8} (hn : Word name) (hc : c ∈ separatorBytes)
    {g : List Token} (hg : (sectionsOf startLine text).2[i]? = some g)
    (ht : tokText g = b!"type " ++ name ++ c :: rest) :
    sc.getTypeName h' = some (name, true) := by
  obtain ⟨h1, p, st, e1, e2, rfl, hm, htx, hkk⟩ := section_at ho w ac e hsc hg
  obtain ⟨a, gg, g₁, g₂, ha, hb, r, l', eg, hnode, hkind, wa, aca, cha, hkt, hks, er, ch', same⟩ :=
    scope_front ho w ac e1 e2 e hm (xs := [⟨b!"type", false⟩, ⟨[32], false⟩, ⟨name, false⟩, ⟨[c], false⟩]) (rest := rest)
      (by rw [htx, ht]; simp [pieces])
      (fun more => ⟨lexAll (rest ++ more), by
        have := lex_kw_word (kw := b!"type") (by decide) (by decide) hn hc (rest ++ more)
        simpa [pieces] using this⟩)
      (by intro x hx; simp at hx; rcases hx with rfl | rfl | rfl | rfl <;> simp [hn.ne_nil])
  have len := congrArg List.length hkt
  simp only [List.length_map, List.length_cons, List.length_nil] at len
  obtain ⟨a', b, n, z, rfl⟩ : ∃ a' b n z, g₁ = [a', b, n, z] := by
    match g₁, len with
    | [a', b, n, z], _ => exact ⟨a', b, n, z, rfl⟩
  simp only [List.cons_append, List.nil_append, List.cons.injEq] at eg
  obtain ⟨rfl, rfl⟩ := eg
  simp only [List.map_cons, List.map_nil, Lexeme.kt, List.cons.injEq, Prod.mk.injEq, Bool.false_eq_true, if_false] at hkt
  obtain ⟨⟨ka, ta⟩, ⟨kb, tb⟩, ⟨kn, tn⟩, _⟩ := hkt
  have ka : ha.kind (some a) = .type_ := by rw [ka]; decide
  have kb : ha.kind (some b) = .space := by rw [kb]; decide
  rw [hn.raw] at kn
  obtain ⟨n1, n2, k1, k2, k3, t3⟩ := resetKind_type_name wa aca cha ka kb kn er
  have sa := same a (by simp)
  have sb := same b (by simp)
  have sn := same n (by simp)
  obtain ⟨l'', rfl⟩ := chain_front ch' (sa.1.trans n1) (sb.1.trans n2)
  have fw := ch'.fwd
  rw [List.head?_cons, ← hnode] at fw
  have kind : sc.kind = .type_ := by rw [hkind, ta]; decide
  rw [ScopeRec.getTypeName, if_neg (by simp [kind]), findKindName_eq h' fw]
  simp [List.find?_cons, sa.2.1, sb.2.1, sn.2.1, k1, k2, k3, sn.2.2, t3, tn]

/-- **C21** On a scope that is no type scope it returns `("", false)`. -/
theorem C21_other (h : Heap) (d : ScopeRec) (hd : d.kind ≠ .type_) : d.getTypeName h = some ([], false) := by
  simp [ScopeRec.getTypeName, hd]

/-! ## C20 -/

/-- What the getters of a func scope find once the kinds of its first nodes are known. -/
theorem method_getters {h : Heap} {sc : ScopeRec} (hk : sc.kind = .func_) {l : List Addr} (fw : Fwd h sc.node l) {t n : Addr}
    (ht : l.find? (fun a => decide (h.kind (some a) = .methodReceiverType)) = some t)
    (hn : l.find? (fun a => decide (h.kind (some a) = .funcName)) = some n) :
    sc.getMethodReceiver h = some (h.text (some t), true) ∧ sc.getMethodName h = some (h.text (some n), true) ∧
    sc.getFuncName h = some (h.text (some n), true) := by
  have r : sc.getMethodReceiver h = some (h.text (some t), true) := by
    rw [ScopeRec.getMethodReceiver, if_neg (by simp [hk]), findKindName_eq h fw, ht]
  refine ⟨r, ?_, ?_⟩
  · rw [ScopeRec.getMethodName, r]
    simp only
    rw [findKindName_eq h fw, hn, if_neg (by simp [hk])]
  · rw [getFuncName_eq h sc hk fw, hn]

/-- **C20** A scope whose text is `func (r T) NAME` followed by a separator and anything that is not a call of the function
on the spot: `GetMethodReceiver` returns T, `GetMethodName` and `GetFuncName` return NAME. -/
theorem C20_named (ho : MapOrder ord) (w : WF h) (ac : Acyclic h) {startLine : Int} {text : Bytes} {h' : Heap} {scs : List ScopeRec}
    (e : parseScopeOrd ord h startLine text = some (h', scs)) {i : Nat} {sc : ScopeRec} (hsc : scs[i]? = some sc)
    {recv typ name rest : Bytes} {c : UInt8} (hr : Word recv) (hT : Word typ) (hn : Word name) (hc : c ∈ separatorBytes)
    {g : List Token} (hg : (sectionsOf startLine text).2[i]? = some g)
    (ht : tokText g = b!"func (" ++ recv ++ b!" " ++ typ ++ b!") " ++ name ++ c :: rest)
    (hcall : ¬ CalledAtOnce (g.map Prod.fst)) :
    sc.getMethodReceiver h' = some (typ, true) ∧ sc.getMethodName h' = some (name, true) ∧ sc.getFuncName h' = some (name, true) := by
  obtain ⟨h1, p, st, e1, e2, rfl, hm, htx, hkk⟩ := section_at ho w ac e hsc hg
  obtain ⟨a, gg, g₁, g₂, ha, hb, r, l', eg, hnode, hkind, wa, aca, cha, hkt, hks, er, ch', same⟩ :=
    scope_front ho w ac e1 e2 e hm (xs := [⟨b!"func", false⟩, ⟨[32], false⟩, ⟨[40], false⟩, ⟨recv, false⟩, ⟨[32], false⟩, ⟨typ, false⟩,
        ⟨[41], false⟩, ⟨[32], false⟩, ⟨name, false⟩, ⟨[c], false⟩]) (rest := rest)
      (by rw [htx, ht]; simp [pieces])
      (fun more => ⟨lexAll (rest ++ more), by
        have e : pieces [⟨b!"func", false⟩, ⟨[32], false⟩, ⟨[40], false⟩, ⟨recv, false⟩, ⟨[32], false⟩, ⟨typ, false⟩,
            ⟨[41], false⟩, ⟨[32], false⟩, ⟨name, false⟩, ⟨[c], false⟩] ++ rest ++ more =
            b!"func" ++ 32 :: 40 :: (recv ++ 32 :: (typ ++ 41 :: 32 :: (name ++ c :: (rest ++ more)))) := by simp [pieces]
        rw [e, lexAll_word (by decide) (by decide) space_sep, lexAll_sep (by decide), lexAll_word hr.bytes hr.ne_nil space_sep,
            lexAll_word hT.bytes hT.ne_nil (by decide), lexAll_sep space_sep, lexAll_word hn.bytes hn.ne_nil hc]
        rfl⟩)
      (by intro x hx; simp at hx; rcases hx with rfl | rfl | rfl | rfl | rfl | rfl | rfl | rfl | rfl | rfl <;> simp [hn.ne_nil, hT.ne_nil, hr.ne_nil])
  have len := congrArg List.length hkt
  simp only [List.length_map, List.length_cons, List.length_nil] at len
  obtain ⟨x0, x1, x2, x3, x4, x5, x6, x7, x8, x9, rfl⟩ : ∃ x0 x1 x2 x3 x4 x5 x6 x7 x8 x9, g₁ = [x0, x1, x2, x3, x4, x5, x6, x7, x8, x9] := by
    match g₁, len with
    | [x0, x1, x2, x3, x4, x5, x6, x7, x8, x9], _ => exact ⟨_, _, _, _, _, _, _, _, _, _, rfl⟩
  simp only [List.cons_append, List.nil_append, List.cons.injEq] at eg
  obtain ⟨rfl, rfl⟩ := eg
  simp only [List.map_cons, List.map_nil, Lexeme.kt, List.cons.injEq, Prod.mk.injEq, Bool.false_eq_true, if_false] at hkt
  obtain ⟨⟨k0, t0⟩, ⟨k1, _⟩, ⟨k2, _⟩, ⟨k3, _⟩, ⟨k4, _⟩, ⟨k5, t5⟩, ⟨k6, _⟩, ⟨k7, _⟩, ⟨k8, t8⟩, _⟩ := hkt
  rw [hr.raw] at k3
  rw [hT.raw] at k5
  rw [hn.raw] at k8
  have nc := hcall
  rw [← hkk _ hks.1, hks.2] at nc
  obtain ⟨fr, kk, tt, tn⟩ := resetKind_named wa aca cha (k0.trans (by decide)) (k1.trans (by decide)) (k2.trans (by decide)) k3 (k4.trans (by decide)) k5
    (k6.trans (by decide)) (k7.trans (by decide)) k8 nc er
  simp only [List.map_cons, List.map_nil, List.cons.injEq, and_true] at kk
  obtain ⟨q0, q1, q2, q3, q4, q5, q6, q7, q8⟩ := kk
  have sm : ∀ x ∈ [a, x1, x2, x3, x4, x5, x6, x7, x8], h'.next (some x) = hb.next (some x) ∧ h'.kind (some x) = hb.kind (some x) ∧
      h'.text (some x) = hb.text (some x) := fun x hx => same x (List.mem_append_left (x9 :: g₂) hx)
  have fw := ch'.fwd
  rw [List.head?_cons] at fw
  obtain ⟨l'', e⟩ := (fr.congr fun x hx => (sm x hx).1).front fw
  rw [e, ← hnode] at fw
  have kind : sc.kind = .func_ := by rw [hkind, t0]; decide
  have := method_getters (t := x5) (n := x8) kind fw
    (by simp [List.find?_cons, sm, q0, q1, q2, q3, q4, q5, q6, q7, q8]) (by simp [List.find?_cons, sm, q0, q1, q2, q3, q4, q5, q6, q7, q8])
  rwa [(sm x5 (by simp)).2.2, (sm x8 (by simp)).2.2, tt, tn, t5, t8] at this

/-- **C20** A scope whose text is `func (T) NAME` followed by a separator and anything that is not a call of the function
on the spot: `GetMethodReceiver` returns T, `GetMethodName` and `GetFuncName` return NAME. -/
theorem C20_single (ho : MapOrder ord) (w : WF h) (ac : Acyclic h) {startLine : Int} {text : Bytes} {h' : Heap} {scs : List ScopeRec}
    (e : parseScopeOrd ord h startLine text = some (h', scs)) {i : Nat} {sc : ScopeRec} (hsc : scs[i]? = some sc)
    {typ name rest : Bytes} {c : UInt8} (hT : Word typ) (hn : Word name) (hc : c ∈ separatorBytes)
    {g : List Token} (hg : (sectionsOf startLine text).2[i]? = some g)
    (ht : tokText g = b!"func (" ++ typ ++ b!") " ++ name ++ c :: rest)
    (hcall : ¬ CalledAtOnce (g.map Prod.fst)) :
    sc.getMethodReceiver h' = some (typ, true) ∧ sc.getMethodName h' = some (name, true) ∧ sc.getFuncName h' = some (name, true) := by
  obtain ⟨h1, p, st, e1, e2, rfl, hm, htx, hkk⟩ := section_at ho w ac e hsc hg
  obtain ⟨a, gg, g₁, g₂, ha, hb, r, l', eg, hnode, hkind, wa, aca, cha, hkt, hks, er, ch', same⟩ :=
    scope_front ho w ac e1 e2 e hm (xs := [⟨b!"func", false⟩, ⟨[32], false⟩, ⟨[40], false⟩, ⟨typ, false⟩,
        ⟨[41], false⟩, ⟨[32], false⟩, ⟨name, false⟩, ⟨[c], false⟩]) (rest := rest)
      (by rw [htx, ht]; simp [pieces])
      (fun more => ⟨lexAll (rest ++ more), by
        have e : pieces [⟨b!"func", false⟩, ⟨[32], false⟩, ⟨[40], false⟩, ⟨typ, false⟩,
            ⟨[41], false⟩, ⟨[32], false⟩, ⟨name, false⟩, ⟨[c], false⟩] ++ rest ++ more =
            b!"func" ++ 32 :: 40 :: (typ ++ 41 :: 32 :: (name ++ c :: (rest ++ more))) := by simp [pieces]
        rw [e, lexAll_word (by decide) (by decide) space_sep, lexAll_sep (by decide), lexAll_word hT.bytes hT.ne_nil (by decide), lexAll_sep space_sep, lexAll_word hn.bytes hn.ne_nil hc]
        rfl⟩)
      (by intro x hx; simp at hx; rcases hx with rfl | rfl | rfl | rfl | rfl | rfl | rfl | rfl <;> simp [hn.ne_nil, hT.ne_nil])
  have len := congrArg List.length hkt
  simp only [List.length_map, List.length_cons, List.length_nil] at len
  obtain ⟨x0, x1, x2, x5, x6, x7, x8, x9, rfl⟩ : ∃ x0 x1 x2 x5 x6 x7 x8 x9, g₁ = [x0, x1, x2, x5, x6, x7, x8, x9] := by
    match g₁, len with
    | [x0, x1, x2, x5, x6, x7, x8, x9], _ => exact ⟨_, _, _, _, _, _, _, _, rfl⟩
  simp only [List.cons_append, List.nil_append, List.cons.injEq] at eg
  obtain ⟨rfl, rfl⟩ := eg
  simp only [List.map_cons, List.map_nil, Lexeme.kt, List.cons.injEq, Prod.mk.injEq, Bool.false_eq_true, if_false] at hkt
  obtain ⟨⟨k0, t0⟩, ⟨k1, _⟩, ⟨k2, _⟩, ⟨k5, t5⟩, ⟨k6, _⟩, ⟨k7, _⟩, ⟨k8, t8⟩, _⟩ := hkt
  rw [hT.raw] at k5
  rw [hn.raw] at k8
  have nc := hcall
  rw [← hkk _ hks.1, hks.2] at nc
  obtain ⟨fr, kk, tt, tn⟩ := resetKind_single wa aca cha (k0.trans (by decide)) (k1.trans (by decide)) (k2.trans (by decide)) k5
    (k6.trans (by decide)) (k7.trans (by decide)) k8 nc er
  simp only [List.map_cons, List.map_nil, List.cons.injEq, and_true] at kk
  obtain ⟨q0, q1, q2, q5, q6, q7, q8⟩ := kk
  have sm : ∀ x ∈ [a, x1, x2, x5, x6, x7, x8], h'.next (some x) = hb.next (some x) ∧ h'.kind (some x) = hb.kind (some x) ∧
      h'.text (some x) = hb.text (some x) := fun x hx => same x (List.mem_append_left (x9 :: g₂) hx)
  have fw := ch'.fwd
  rw [List.head?_cons] at fw
  obtain ⟨l'', e⟩ := (fr.congr fun x hx => (sm x hx).1).front fw
  rw [e, ← hnode] at fw
  have kind : sc.kind = .func_ := by rw [hkind, t0]; decide
  have := method_getters (t := x5) (n := x8) kind fw
    (by simp [List.find?_cons, sm, q0, q1, q2, q5, q6, q7, q8]) (by simp [List.find?_cons, sm, q0, q1, q2, q5, q6, q7, q8])
  rwa [(sm x5 (by simp)).2.2, (sm x8 (by simp)).2.2, tt, tn, t5, t8] at this

/-- **C20** `GetMethodName` reports false whenever `GetMethodReceiver` does. -/
theorem C20_no_receiver (h : Heap) (d : ScopeRec) (t : Bytes) (hr : d.getMethodReceiver h = some (t, false)) :
    d.getMethodName h = some ([], false) := by
  simp [ScopeRec.getMethodName, hr]

/-- **C20** On a scope that is no func scope both return `("", false)`. -/
theorem C20_other (h : Heap) (d : ScopeRec) (hd : d.kind ≠ .func_) :
    d.getMethodReceiver h = some ([], false) ∧ d.getMethodName h = some ([], false) := by
  simp [ScopeRec.getMethodReceiver, ScopeRec.getMethodName, hd]

/-! ## Cases that meet the hypotheses -/

/-- The nodes reachable from `p` by following next. -/
def nodesFrom (h : Heap) (p : Ptr) : Option (List Addr) :=
  (h.iterNext (fun (l : List Addr) a => (l ++ [a], true)) [] p).map Prod.fst

theorem nodesFrom_eq {h : Heap} {p : Ptr} {l : List Addr} (f : Fwd h p l) : nodesFrom h p = some l := by
  have key : ∀ (l m : List Addr), (walk (fun (l : List Addr) a => (l ++ [a], true)) m l).1 = m ++ l := by
    intro l
    induction l with
    | nil => intro m; simp [walk]
    | cons a l ih => intro m; simp [walk, ih]
  rw [nodesFrom, C32_iterNext h _ f, Option.map_some, key]
  rfl

/-- Section number `i` of a text: its text, and whether its function is called on the spot. -/
def scopeBefore (text : Bytes) (i : Nat) : Option (Bytes × Bool) :=
  (sectionsOf 0 text).2[i]?.map fun g => (tokText g, decide (CalledAtOnce (g.map Prod.fst)))

example : Word b!"*Server" ∧ Word b!"s" ∧ Word b!"Start" ∧ Word b!"http.Handler" := by
  refine ⟨⟨?_, ?_, ?_⟩, ⟨?_, ?_, ?_⟩, ⟨?_, ?_, ?_⟩, ⟨?_, ?_, ?_⟩⟩ <;> decide +kernel

set_option maxRecDepth 100000

example : scopeBefore b!"package a\n\nfunc (s *Server) Start(n int) error {\n\treturn nil\n}\n" 1 =
    some (b!"func (" ++ b!"s" ++ b!" " ++ b!"*Server" ++ b!") " ++ b!"Start" ++ 40 :: b!"n int) error {\n\treturn nil\n}\n", false) := by
  cbv

example : names b!"package a\n\nfunc (s *Server) Start(n int) error {\n\treturn nil\n}\n" 1 =
    some [(b!"Start", true), (b!"", false), (b!"", false), (b!"", false), (b!"*Server", true), (b!"Start", true)] := by cbv

example : names b!"package a\n\nfunc (Server) Start() {\n}\n" 1 =
    some [(b!"Start", true), (b!"", false), (b!"", false), (b!"", false), (b!"Server", true), (b!"Start", true)] := by cbv

/-- The condition of C20 is needed: a literal called on the spot is not taken for a method. -/
theorem C20_called_at_once : scopeBefore b!"func (r T) N() {}()\n" 0 = some (b!"func (r T) N() {}()\n", true) ∧
    names b!"func (r T) N() {}()\n" 0 =
      some [(b!"N", true), (b!"", false), (b!"", false), (b!"", false), (b!"\n", false), (b!"", false)] := by
  constructor <;> cbv

example : names b!"type Pair[K comparable, V any] struct {\n\tk K\n\tv V\n}\n" 0 =
    some [(b!"", false), (b!"Pair", true), (b!"Pair", true), (b!"Pair", false), (b!"", false), (b!"", false)] := by cbv

end Goast
