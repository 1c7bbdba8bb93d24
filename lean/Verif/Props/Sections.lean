import Verif.Spec.Sections
import Verif.Props.Survive
import Verif.Props.Getters
import Verif.Props.Names
import Verif.Props.Labels
import Verif.Proofs.PlainFunc

/-!
# C65, C66: the labels and the names of all declarations of a text
-/

namespace Goast
open Heap

variable {ord : Nat → List (Bytes × Ext)} {h : Heap}

/-- How a section becomes a scope. -/
theorem section_tokens {startLine : Int} {text : Bytes} {h1 : Heap} {p : Ptr} {l : List Addr} {st : ParseSt} {h' : Heap}
    (P : Parsed ord h startLine text h1 p l st h') {a : Addr} {g : List Addr} (hg : a :: g ∈ (divide h1 (startLine - 1) l).2) :
    ∃ x1 x2 r l2, WF x1 ∧ Acyclic x1 ∧ Chain x1 (a :: g) ∧ (a :: g).map (kt x1) = (a :: g).map (kt h1) ∧
      resetKind x1 (some a) = some (x2, r) ∧ Chain x2 (a :: l2) ∧ Fwd h' (some a) (a :: l2) ∧ (a :: l2).map (kt h') = (a :: l2).map (kt x2) ∧
      (∀ b ∈ l2, b ∈ g) := by
  obtain ⟨x1, x2, r, w, ac, ch, sz, s1, e, s2, sz'⟩ := (P.group3 _ hg).ex
  have d1 : ∀ b ∈ a :: g, kt x1 b = kt h1 b := by
    intro b hb
    have := (s1 b hb).2.2
    simp only [data, Prod.mk.injEq] at this
    simp only [kt, this.2.1, this.2.2, (P.data2.2 _).2.1, (P.data2.2 _).2.2]
  have d2 : ∀ b ∈ a :: g, kt h' b = kt x2 b ∧ h'.next (some b) = x2.next (some b) := by
    intro b hb
    have := (s2 b hb).2.2
    simp only [data, Prod.mk.injEq] at this
    exact ⟨by simp only [kt, this.2.1, this.2.2], (s2 b hb).1⟩
  have lt : ∀ b ∈ a :: g, b < h'.size := by
    intro b hb
    rw [P.size3, P.data2.1]
    refine P.chain.1 b ?_
    rw [← divide_flatten h1 l (startLine - 1), List.mem_append, List.mem_flatten]
    exact .inr ⟨_, hg, hb⟩
  rw [List.head?_cons] at e
  obtain ⟨l2, ch2, sub⟩ := resetKind_chain w ac ch e
  have sub' : ∀ b ∈ a :: l2, b ∈ a :: g := by
    intro b hb
    rcases List.mem_cons.1 hb with rfl | hb
    · simp
    · simp [sub b hb]
  exact ⟨x1, x2, r, l2, w, ac, ch, List.map_congr_left d1, e, ch2,
    ch2.fwd.congr (fun b hb => lt b (sub' b hb)) (fun b hb => (d2 b (sub' b hb)).2), List.map_congr_left fun b hb => (d2 b (sub' b hb)).1, sub⟩

/-- What `resetKind` makes of a chain of such tokens. -/
theorem reset_labelled {x1 x2 : Heap} {r : Ptr} (w : WF x1) (ac : Acyclic x1) {a : Addr} {g : List Addr} (ch : Chain x1 (a :: g))
    {ts ts' : List Token} (L : Labelled ts ts') (ht : (a :: g).map (kt x1) = ts) (e : resetKind x1 (some a) = some (x2, r))
    {l2 : List Addr} (ch2 : Chain x2 (a :: l2)) : (a :: l2).map (kt x2) = ts' := by
  cases L with
  | other hh =>
    have := hh (kt x1 a) (by rw [← ht]; rfl)
    rw [C17_resetKind_other (h := x1) (n := some a) this.1 this.2] at e
    simp only [Option.some.injEq, Prod.mk.injEq] at e
    obtain ⟨rfl, rfl⟩ := e
    cases ch2.fwd.det ch.fwd
    exact ht
  | func S en =>
    simp only [List.map_cons] at ht
    obtain ⟨ka, ht⟩ := List.cons.inj ht
    obtain ⟨b, g, rfl, kb, ht⟩ := List.map_eq_cons_iff.1 ht
    obtain ⟨n, g, rfl, kn, ht⟩ := List.map_eq_cons_iff.1 ht
    obtain ⟨rest', e1, e2⟩ := func_labels w ac ch (congrArg Prod.fst ka) (congrArg Prod.fst kb) (congrArg Prod.fst kn) ht S e ch2
    rw [e1, e2 en, ka, kb, show x1.text (some n) = _ from congrArg Prod.snd kn]
  | method hcall P S en =>
    have hcall' : ¬ CalledAtOnce (kindsOf x1 (a :: g)) := by
      rw [← ht, List.map_map] at hcall
      exact hcall
    simp only [List.map_cons] at ht
    obtain ⟨ka, ht⟩ := List.cons.inj ht
    obtain ⟨b, g, rfl, kb, ht⟩ := List.map_eq_cons_iff.1 ht
    obtain ⟨q, g, rfl, kq, ht⟩ := List.map_eq_cons_iff.1 ht
    obtain ⟨mid, g, rfl, em, ht⟩ := List.map_eq_append_iff.1 ht
    obtain ⟨q2, g, rfl, kq2, ht⟩ := List.map_eq_cons_iff.1 ht
    obtain ⟨s, g, rfl, ks, ht⟩ := List.map_eq_cons_iff.1 ht
    obtain ⟨n, g, rfl, kn, ht⟩ := List.map_eq_cons_iff.1 ht
    obtain ⟨rest', e1, e2⟩ := method_labels w ac ch (congrArg Prod.fst ka) (congrArg Prod.fst kb) (congrArg Prod.fst kq) (congrArg Prod.fst kq2)
      (congrArg Prod.fst ks) (congrArg Prod.fst kn) hcall' em P ht S e ch2
    rw [e1, e2 en, ka, kb, kq, kq2, ks, show x1.text (some n) = _ from congrArg Prod.snd kn]
  | type P D =>
    simp only [List.map_cons] at ht
    obtain ⟨ka, ht⟩ := List.cons.inj ht
    obtain ⟨b, g, rfl, kb, ht⟩ := List.map_eq_cons_iff.1 ht
    obtain ⟨n, g, rfl, kn, ht⟩ := List.map_eq_cons_iff.1 ht
    obtain ⟨rest', e1, e2⟩ := type_labels w ac ch (congrArg Prod.fst ka) (congrArg Prod.fst kb) (congrArg Prod.fst kn) ht P rfl D e ch2
    rw [e1, e2 rfl, ka, kb, show x1.text (some n) = _ from congrArg Prod.snd kn]
    simp

/-- **C65** The scopes of a text are its sections, and every scope whose section the specification can read has after `ParseScope` the tokens
the specification gives it, whatever the other sections are. -/
theorem C65_labels (ho : MapOrder ord) (w : WF h) (ac : Acyclic h) (startLine : Int) (text : Bytes) :
    ∃ h' scs, parseScopeOrd ord h startLine text = some (h', scs) ∧
      scs.length = (sectionsOf startLine text).2.length ∧
      ∀ (i : Nat) (sc : ScopeRec) (g g' : List Token), scs[i]? = some sc → (sectionsOf startLine text).2[i]? = some g → Labelled g g' →
        chainTokens h' sc.node = some g' := by
  obtain ⟨h1, p, l, st, h', P⟩ := parsed ho w ac startLine text
  refine ⟨h', st.scs, P.parse, by rw [P.scs, P.sections ho]; simp, ?_⟩
  intro i sc g g' hsc hg L
  rw [P.scs, List.getElem?_map] at hsc
  rw [P.sections ho, List.getElem?_map] at hg
  cases hd : (divide h1 (startLine - 1) l).2[i]? with
  | none => rw [hd] at hg; cases hg
  | some gr =>
    rw [hd] at hg hsc
    simp only [Option.map_some, Option.some.injEq] at hg hsc
    subst hg hsc
    have hm := List.mem_of_getElem? hd
    obtain ⟨a, gr, rfl⟩ := List.exists_cons_of_ne_nil (divide_ne_nil _ _ _ gr hm)
    obtain ⟨x1, x2, r, l2, w1, ac1, ch, et, e, ch2, f, ek, _⟩ := section_tokens P hm
    rw [chainTokens_eq (show Fwd h' (scopeOf h1 (a :: gr)).node (a :: l2) from f), ek, reset_labelled w1 ac1 ch L et e ch2]

theorem labels_of {startLine : Int} {text : Bytes} {h1 : Heap} {p : Ptr} {l : List Addr} {st : ParseSt} {h' : Heap}
    (P : Parsed ord h startLine text h1 p l st h') : ∀ (gs : List (List Addr)), (∀ g ∈ gs, g ∈ (divide h1 (startLine - 1) l).2) →
    ∀ (gs' : List (List Token)), LabelledAll (gs.map (List.map (kt h1))) gs' →
    ∃ lss, ScopeNodes h' (gs.map (scopeOf h1)) lss ∧ lss.map (List.map (kt h')) = gs'
  | [], _, gs', F => by cases F; exact ⟨[], .nil, rfl⟩
  | g :: gs, hm, gs', F => by
    rw [List.map_cons] at F
    cases F with
    | @cons _ g' _ gs' d F =>
      obtain ⟨lss, a1, a2⟩ := labels_of P gs (fun x hx => hm x (by simp [hx])) gs' F
      have hg := hm g (by simp)
      obtain ⟨a, gr, rfl⟩ := List.exists_cons_of_ne_nil (divide_ne_nil _ _ _ g hg)
      obtain ⟨x1, x2, r, l2, w1, ac1, ch, et, e, ch2, f, ek, _⟩ := section_tokens P hg
      exact ⟨(a :: l2) :: lss, .cons f a1, by rw [List.map_cons, ek, reset_labelled w1 ac1 ch d et e ch2, a2]⟩

/-- **C65** All sections at once: the nodes of the scopes, scope by scope, have the tokens the specification gives them. -/
theorem C65_all (ho : MapOrder ord) (w : WF h) (ac : Acyclic h) {startLine : Int} {text : Bytes} {gs' : List (List Token)}
    (F : LabelledAll (sectionsOf startLine text).2 gs') :
    ∃ h' scs lss, parseScopeOrd ord h startLine text = some (h', scs) ∧ ScopeNodes h' scs lss ∧
      lss.map (List.map fun a => (h'.kind (some a), h'.text (some a))) = gs' := by
  obtain ⟨h1, p, l, st, h', P⟩ := parsed ho w ac startLine text
  rw [P.sections ho] at F
  obtain ⟨lss, a1, a2⟩ := labels_of P _ (fun _ h => h) gs' F
  exact ⟨h', st.scs, lss, P.parse, by rw [P.scs]; exact a1, a2⟩

theorem LabelledAll.append {gs gs' hs hs' : List (List Token)} (d : LabelledAll gs gs') (d' : LabelledAll hs hs') :
    LabelledAll (gs ++ hs) (gs' ++ hs') := by
  induction d with
  | nil => exact d'
  | cons d _ ih => exact .cons d ih

/-- **C65** A file put together from declarations: each of them gets the labels it would get on its own. -/
theorem C65_file (ho : MapOrder ord) (w : WF h) (ac : Acyclic h) {ds : List (Bytes × List (List Token))} (hd : ∀ d ∈ ds, Whole d.1 ∧ BeginsScope d.1)
    (hs : ∀ d ∈ ds, LabelledAll (sectionsOf 0 d.1).2 d.2) :
    ∃ h' scs lss, parseScopeOrd ord h 0 (ds.flatMap Prod.fst) = some (h', scs) ∧ ScopeNodes h' scs lss ∧
      lss.map (List.map fun a => (h'.kind (some a), h'.text (some a))) = ds.flatMap Prod.snd := by
  refine C65_all ho w ac ?_
  have e : ds.flatMap Prod.fst = (ds.map Prod.fst).flatten := by rw [List.flatMap_def]
  rw [e, C64_sections (ds.map Prod.fst) (by
    intro d hd'
    obtain ⟨x, hx, rfl⟩ := List.mem_map.1 hd'
    exact hd x hx), List.flatMap_map]
  clear hd e
  induction ds with
  | nil => exact .nil
  | cons d ds ih =>
    rw [List.flatMap_cons, List.flatMap_cons]
    exact (hs d (by simp)).append (ih fun x hx => hs x (by simp [hx]))

/-! ## C66 -/

/-- What the getters of a scope say. -/
def ScopeRec.card (h : Heap) (sc : ScopeRec) : Option Card :=
  match sc.getFuncName h, sc.getTypeName h, sc.getMethodName h, sc.getMethodReceiver h with
  | some f, some t, some m, some r => some ⟨f, t, m, if r.2 then some r.1 else none⟩
  | _, _, _, _ => none

/-- The text of the first token of a kind. -/
def firstText (k : Kind) (ts : List Token) : Option Bytes := (ts.find? fun t => decide (t.1 = k)).map Prod.snd

theorem firstText_map (h : Heap) (k : Kind) (l : List Addr) :
    firstText k (l.map (kt h)) = (l.find? fun a => decide (h.kind (some a) = k)).map fun a => h.text (some a) := by
  rw [firstText, List.find?_map, Option.map_map]
  rfl

theorem firstText_cons (k : Kind) (t : Token) (ts : List Token) : firstText k (t :: ts) = if t.1 = k then some t.2 else firstText k ts := by
  unfold firstText
  by_cases h : t.1 = k <;> simp [h]

theorem firstText_append (k : Kind) (us ts : List Token) (hu : ∀ t ∈ us, t.1 ≠ k) : firstText k (us ++ ts) = firstText k ts := by
  unfold firstText
  rw [List.find?_append, List.find?_eq_none.2 (by simpa using hu)]
  rfl

theorem firstText_none {k : Kind} {ts : List Token} (hu : ∀ t ∈ ts, t.1 ≠ k) : firstText k ts = none := by
  unfold firstText
  rw [List.find?_eq_none.2 (by simpa using hu)]
  rfl

theorem findKindName_tokens {h : Heap} {p : Ptr} {l : List Addr} (f : Fwd h p l) (k : Kind) :
    (∀ x, firstText k (l.map (kt h)) = some x → findKindName h p k = some (x, true)) ∧
    (firstText k (l.map (kt h)) = none → ∃ x, findKindName h p k = some (x, false)) := by
  rw [firstText_map, findKindName_eq h f]
  cases l.find? fun a => decide (h.kind (some a) = k) with
  | none => exact ⟨fun x e => (by cases e), fun _ => ⟨_, rfl⟩⟩
  | some a => exact ⟨fun x e => (by cases e; rfl), fun e => (by cases e)⟩

/-- The card of a func scope with a name. -/
theorem card_func {h : Heap} {sc : ScopeRec} (hk : sc.kind = .func_) {l : List Addr} (f : Fwd h sc.node l) {name : Bytes}
    (hn : firstText .funcName (l.map (kt h)) = some name) :
    sc.card h = some (match firstText .methodReceiverType (l.map (kt h)) with
      | none => (Entry.func name).card
      | some t => (Entry.method t name).card) := by
  have e1 : sc.getFuncName h = some (name, true) := by
    rw [getFuncName_eq h sc hk f]
    rw [firstText_map] at hn
    obtain ⟨a, ha, e⟩ := Option.map_eq_some_iff.1 hn
    rw [ha, ← e]
  have e2 := C21_other h sc (by simp [hk])
  have q1 := findKindName_tokens f .methodReceiverType
  have q2 := findKindName_tokens f .funcName
  cases hr : firstText .methodReceiverType (l.map (kt h)) with
  | none =>
    obtain ⟨x, e⟩ := q1.2 hr
    have e3 : sc.getMethodReceiver h = some (x, false) := by rw [ScopeRec.getMethodReceiver, if_neg (by simp [hk]), e]
    simp [ScopeRec.card, e1, e2, e3, C20_no_receiver h sc x e3, Entry.card]
  | some t =>
    have e3 : sc.getMethodReceiver h = some (t, true) := by rw [ScopeRec.getMethodReceiver, if_neg (by simp [hk]), q1.1 t hr]
    have e4 : sc.getMethodName h = some (name, true) := by
      rw [ScopeRec.getMethodName, if_neg (by simp [hk]), e3]
      exact q2.1 name hn
    simp [ScopeRec.card, e1, e2, e3, e4, Entry.card]

/-- The card of a type scope with a name. -/
theorem card_type {h : Heap} {sc : ScopeRec} (hk : sc.kind = .type_) {l : List Addr} (f : Fwd h sc.node l) {name : Bytes}
    (hn : firstText .typeName (l.map (kt h)) = some name) : sc.card h = some (Entry.type name).card := by
  have e1 := C19_other h sc (by simp [hk])
  have e2 : sc.getTypeName h = some (name, true) := by rw [ScopeRec.getTypeName, if_neg (by simp [hk]), (findKindName_tokens f .typeName).1 name hn]
  have e3 := C20_other h sc (by simp [hk])
  simp [ScopeRec.card, e1, e2, e3.1, e3.2, Entry.card]

theorem card_other {h : Heap} {sc : ScopeRec} (hk1 : sc.kind ≠ .func_) (hk2 : sc.kind ≠ .type_) : sc.card h = some Entry.other.card := by
  have e3 := C20_other h sc hk1
  simp [ScopeRec.card, C19_other h sc hk1, C21_other h sc hk2, e3.1, e3.2, Entry.card]

mutual
theorem Params.no {nk tk : Kind} {k : Kind} (h1 : nk ≠ k) (h2 : tk ≠ k) : ∀ {ts ts' : List Token}, Params nk tk ts ts' → (∀ t ∈ ts, t.1 ≠ k) →
    ∀ t ∈ ts', t.1 ≠ k
  | _, _, .nil, _ => by simp
  | _, _, .sep _ p, h => by
    intro t ht
    rcases List.mem_cons.1 ht with rfl | ht
    · exact h _ (by simp)
    · exact p.no h1 h2 (fun t ht => h t (by simp [ht])) t ht
  | _, _, .param _ q _ p, h => by
    intro t ht
    rcases List.mem_append.1 ht with ht | ht
    · exact q.no h1 h2 (fun t ht => h t (List.mem_append_left _ ht)) t ht
    · exact p.no h1 h2 (fun t ht => h t (List.mem_append_right _ ht)) t ht
theorem Param.no {nk tk : Kind} {k : Kind} (h1 : nk ≠ k) (h2 : tk ≠ k) : ∀ {b : Bool} {ts ts' : List Token}, Param nk tk b ts ts' → (∀ t ∈ ts, t.1 ≠ k) →
    ∀ t ∈ ts', t.1 ≠ k
  | _, _, _, .nil, _ => by simp
  | b, _, _, .word _ q, h => by
    intro t ht
    rcases List.mem_cons.1 ht with rfl | ht
    · cases b
      · exact h2
      · exact h1
    · exact q.no h1 h2 (fun t ht => h t (by simp [ht])) t ht
  | _, _, _, .plain _ q, h => by
    intro t ht
    rcases List.mem_cons.1 ht with rfl | ht
    · exact h _ (by simp)
    · exact q.no h1 h2 (fun t ht => h t (by simp [ht])) t ht
  | _, _, _, .square _ hc q, h => by
    have e := (closeAt_split hc).1
    intro t ht
    rcases List.mem_cons.1 ht with rfl | ht
    · exact h _ (by simp)
    rcases List.mem_append.1 ht with ht | ht
    · exact h _ (by rw [e]; simp [ht])
    rcases List.mem_cons.1 ht with rfl | ht
    · exact h _ (by rw [e]; simp)
    · exact q.no h1 h2 (fun t ht => h t (by rw [e]; simp [ht])) t ht
  | _, _, _, .func _ _ _ _ p q, h => by
    intro t ht
    rcases List.mem_cons.1 ht with rfl | ht
    · exact h _ (by simp)
    rcases List.mem_cons.1 ht with rfl | ht
    · exact h _ (by simp)
    rcases List.mem_append.1 ht with ht | ht
    · exact p.no h1 h2 (fun t ht => h t (by simp [ht])) t ht
    rcases List.mem_cons.1 ht with rfl | ht
    · exact h _ (by simp)
    · exact q.no h1 h2 (fun t ht => h t (by simp [ht])) t ht
end

/-- The kinds of tokens that come from the lexer. -/
theorem token_kind {text : Bytes} {t : Token} (ht : t ∈ tokens text) {k : Kind} (hk : k ∈ ([.funcName, .typeName, .paramName, .paramType,
    .methodReceiverName, .methodReceiverType] : List Kind)) : t.1 ≠ k := by
  rw [tokens_eq] at ht
  obtain ⟨x, _, rfl⟩ := List.mem_map.1 ht
  simp only [Lexeme.kt]
  split
  · intro e; subst e; revert hk; decide
  · exact C43_never _ _ (.inl (by revert hk; cases k <;> simp))

theorem placed_snd {text : Bytes} {t : Token} (ht : t ∈ (placed text).map Prod.snd) : t ∈ tokens text := by
  obtain ⟨⟨n, t⟩, h, rfl⟩ := List.mem_map.1 ht
  exact (List.of_mem_zip h).2

theorem sections_mem : ∀ (ts : List (Int × Token)) (prev : Int) (g : List Token), g ∈ (sections prev ts).2 → ∀ t ∈ g, t ∈ ts.map Prod.snd := by
  have key : ∀ (ts : List (Int × Token)) (prev : Int), (sections prev ts).1 ++ (sections prev ts).2.flatten = ts.map Prod.snd := by
    intro ts
    induction ts with
    | nil => intro _; rfl
    | cons t ts ih =>
      intro prev
      simp only [sections]
      split <;> simp [← ih t.1]
  intro ts prev g hg t ht
  rw [← key ts prev]
  exact List.mem_append_right _ (List.mem_flatten.2 ⟨g, hg, ht⟩)

/-- The card of one section. -/
theorem section_card {startLine : Int} {text : Bytes} {h1 : Heap} {p : Ptr} {l : List Addr} {st : ParseSt} {h' : Heap} (ho : MapOrder ord)
    (P : Parsed ord h startLine text h1 p l st h') {g : List Addr} (hg : g ∈ (divide h1 (startLine - 1) l).2) {en : Entry}
    (D : Declares (g.map (kt h1)) en) : (scopeOf h1 g).card h' = some en.card := by
  obtain ⟨a, g, rfl⟩ := List.exists_cons_of_ne_nil (divide_ne_nil _ _ _ g hg)
  obtain ⟨x1, x2, r, l2, w1, ac1, ch, et, e, ch2, f, ek, sub⟩ := section_tokens P hg
  have never : ∀ b ∈ a :: g, ∀ k ∈ ([.funcName, .typeName, .paramName, .paramType, .methodReceiverName, .methodReceiverType] : List Kind), (kt x1 b).1 ≠ k := by
    intro b hb k hk
    have : (kt x1 b) ∈ (a :: g).map (kt h1) := by rw [← et]; exact List.mem_map.2 ⟨b, hb, rfl⟩
    refine token_kind (text := text) ?_ hk
    refine placed_snd ?_
    refine sections_mem (placed text) (startLine - 1) ((a :: g).map (kt h1)) ?_ _ this
    have := P.sections ho
    rw [sectionsOf] at this
    rw [this]
    exact List.mem_map.2 ⟨_, hg, rfl⟩
  rw [← et] at D
  have f' : Fwd h' (scopeOf h1 (a :: g)).node (a :: l2) := f
  have kk : (scopeOf h1 (a :: g)).kind = newScopeKind (kt x1 a).2 := by
    have := (List.cons.inj et).1
    rw [this]
    rfl
  generalize hts : (a :: g).map (kt x1) = ts at D
  cases D with
  | func =>
    simp only [List.map_cons] at hts
    obtain ⟨ka, ht⟩ := List.cons.inj hts
    obtain ⟨b, g, rfl, kb, ht⟩ := List.map_eq_cons_iff.1 ht
    obtain ⟨n, g, rfl, kn, ht⟩ := List.map_eq_cons_iff.1 ht
    obtain ⟨rest', e1, _⟩ := func_labels w1 ac1 ch (congrArg Prod.fst ka) (congrArg Prod.fst kb) (congrArg Prod.fst kn) ht (Sig.stop (fin := false)) e ch2
    rw [ka, kb, show x1.text (some n) = _ from congrArg Prod.snd kn] at e1
    rw [ka] at kk
    have : firstText .methodReceiverType ((a :: l2).map (kt x2)) = none := by
      refine firstText_none fun t ht => ?_
      obtain ⟨c, hc, rfl⟩ := List.mem_map.1 ht
      refine resetKind_no_receiver ch (congrArg Prod.fst ka) (congrArg Prod.fst kb) (congrArg Prod.fst kn) e (p := some c) (.inr rfl) ?_
      refine never c ?_ _ (by decide)
      rcases List.mem_cons.1 hc with rfl | hc
      · simp
      · exact List.mem_cons_of_mem _ (sub c hc)
    rw [card_func (by rw [kk]; decide) f' (by rw [ek, e1]; simp [firstText_cons]; rfl), ek, this]
  | @method typ name ps ps' ts hcall PP htyp =>
    have hcall' : ¬ CalledAtOnce (kindsOf x1 (a :: g)) := by
      rw [← hts, List.map_map] at hcall
      exact hcall
    simp only [List.map_cons] at hts
    obtain ⟨ka, ht⟩ := List.cons.inj hts
    obtain ⟨b, g, rfl, kb, ht⟩ := List.map_eq_cons_iff.1 ht
    obtain ⟨q, g, rfl, kq, ht⟩ := List.map_eq_cons_iff.1 ht
    obtain ⟨mid, g, rfl, em, ht⟩ := List.map_eq_append_iff.1 ht
    obtain ⟨q2, g, rfl, kq2, ht⟩ := List.map_eq_cons_iff.1 ht
    obtain ⟨s, g, rfl, ks, ht⟩ := List.map_eq_cons_iff.1 ht
    obtain ⟨n, g, rfl, kn, ht⟩ := List.map_eq_cons_iff.1 ht
    obtain ⟨rest', e1, _⟩ := method_labels w1 ac1 ch (congrArg Prod.fst ka) (congrArg Prod.fst kb) (congrArg Prod.fst kq) (congrArg Prod.fst kq2)
      (congrArg Prod.fst ks) (congrArg Prod.fst kn) hcall' em PP ht (Sig.stop (fin := true)) e ch2
    rw [ka, kb, kq, kq2, ks, show x1.text (some n) = _ from congrArg Prod.snd kn] at e1
    rw [ka] at kk
    obtain ⟨pre, post, eps, hpre⟩ := htyp
    have nofn : ∀ t ∈ ps', t.1 ≠ .funcName := PP.no (by decide) (by decide) (by
      intro t ht
      rw [← em] at ht
      obtain ⟨c, hc, rfl⟩ := List.mem_map.1 ht
      exact never c (by simp [hc]) _ (by decide))
    have r1 : firstText .funcName ((a :: l2).map (kt x2)) = some name := by
      rw [e1]
      simp only [firstText_cons, reduceCtorEq, if_false]
      rw [firstText_append _ _ _ nofn]
      simp [firstText_cons]
    have r2 : firstText .methodReceiverType ((a :: l2).map (kt x2)) = some typ := by
      rw [e1, eps]
      simp only [firstText_cons, reduceCtorEq, if_false, List.append_assoc]
      rw [firstText_append _ _ _ hpre]
      simp [firstText_cons]
    rw [card_func (by rw [kk]; decide) f' (by rw [ek, r1]), ek, r2]
  | type =>
    simp only [List.map_cons] at hts
    obtain ⟨ka, ht⟩ := List.cons.inj hts
    obtain ⟨b, g, rfl, kb, ht⟩ := List.map_eq_cons_iff.1 ht
    obtain ⟨n, g, rfl, kn, ht⟩ := List.map_eq_cons_iff.1 ht
    obtain ⟨n1, n2, k1, k2, k3, t3⟩ := resetKind_type_name w1 ac1 ch (congrArg Prod.fst ka) (congrArg Prod.fst kb) (congrArg Prod.fst kn) e
    rw [ka] at kk
    obtain ⟨l'', rfl⟩ := chain_front ch2 n1 n2
    have : firstText .typeName ((a :: b :: n :: l'').map (kt x2)) = some (x1.text (some n)) := by
      simp [firstText_cons, kt, k1, k2, k3, t3]
    rw [card_type (by rw [kk]; decide) f' (by rw [ek, this, show x1.text (some n) = _ from congrArg Prod.snd kn])]
  | other o1 o2 =>
    have := (List.cons.inj hts).1
    exact card_other (by rw [kk, this]; exact (fun x => o1 ((newScopeKind_func_iff _).1 x))) (by rw [kk, this]; exact (fun x => o2 ((newScopeKind_type_iff _).1 x)))

/-- **C66** The scopes of a text are its sections, and the getters of every scope answer with what its section declares, whatever follows
the name and whatever the other sections are. -/
theorem C66_names (ho : MapOrder ord) (w : WF h) (ac : Acyclic h) (startLine : Int) (text : Bytes) :
    ∃ h' scs, parseScopeOrd ord h startLine text = some (h', scs) ∧
      scs.length = (sectionsOf startLine text).2.length ∧
      ∀ (i : Nat) (sc : ScopeRec) (g : List Token) (en : Entry), scs[i]? = some sc → (sectionsOf startLine text).2[i]? = some g → Declares g en →
        sc.card h' = some en.card := by
  obtain ⟨h1, p, l, st, h', P⟩ := parsed ho w ac startLine text
  refine ⟨h', st.scs, P.parse, by rw [P.scs, P.sections ho]; simp, ?_⟩
  intro i sc g en hsc hg D
  rw [P.scs, List.getElem?_map] at hsc
  rw [P.sections ho, List.getElem?_map] at hg
  cases hd : (divide h1 (startLine - 1) l).2[i]? with
  | none => rw [hd] at hg; cases hg
  | some gr =>
    rw [hd] at hg hsc
    simp only [Option.map_some, Option.some.injEq] at hg hsc
    subst hg hsc
    exact section_card ho P (List.mem_of_getElem? hd) D

/-- The getters of all scopes of a text whose sections declare something. -/
theorem cards_of {startLine : Int} {text : Bytes} {h1 : Heap} {p : Ptr} {l : List Addr} {st : ParseSt} {h' : Heap} (ho : MapOrder ord)
    (P : Parsed ord h startLine text h1 p l st h') : ∀ (gs : List (List Addr)), (∀ g ∈ gs, g ∈ (divide h1 (startLine - 1) l).2) →
    ∀ (ens : List Entry), DeclaresAll (gs.map (List.map (kt h1))) ens →
    (gs.map (scopeOf h1)).map (ScopeRec.card h') = ens.map fun en => some en.card
  | [], _, ens, F => by cases F; rfl
  | g :: gs, hm, ens, F => by
    rw [List.map_cons] at F
    cases F with
    | cons d F =>
      rw [List.map_cons, List.map_cons, List.map_cons, section_card ho P (hm g (by simp)) d,
        cards_of ho P gs (fun x hx => hm x (by simp [hx])) _ F]

/-- **C66** The table of contents of a text: if each section declares something, the getters of the scopes say just that, in the same order. -/
theorem C66_contents (ho : MapOrder ord) (w : WF h) (ac : Acyclic h) {startLine : Int} {text : Bytes} {ens : List Entry}
    (F : DeclaresAll (sectionsOf startLine text).2 ens) :
    ∃ h' scs, parseScopeOrd ord h startLine text = some (h', scs) ∧ scs.map (ScopeRec.card h') = ens.map fun en => some en.card := by
  obtain ⟨h1, p, l, st, h', P⟩ := parsed ho w ac startLine text
  rw [P.sections ho] at F
  exact ⟨h', st.scs, P.parse, by rw [P.scs]; exact cards_of ho P _ (fun _ h => h) ens F⟩

theorem DeclaresAll.append {gs gs' : List (List Token)} {ens ens' : List Entry} (d : DeclaresAll gs ens) (d' : DeclaresAll gs' ens') :
    DeclaresAll (gs ++ gs') (ens ++ ens') := by
  induction d with
  | nil => exact d'
  | cons d _ ih => exact .cons d ih

theorem DeclaresAll.flatMap {α : Type} (f : α → List (List Token)) (g : α → List Entry) : ∀ (ds : List α),
    (∀ d ∈ ds, DeclaresAll (f d) (g d)) → DeclaresAll (ds.flatMap f) (ds.flatMap g)
  | [], _ => .nil
  | d :: ds, hd => by
    rw [List.flatMap_cons, List.flatMap_cons]
    exact (hd d (by simp)).append (DeclaresAll.flatMap f g ds fun x hx => hd x (by simp [hx]))

/-- **C66** The table of contents of a file that is put together from declarations: what each of them would declare on its own, in the same
order. -/
theorem C66_file (ho : MapOrder ord) (w : WF h) (ac : Acyclic h) {ds : List (Bytes × List Entry)} (hd : ∀ d ∈ ds, Whole d.1 ∧ BeginsScope d.1)
    (hs : ∀ d ∈ ds, DeclaresAll (sectionsOf 0 d.1).2 d.2) :
    ∃ h' scs, parseScopeOrd ord h 0 (ds.flatMap Prod.fst) = some (h', scs) ∧
      scs.map (ScopeRec.card h') = (ds.flatMap Prod.snd).map fun en => some en.card := by
  refine C66_contents ho w ac ?_
  have e : ds.flatMap Prod.fst = (ds.map Prod.fst).flatten := by rw [List.flatMap_def]
  rw [e, C64_sections (ds.map Prod.fst) (by
    intro d hd'
    obtain ⟨x, hx, rfl⟩ := List.mem_map.1 hd'
    exact hd x hx), List.flatMap_map]
  exact DeclaresAll.flatMap _ _ ds hs

/-! ## Structs and interfaces -/

/-- **C66** A type scope whose section the specification can read is reported as a struct if and only if there is a `struct` keyword among its
tokens after the parse, and as an interface if and only if there is an `interface` keyword. -/
theorem C66_struct (ho : MapOrder ord) (w : WF h) (ac : Acyclic h) (startLine : Int) (text : Bytes) :
    ∃ h' scs, parseScopeOrd ord h startLine text = some (h', scs) ∧
      ∀ (i : Nat) (sc : ScopeRec) (name : Bytes) (tp ts ts' : List Token), scs[i]? = some sc →
        (sectionsOf startLine text).2[i]? = some ((.type_, b!"type") :: (.space, b!" ") :: (.raw, name) :: (tp ++ (.space, b!" ") :: ts)) →
        TypeParams tp → Def [] ts ts' →
        sc.getStructName h' = some (name, decide (∃ t ∈ tp ++ ts', t.1 = .struct_)) ∧
        sc.getInterfaceName h' = some (name, decide (∃ t ∈ tp ++ ts', t.1 = .interface_)) := by
  obtain ⟨h1, p, l, st, h', P⟩ := parsed ho w ac startLine text
  refine ⟨h', st.scs, P.parse, ?_⟩
  intro i sc name tp ts ts' hsc hg TP D
  rw [P.scs, List.getElem?_map] at hsc
  rw [P.sections ho, List.getElem?_map] at hg
  cases hd : (divide h1 (startLine - 1) l).2[i]? with
  | none => rw [hd] at hg; cases hg
  | some gr =>
    rw [hd] at hg hsc
    simp only [Option.map_some, Option.some.injEq] at hg hsc
    subst hsc
    have hm := List.mem_of_getElem? hd
    obtain ⟨a, gr, rfl⟩ := List.exists_cons_of_ne_nil (divide_ne_nil _ _ _ gr hm)
    obtain ⟨x1, x2, r, l2, w1, ac1, ch, et, e, ch2, f, ek, _⟩ := section_tokens P hm
    have hl := reset_labelled w1 ac1 ch (Labelled.type (name := name) TP D) (et.trans hg) e ch2
    rw [← ek] at hl
    have f' : Fwd h' (scopeOf h1 (a :: gr)).node (a :: l2) := f
    have kk : (scopeOf h1 (a :: gr)).kind = .type_ := by
      have := congrArg Prod.snd (List.cons.inj hg).1
      have e' : h1.text (some a) = b!"type" := this
      show newScopeKind (h1.text (some a)) = _
      rw [e']; decide
    have nm : (scopeOf h1 (a :: gr)).getTypeName h' = some (name, true) := by
      rw [ScopeRec.getTypeName, if_neg (by simp [kk]), (findKindName_tokens f' .typeName).1 name (by rw [hl]; simp [firstText_cons])]
    have mem : ∀ k : Kind, k ≠ .type_ → k ≠ .space → k ≠ .typeName → ((∃ b ∈ a :: l2, h'.kind (some b) = k) ↔ ∃ t ∈ tp ++ ts', t.1 = k) := by
      intro k k1 k2 k3
      have : (∃ b ∈ a :: l2, h'.kind (some b) = k) ↔ ∃ t ∈ (a :: l2).map (kt h'), t.1 = k := by
        simp only [List.mem_map]
        constructor
        · rintro ⟨b, hb, e⟩; exact ⟨_, ⟨b, hb, rfl⟩, e⟩
        · rintro ⟨_, ⟨b, hb, rfl⟩, e⟩; exact ⟨b, hb, e⟩
      rw [this, hl]
      constructor
      · rintro ⟨t, ht, e⟩
        simp only [List.mem_cons, List.mem_append] at ht
        rcases ht with rfl | rfl | rfl | ht | rfl | ht
        · exact absurd e.symm k1
        · exact absurd e.symm k2
        · exact absurd e.symm k3
        · exact ⟨t, by simp [ht], e⟩
        · exact absurd e.symm k2
        · exact ⟨t, by simp [ht], e⟩
      · rintro ⟨t, ht, e⟩
        refine ⟨t, ?_, e⟩
        rcases List.mem_append.1 ht with ht | ht <;> simp [ht]
    constructor
    · obtain ⟨n, fd, is, e1, e2, e3⟩ := C22_struct h' _ kk f'
      rw [nm] at e1
      cases e1
      rw [mem .struct_ (by decide) (by decide) (by decide)] at e3
      rw [e2]
      congr 2
      rw [Bool.eq_iff_iff, e3, decide_eq_true_eq]
    · obtain ⟨n, fd, is, e1, e2, e3⟩ := C22_interface h' _ kk f'
      rw [nm] at e1
      cases e1
      rw [mem .interface_ (by decide) (by decide) (by decide)] at e3
      rw [e2]
      congr 2
      rw [Bool.eq_iff_iff, e3, decide_eq_true_eq]

end Goast
