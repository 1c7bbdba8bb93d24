import Verif.Props.Getters
import Verif.Proofs.Labels

/-!
# C76: the name getters answer for the nodes as they are now
-/

set_option linter.unusedSimpArgs false
set_option linter.unusedVariables false

namespace Goast
open Heap

/-- The first token of kind `k` has text `t`. -/
def FirstOf (k : Kind) (toks : List Token) (t : Bytes) : Prop :=
  ∃ pre post, toks = pre ++ (k, t) :: post ∧ ∀ x ∈ pre, x.1 ≠ k

/-- There is no token of kind `k`. -/
def NoneOf (k : Kind) (toks : List Token) : Prop := ∀ x ∈ toks, x.1 ≠ k

/-- The text of the last token, nothing if there is none. -/
def lastText (toks : List Token) : Bytes := (toks.getLast?.map (·.2)).getD []

theorem find_of_first {h : Heap} {l : List Addr} {k : Kind} {t : Bytes} (hf : FirstOf k (l.map (kt h)) t) :
    ∃ a, (l.find? fun a => decide (h.kind (some a) = k)) = some a ∧ h.text (some a) = t := by
  obtain ⟨pre, post, e, hp⟩ := hf
  obtain ⟨l1, l2, rfl, e1, e2⟩ := List.map_eq_append_iff.1 e
  obtain ⟨a, l3, rfl, e3, e4⟩ := List.map_eq_cons_iff.1 e2
  simp only [kt, Prod.mk.injEq] at e3
  refine ⟨a, ?_, e3.2⟩
  rw [List.find?_append, List.find?_eq_none.2, Option.none_or, List.find?_cons_of_pos]
  · simpa using e3.1
  · intro x hx
    have := hp (kt h x) (by rw [← e1]; exact List.mem_map_of_mem hx)
    simpa [kt] using this

theorem find_of_none {h : Heap} {l : List Addr} {k : Kind} (hn : NoneOf k (l.map (kt h))) :
    (l.find? fun a => decide (h.kind (some a) = k)) = none := by
  rw [List.find?_eq_none]
  intro x hx
  simpa [kt] using hn (kt h x) (List.mem_map_of_mem hx)

theorem lastText_eq (h : Heap) (l : List Addr) : ((l.getLast?).map fun a => h.text (some a)).getD [] = lastText (l.map (kt h)) := by
  simp only [lastText, List.getLast?_map, Option.map_map]
  rfl

theorem findKindName_first {h : Heap} {p : Ptr} {l : List Addr} (f : Fwd h p l) (k : Kind) :
    (∀ t, FirstOf k (l.map (kt h)) t → findKindName h p k = some (t, true)) ∧
    (NoneOf k (l.map (kt h)) → findKindName h p k = some (lastText (l.map (kt h)), false)) := by
  rw [findKindName_eq h f k]
  refine ⟨fun t ht => ?_, fun hn => ?_⟩
  · obtain ⟨a, e, et⟩ := find_of_first ht
    simp [e, et]
  · rw [find_of_none hn]
    simp only [lastText_eq]

/-- **C76** On any function scope, whatever was done to its nodes: `GetFuncName` answers with the text of the first node of kind `FuncName`,
and with `("", false)` if there is none. -/
theorem C76_func {h : Heap} {d : ScopeRec} (hd : d.kind = .func_) {l : List Addr} (f : Fwd h d.node l) :
    (∀ t, FirstOf .funcName (l.map (kt h)) t → d.getFuncName h = some (t, true)) ∧
    (NoneOf .funcName (l.map (kt h)) → d.getFuncName h = some ([], false)) := by
  have key : ∀ l : List Addr, (walk (fun (s : Bytes × Bool) a =>
      if h.kind (some a) = .funcName then ((h.text (some a), true), false) else (s, true)) ([], false) l).1 =
      match l.find? fun a => decide (h.kind (some a) = .funcName) with
      | some a => (h.text (some a), true)
      | none => ([], false) := by
    intro l
    induction l with
    | nil => rfl
    | cons a l ih =>
      by_cases hk : h.kind (some a) = .funcName
      · simp [walk, hk]
      · simp only [walk, hk, if_false, ih, List.find?_cons, decide_false]
  have e : d.getFuncName h = some (match l.find? fun a => decide (h.kind (some a) = .funcName) with
      | some a => (h.text (some a), true)
      | none => ([], false)) := by
    rw [ScopeRec.getFuncName, if_neg (by simp [hd]), C32_iterNext h _ f, Option.map_some, key]
  rw [e]
  refine ⟨fun t ht => ?_, fun hn => ?_⟩
  · obtain ⟨a, e, et⟩ := find_of_first ht
    simp [e, et]
  · rw [find_of_none hn]

/-- **C76** On any type scope: `GetTypeName` answers with the text of the first node of kind `TypeName`; if there is none, with the text of
the last node and false. -/
theorem C76_type {h : Heap} {d : ScopeRec} (hd : d.kind = .type_) {l : List Addr} (f : Fwd h d.node l) :
    (∀ t, FirstOf .typeName (l.map (kt h)) t → d.getTypeName h = some (t, true)) ∧
    (NoneOf .typeName (l.map (kt h)) → d.getTypeName h = some (lastText (l.map (kt h)), false)) := by
  rw [ScopeRec.getTypeName, if_neg (by simp [hd])]
  exact findKindName_first f .typeName

/-- **C76** On any function scope: `GetMethodReceiver` answers with the text of the first node of kind `MethodReceiverType`; if there is none,
with the text of the last node and false. -/
theorem C76_receiver {h : Heap} {d : ScopeRec} (hd : d.kind = .func_) {l : List Addr} (f : Fwd h d.node l) :
    (∀ t, FirstOf .methodReceiverType (l.map (kt h)) t → d.getMethodReceiver h = some (t, true)) ∧
    (NoneOf .methodReceiverType (l.map (kt h)) → d.getMethodReceiver h = some (lastText (l.map (kt h)), false)) := by
  rw [ScopeRec.getMethodReceiver, if_neg (by simp [hd])]
  exact findKindName_first f .methodReceiverType

/-- **C76** On any function scope: if some node has kind `MethodReceiverType`, `GetMethodName` answers with the text of the first node of kind
`FuncName` (or the text of the last node and false), and otherwise with `("", false)`. -/
theorem C76_method {h : Heap} {d : ScopeRec} (hd : d.kind = .func_) {l : List Addr} (f : Fwd h d.node l) :
    (∀ r t, FirstOf .methodReceiverType (l.map (kt h)) r → FirstOf .funcName (l.map (kt h)) t → d.getMethodName h = some (t, true)) ∧
    (∀ r, FirstOf .methodReceiverType (l.map (kt h)) r → NoneOf .funcName (l.map (kt h)) → d.getMethodName h = some (lastText (l.map (kt h)), false)) ∧
    (NoneOf .methodReceiverType (l.map (kt h)) → d.getMethodName h = some ([], false)) := by
  obtain ⟨r1, r2⟩ := C76_receiver hd f
  obtain ⟨n1, n2⟩ := findKindName_first f .funcName
  refine ⟨fun r t hr ht => ?_, fun r hr hn => ?_, fun hn => ?_⟩
  · rw [ScopeRec.getMethodName, if_neg (by simp [hd]), r1 r hr]; exact n1 t ht
  · rw [ScopeRec.getMethodName, if_neg (by simp [hd]), r1 r hr]; exact n2 hn
  · rw [ScopeRec.getMethodName, if_neg (by simp [hd]), r2 hn]

/-- One of the two cases above always holds. -/
theorem firstOf_or_noneOf (k : Kind) : ∀ toks : List Token, (∃ t, FirstOf k toks t) ∨ NoneOf k toks
  | [] => .inr (by simp [NoneOf])
  | x :: toks => by
    by_cases hx : x.1 = k
    · exact .inl ⟨x.2, [], toks, by simp [← hx], by simp⟩
    · rcases firstOf_or_noneOf k toks with ⟨t, pre, post, e, hp⟩ | hn
      · refine .inl ⟨t, x :: pre, post, by simp [e], ?_⟩
        intro y hy
        rcases List.mem_cons.1 hy with rfl | hy
        · exact hx
        · exact hp y hy
      · right
        intro y hy
        rcases List.mem_cons.1 hy with rfl | hy
        · exact hx
        · exact hn y hy

/-- **C76** Two scopes of the same kind whose nodes have the same kinds and texts, in whatever place of whatever program, get the same answers. -/
theorem C76_alike {h h' : Heap} {d d' : ScopeRec} (hk : d.kind = d'.kind) {l l' : List Addr} (f : Fwd h d.node l) (f' : Fwd h' d'.node l')
    (e : l.map (kt h) = l'.map (kt h')) :
    d.getFuncName h = d'.getFuncName h' ∧ d.getTypeName h = d'.getTypeName h' ∧ d.getMethodReceiver h = d'.getMethodReceiver h' ∧
      d.getMethodName h = d'.getMethodName h' := by
  have hkind : ∀ {k : Kind}, findKindName h d.node k = findKindName h' d'.node k := by
    intro k
    obtain ⟨a1, a2⟩ := findKindName_first f k
    obtain ⟨b1, b2⟩ := findKindName_first f' k
    rw [← e] at b1 b2
    rcases firstOf_or_noneOf k (l.map (kt h)) with ⟨t, ht⟩ | hn
    · rw [a1 t ht, b1 t ht]
    · rw [a2 hn, b2 hn]
  have hrec : d.getMethodReceiver h = d'.getMethodReceiver h' := by
    simp only [ScopeRec.getMethodReceiver, hk, hkind]
  refine ⟨?_, by simp only [ScopeRec.getTypeName, hk, hkind], hrec, by simp only [ScopeRec.getMethodName, hk, hkind, hrec]⟩
  by_cases hd : d.kind = .func_
  · obtain ⟨a1, a2⟩ := C76_func hd f
    obtain ⟨b1, b2⟩ := C76_func (hk ▸ hd) f'
    rw [← e] at b1 b2
    rcases firstOf_or_noneOf .funcName (l.map (kt h)) with ⟨t, ht⟩ | hn
    · rw [a1 t ht, b1 t ht]
    · rw [a2 hn, b2 hn]
  · simp only [ScopeRec.getFuncName, hk ▸ hd, hd, ne_eq, not_false_eq_true, if_true]

/-- The tokens after `SetText`. -/
theorem kt_setText {h : Heap} {a b : Addr} (ha : a < h.size) (t : Bytes) : kt (h.setText (some a) t) b = if b = a then (h.kind (some b), t) else kt h b := by
  simp only [kt, kind_setText, text_setText h a t (some b) ha]
  by_cases hb : b = a <;> simp [hb]

theorem Fwd.setText' {h : Heap} {p : Ptr} {l : List Addr} (f : Fwd h p l) (q : Ptr) (t : Bytes) : Fwd (h.setText q t) p l := by
  induction f with
  | nil => exact .nil
  | cons ha _ ih => exact .cons (by simpa using ha) (by simpa using ih)

/-- **C76** Renaming: after `SetText(t)` on the first node of kind `FuncName` of a function scope, `GetFuncName` answers `(t, true)`, and so does
`GetMethodName` if the function is a method; on the first node of kind `TypeName` of a type scope, `GetTypeName` does; and on the first node of
kind `MethodReceiverType`, `GetMethodReceiver` does.  `SetText` on any other node leaves these answers as they are. -/
theorem C76_rename {h : Heap} {d : ScopeRec} {pre post : List Addr} {a : Addr} (f : Fwd h d.node (pre ++ a :: post)) {k : Kind} (ha : h.kind (some a) = k)
    (hp : ∀ b ∈ pre, h.kind (some b) ≠ k) (t : Bytes) :
    (d.kind = .func_ → k = .funcName → d.getFuncName (h.setText (some a) t) = some (t, true)) ∧
    (d.kind = .func_ → k = .funcName → (∃ b ∈ pre ++ a :: post, h.kind (some b) = .methodReceiverType) → d.getMethodName (h.setText (some a) t) = some (t, true)) ∧
    (d.kind = .func_ → k = .methodReceiverType → d.getMethodReceiver (h.setText (some a) t) = some (t, true)) ∧
    (d.kind = .type_ → k = .typeName → d.getTypeName (h.setText (some a) t) = some (t, true)) ∧
    ∀ c, c ≠ a → (d.kind = .func_ → k = .funcName → d.getFuncName (h.setText (some c) t) = some (h.text (some a), true)) ∧
      (d.kind = .func_ → k = .methodReceiverType → d.getMethodReceiver (h.setText (some c) t) = some (h.text (some a), true)) ∧
      (d.kind = .type_ → k = .typeName → d.getTypeName (h.setText (some c) t) = some (h.text (some a), true)) := by
  have hlt : ∀ {p l}, Fwd h p l → ∀ x ∈ l, x < h.size := by
    intro p l f
    induction f with
    | nil => simp
    | cons hx _ ih =>
      intro y hy
      rcases List.mem_cons.1 hy with rfl | hy
      · exact hx
      · exact ih y hy
  have first : ∀ c : Addr, FirstOf k ((pre ++ a :: post).map (kt (h.setText (some c) t))) ((h.setText (some c) t).text (some a)) := by
    intro c
    refine ⟨pre.map (kt (h.setText (some c) t)), post.map (kt (h.setText (some c) t)), ?_, ?_⟩
    · simp [kt, ha]
    · intro x hx
      obtain ⟨b, hb, rfl⟩ := List.mem_map.1 hx
      simpa [kt] using hp b hb
  have ta : (h.setText (some a) t).text (some a) = t := by
    rw [text_setText h a t (some a) (hlt f a (by simp))]; simp
  have tc : ∀ c, c ≠ a → (h.setText (some c) t).text (some a) = h.text (some a) := by
    intro c hc
    by_cases hs : c < h.size
    · rw [text_setText h c t (some a) hs]; simp [Ne.symm hc]
    · simp only [Heap.setText, Heap.text, Heap.modify]
      simp [List.getElem?_modify, hc]
  have fc : ∀ c : Addr, Fwd (h.setText (some c) t) d.node (pre ++ a :: post) := fun c => f.setText' _ _
  refine ⟨fun hd hk => ?_, fun hd hk hm => ?_, fun hd hk => ?_, fun hd hk => ?_, fun c hc => ⟨fun hd hk => ?_, fun hd hk => ?_, fun hd hk => ?_⟩⟩
  · subst hk; have := (C76_func hd (fc a)).1 _ (first a); rwa [ta] at this
  · subst hk
    rcases firstOf_or_noneOf .methodReceiverType ((pre ++ a :: post).map (kt (h.setText (some a) t))) with ⟨r, hr⟩ | hn
    · have := (C76_method hd (fc a)).1 r _ hr (first a); rwa [ta] at this
    · obtain ⟨b, hb, hbk⟩ := hm
      have := hn _ (List.mem_map_of_mem hb)
      simp [kt, hbk] at this
  · subst hk; have := (C76_receiver hd (fc a)).1 _ (first a); rwa [ta] at this
  · subst hk; have := (C76_type hd (fc a)).1 _ (first a); rwa [ta] at this
  · subst hk; have := (C76_func hd (fc c)).1 _ (first c); rwa [tc c hc] at this
  · subst hk; have := (C76_receiver hd (fc c)).1 _ (first c); rwa [tc c hc] at this
  · subst hk; have := (C76_type hd (fc c)).1 _ (first c); rwa [tc c hc] at this

/-- **C76** Marking: after `SetKind(FuncName)` on a node of a function scope with no node of that kind before it, `GetFuncName` answers with
that node's text; likewise `SetKind(TypeName)` on a type scope and `GetTypeName`. -/
theorem C76_mark {h : Heap} {d : ScopeRec} {pre post : List Addr} {a : Addr} (f : Fwd h d.node (pre ++ a :: post)) {k : Kind}
    (hp : ∀ b ∈ pre, b ≠ a ∧ h.kind (some b) ≠ k) :
    (d.kind = .func_ → k = .funcName → d.getFuncName (h.setKind (some a) k) = some (h.text (some a), true)) ∧
    (d.kind = .type_ → k = .typeName → d.getTypeName (h.setKind (some a) k) = some (h.text (some a), true)) := by
  have hlt : ∀ {p l}, Fwd h p l → ∀ x ∈ l, x < h.size := by
    intro p l f
    induction f with
    | nil => simp
    | cons hx _ ih =>
      intro y hy
      rcases List.mem_cons.1 hy with rfl | hy
      · exact hx
      · exact ih y hy
  have f' : Fwd (h.setKind (some a) k) d.node (pre ++ a :: post) := by
    revert f
    generalize d.node = p
    generalize pre ++ a :: post = l
    intro f
    induction f with
    | nil => exact .nil
    | cons ha _ ih => exact .cons (by simpa using ha) (by simpa using ih)
  have ka : (h.setKind (some a) k).kind (some a) = k := by
    rw [kind_setKind h a k (some a) (hlt f a (by simp))]; simp
  have first : FirstOf k ((pre ++ a :: post).map (kt (h.setKind (some a) k))) (h.text (some a)) := by
    refine ⟨pre.map (kt (h.setKind (some a) k)), post.map (kt (h.setKind (some a) k)), ?_, ?_⟩
    · simp [kt, ka]
    · intro x hx
      obtain ⟨b, hb, rfl⟩ := List.mem_map.1 hx
      obtain ⟨h1, h2⟩ := hp b hb
      simp only [kt, kind_setKind h a k (some b) (hlt f a (by simp))]
      simpa [h1] using h2
  refine ⟨fun hd hk => ?_, fun hd hk => ?_⟩
  · subst hk; exact (C76_func hd f').1 _ first
  · subst hk; exact (C76_type hd f').1 _ first

/-! ## Witness -/

/-- A method is parsed; its name and then its receiver type are renamed: the getters say so. -/
example : (match parseScope Heap.empty 0 b!"func (r T) M(x int) error {}\n" with
    | some (h, [d]) =>
      let named := fun k => (List.range h.size).find? fun a => decide (h.kind (some a) = k)
      let h1 := h.setText (named .funcName) b!"N"
      let h2 := h1.setText (named .methodReceiverType) b!"*U"
      [d.getFuncName h, d.getMethodReceiver h, d.getFuncName h2, d.getMethodName h2, d.getMethodReceiver h2]
    | _ => []) = [some (b!"M", true), some (b!"T", true), some (b!"N", true), some (b!"N", true), some (b!"*U", true)] := by decide +kernel

end Goast
