import Verif.Spec.Lost
import Verif.Proofs.Division
import Verif.Proofs.AliasType
import Verif.Props.Ast

/-!
# C14, C15, C54: what parsing does to the text
-/

set_option linter.unusedSimpArgs false
set_option linter.unusedVariables false
set_option maxRecDepth 100000

namespace Goast
open Heap

variable {ord : Nat → List (Bytes × Ext)} {h : Heap}

theorem OnlyCommentsLost.of_sublist {h : Heap} {kept l : List Addr} (s : kept.Sublist l) : l.Nodup →
    (∀ a ∈ l, a ∉ kept → h.kind (some a) = .comment) → OnlyCommentsLost h l kept := by
  induction s with
  | slnil => exact fun _ _ => .nil
  | @cons m l a s ih =>
    intro nd hl
    rw [List.nodup_cons] at nd
    exact .lose (hl a (by simp) (fun hh => nd.1 (s.subset hh))) (ih nd.2 (fun b hb => hl b (by simp [hb])))
  | @cons_cons m l a s ih =>
    intro nd hl
    rw [List.nodup_cons] at nd
    refine .keep (ih nd.2 (fun b hb hn => hl b (by simp [hb]) ?_))
    simp only [List.mem_cons, not_or]
    exact ⟨fun hh => nd.1 (hh ▸ hb), hn⟩

theorem OnlyCommentsLost.refl (h : Heap) : ∀ l, OnlyCommentsLost h l l
  | [] => .nil
  | _ :: l => .keep (OnlyCommentsLost.refl h l)

theorem OnlyCommentsLost.append {h : Heap} {l k l' k' : List Addr} (a : OnlyCommentsLost h l k)
    (b : OnlyCommentsLost h l' k') : OnlyCommentsLost h (l ++ l') (k ++ k') := by
  induction a with
  | nil => exact b
  | keep _ ih => exact .keep ih
  | lose hc _ ih => exact .lose hc ih

theorem OnlyCommentsLost.eq {h : Heap} {l k : List Addr} (o : OnlyCommentsLost h l k)
    (hn : ∀ a ∈ l, h.kind (some a) ≠ .comment) : k = l := by
  induction o with
  | nil => rfl
  | keep _ ih => rw [ih fun b hb => hn b (by simp [hb])]
  | lose hc _ _ => exact absurd hc (hn _ (by simp))

theorem OnlyCommentsLost.sublist {h : Heap} {l k : List Addr} (o : OnlyCommentsLost h l k) : k.Sublist l := by
  induction o with
  | nil => exact .refl _
  | keep _ ih => exact ih.cons_cons _
  | lose _ _ ih => exact ih.cons _

theorem textOf_congr {h h' : Heap} : ∀ (l : List Addr), (∀ a ∈ l, h'.text (some a) = h.text (some a)) →
    textOf h' l = textOf h l
  | [], _ => rfl
  | a :: l, hl => by rw [textOf_cons, textOf_cons, hl a (by simp), textOf_congr l fun b hb => hl b (by simp [hb])]

/-- One group of a parse. -/
theorem group_text {startLine : Int} {text : Bytes} {h1 : Heap} {p : Ptr} {l : List Addr} {st : ParseSt} {h' : Heap}
    (P : Parsed ord h startLine text h1 p l st h') {g : List Addr} (hg : g ∈ (divide h1 (startLine - 1) l).2) (hs : Safe h1 g) :
    ∃ l' kept, Fwd h' g.head? l' ∧ OnlyCommentsLost h1 g kept ∧ textOf h' l' = textOf h1 kept ∧
      (¬ Rebuilt h1 g → kept = g) := by
  obtain ⟨a, g', rfl⟩ := List.exists_cons_of_ne_nil (divide_ne_nil _ _ _ g hg)
  obtain ⟨x1, x2, r, w, ac, ch, sz, s1, e, s2, sz'⟩ := (P.group3 _ hg).ex
  have d1 : ∀ b ∈ a :: g', x1.kind (some b) = h1.kind (some b) ∧ x1.text (some b) = h1.text (some b) := by
    intro b hb
    have := (s1 b hb).2.2
    simp only [data, Prod.mk.injEq] at this
    rw [this.2.1, this.2.2, (P.data2.2 _).2.1, (P.data2.2 _).2.2]
    exact ⟨rfl, rfl⟩
  have d2 : ∀ b ∈ a :: g', h'.text (some b) = x2.text (some b) := by
    intro b hb
    have := (s2 b hb).2.2
    simp only [data, Prod.mk.injEq] at this
    exact this.2.2
  have nd := ch.nodup
  have sub : (a :: g').Sublist l := by
    conv => rhs; rw [← divide_flatten h1 l (startLine - 1)]
    exact (List.sublist_flatten_of_mem hg).trans (List.sublist_append_right _ _)
  have lt : ∀ b ∈ a :: g', b < h'.size := by
    intro b hb
    rw [P.size3, P.data2.1]
    exact P.chain.1 b (sub.subset hb)
  have fin : ∀ l', Chain x2 l' → l'.Sublist (a :: g') → l'.head? = some a → Fwd h' (some a) l' := by
    intro l' c s hh
    rw [← hh]
    exact c.fwd.congr (fun b hb => lt b (s.subset hb)) (fun b hb => (s2 b (s.subset hb)).1)
  by_cases ht : ¬ Rebuilt h1 (a :: g')
  · simp only [Rebuilt, List.head?_cons, not_or] at ht
    rw [← (d1 a (by simp)).1] at ht
    have := C17_resetKind_other (h := x1) (n := some a) ht.1 ht.2
    rw [List.head?_cons, this] at e
    simp only [Option.some.injEq, Prod.mk.injEq] at e
    obtain ⟨rfl, rfl⟩ := e
    refine ⟨a :: g', a :: g', fin _ ch (.refl _) rfl, .refl _ _, ?_, fun _ => rfl⟩
    exact textOf_congr _ fun b hb => by rw [d2 b hb, (d1 b hb).2]
  · have red : Red x1 (a :: g') x2 := by
      by_cases hk : x1.kind (some a) = .type_
      · have hks : kindsOf x1 (a :: g') = kindsOf h1 (a :: g') := by
          unfold kindsOf
          exact List.map_congr_left fun b hb => (d1 b hb).1
        obtain ⟨y, r', e', R⟩ := resetKind_red_type w ac ch (by
          rw [hks]; exact hs (by rw [List.head?_cons, ← (d1 a (by simp)).1]; exact hk)) hk
        rw [List.head?_cons, e'] at e
        simp only [Option.some.injEq, Prod.mk.injEq] at e
        obtain ⟨rfl, rfl⟩ := e
        exact R
      · obtain ⟨y, r', e', R⟩ := resetKind_red_func w ac ch (a := a) (by simp) hk
        rw [List.head?_cons, e'] at e
        simp only [Option.some.injEq, Prod.mk.injEq] at e
        obtain ⟨rfl, rfl⟩ := e
        exact R
    obtain ⟨l', K, R⟩ := red
    refine ⟨l', l'.flatMap K, fin _ R.chain R.sub (by rw [R.head]; rfl), ?_, ?_, fun hh => absurd hh ht⟩
    · refine OnlyCommentsLost.of_sublist R.kept nd (fun b hb hn => ?_)
      rw [← (d1 b hb).1]; exact R.lost b hb hn
    · rw [textOf_congr l' fun b hb => d2 b (R.sub.subset hb), textOf_flatMap l' R.text]
      exact textOf_congr _ fun b hb => (d1 b (R.kept.subset hb)).2

/-! ## C14 -/

theorem CommentsLost.of {h : Heap} {l kept : List Addr} (o : OnlyCommentsLost h l kept) : CommentsLost (l.map (kt h)) (kept.map (kt h)) := by
  induction o with
  | nil => exact .nil
  | keep _ ih => exact .keep ih
  | lose hk _ ih => exact .lose hk ih

theorem safe_iff {h : Heap} {g : List Addr} (ne : g ≠ []) : SafeSection (g.map (kt h)) ↔ Safe h g := by
  obtain ⟨a, g, rfl⟩ := List.exists_cons_of_ne_nil ne
  simp only [SafeSection, Safe, List.map_cons, List.head?_cons, Option.map_some, Option.some.injEq, kindsOf, List.map_map]
  exact Iff.rfl

theorem rebuilt_iff {h : Heap} {g : List Addr} (ne : g ≠ []) : RebuiltSection (g.map (kt h)) ↔ Rebuilt h g := by
  obtain ⟨a, g, rfl⟩ := List.exists_cons_of_ne_nil ne
  simp only [RebuiltSection, Rebuilt, List.map_cons, List.head?_cons, Option.map_some, Option.some.injEq]
  exact Iff.rfl

/-- **C14** scope by scope.  The scopes are the sections of the text.  The scope of a section that is `SafeSection` has in the end the
concatenated texts of the tokens of its section, in order, except that comments may be missing; and nothing is missing if the section does
not begin with the keyword `func` or `type`. -/
theorem C14_scope (ho : MapOrder ord) (w : WF h) (ac : Acyclic h) (startLine : Int) (text : Bytes) :
    ∃ h' scs, parseScopeOrd ord h startLine text = some (h', scs) ∧ scs.length = (sectionsOf startLine text).2.length ∧
      ∀ (i : Nat) (sc : ScopeRec) (g : List Token), scs[i]? = some sc → (sectionsOf startLine text).2[i]? = some g → SafeSection g →
        ∃ l' kept, Fwd h' sc.node l' ∧ CommentsLost g kept ∧ textOf h' l' = tokText kept ∧ (¬ RebuiltSection g → kept = g) := by
  obtain ⟨h1, p, l, st, h', P⟩ := parsed ho w ac startLine text
  refine ⟨h', st.scs, P.parse, by rw [P.scs, P.sections ho]; simp, ?_⟩
  intro i sc g hsc hg hs
  rw [P.scs, List.getElem?_map] at hsc
  rw [P.sections ho, List.getElem?_map] at hg
  cases hd : (divide h1 (startLine - 1) l).2[i]? with
  | none => rw [hd] at hsc; cases hsc
  | some gg =>
    rw [hd] at hsc hg
    simp only [Option.map_some, Option.some.injEq] at hsc hg
    subst hsc hg
    have hm := List.mem_of_getElem? hd
    have ne := divide_ne_nil _ _ _ gg hm
    obtain ⟨l', kept, f, oc, e, nr⟩ := group_text P hm ((safe_iff ne).1 hs)
    refine ⟨l', kept.map (kt h1), f, .of oc, by rw [e, tokText_kt], fun hr => by rw [nr (fun r => hr ((rebuilt_iff ne).2 r))]⟩

theorem all_groups_text {startLine : Int} {text : Bytes} {h1 : Heap} {p : Ptr} {l : List Addr} {st : ParseSt} {h' : Heap}
    (P : Parsed ord h startLine text h1 p l st h') : ∀ (gs : List (List Addr)),
    (∀ g ∈ gs, g ∈ (divide h1 (startLine - 1) l).2) → (∀ g ∈ gs, Safe h1 g) →
    ∃ lss kept, ScopeNodes h' (gs.map (scopeOf h1)) lss ∧ OnlyCommentsLost h1 gs.flatten kept ∧
      allText h' lss = textOf h1 kept ∧
      ((∀ g ∈ gs, Rebuilt h1 g → ∀ a ∈ g, h1.kind (some a) ≠ .comment) → kept = gs.flatten)
  | [], _, _ => ⟨[], [], .nil, .nil, rfl, fun _ => rfl⟩
  | g :: gs, hm, hs => by
    obtain ⟨lss, kept, a1, a2, a3, a4⟩ := all_groups_text P gs (fun x hx => hm x (by simp [hx])) (fun x hx => hs x (by simp [hx]))
    obtain ⟨l', k, b1, b2, b3, b4⟩ := group_text P (hm g (by simp)) (hs g (by simp))
    refine ⟨l' :: lss, k ++ kept, .cons b1 a1, by rw [List.flatten_cons]; exact b2.append a2, ?_, ?_⟩
    · rw [textOf_append, ← a3, ← b3]
      simp [allText, textOf]
    · intro hc
      rw [List.flatten_cons, a4 fun x hx => hc x (by simp [hx])]
      by_cases hr : Rebuilt h1 g
      · rw [b2.eq (hc g (by simp) hr)]
      · rw [b4 hr]

/-- **C14** the whole text.  If all sections are `SafeSection`, what `Save` concatenates (`allText`, see C37) is the text of
all sections, except that comments may be missing. -/
theorem C14_text (ho : MapOrder ord) (w : WF h) (ac : Acyclic h) {startLine : Int} {text : Bytes}
    (safe : ∀ g ∈ (sectionsOf startLine text).2, SafeSection g) :
    ∃ h' scs lss kept, parseScopeOrd ord h startLine text = some (h', scs) ∧ ScopeNodes h' scs lss ∧
      tokText (sectionsOf startLine text).1 ++ tokText (sectionsOf startLine text).2.flatten = text ∧
      CommentsLost (sectionsOf startLine text).2.flatten kept ∧ allText h' lss = tokText kept := by
  obtain ⟨h1, p, l, st, h', P⟩ := parsed ho w ac startLine text
  rw [P.sections ho] at safe ⊢
  obtain ⟨lss, kept, a1, a2, a3, _⟩ := all_groups_text P _ (fun _ h => h)
    (fun g hg => (safe_iff (divide_ne_nil _ _ _ g hg)).1 (safe _ (List.mem_map.2 ⟨g, hg, rfl⟩)))
  have fl := divide_flatten h1 l (startLine - 1)
  refine ⟨h', st.scs, lss, kept.map (kt h1), P.parse, by rw [P.scs]; exact a1, ?_, ?_, by rw [a3, tokText_kt]⟩
  · simp only
    rw [← List.map_flatten, tokText_kt, tokText_kt, ← textOf_append, fl, P.texts]
  · simp only
    rw [← List.map_flatten]; exact .of a2

/-- Byte for byte, on the groups of nodes. -/
theorem identical_groups (ho : MapOrder ord) (w : WF h) (ac : Acyclic h) {startLine : Int} {text : Bytes} {h1 : Heap} {p : Ptr}
    {l : List Addr} (e : extractOrd ord h text = some (h1, p)) (f : Fwd h1 p l)
    (safe : ∀ g ∈ (divide h1 (startLine - 1) l).2, Safe h1 g)
    (nocomm : ∀ g ∈ (divide h1 (startLine - 1) l).2, Rebuilt h1 g → ∀ a ∈ g, h1.kind (some a) ≠ .comment) :
    ∃ h' scs lss, parseScopeOrd ord h startLine text = some (h', scs) ∧ ScopeNodes h' scs lss ∧
      textOf h1 (divide h1 (startLine - 1) l).1 ++ allText h' lss = text := by
  obtain ⟨h1', p', l', st, h', P⟩ := parsed ho w ac startLine text
  have := P.extract
  rw [e] at this
  simp only [Option.some.injEq, Prod.mk.injEq] at this
  obtain ⟨rfl, rfl⟩ := this
  cases f.det P.fwd
  obtain ⟨lss, kept, a1, a2, a3, a4⟩ := all_groups_text P _ (fun _ h => h) safe
  refine ⟨h', st.scs, lss, P.parse, by rw [P.scs]; exact a1, ?_⟩
  rw [a3, a4 nocomm, ← textOf_append, divide_flatten, P.texts]

/-- **C14** byte for byte.  If all sections are `SafeSection` and those that begin with `func` or `type` hold no comments,
what `Save` concatenates is the text from the first section on. -/
theorem C14_identical (ho : MapOrder ord) (w : WF h) (ac : Acyclic h) {startLine : Int} {text : Bytes}
    (safe : ∀ g ∈ (sectionsOf startLine text).2, SafeSection g)
    (nocomm : ∀ g ∈ (sectionsOf startLine text).2, RebuiltSection g → ∀ t ∈ g, t.1 ≠ .comment) :
    ∃ h' scs lss, parseScopeOrd ord h startLine text = some (h', scs) ∧ ScopeNodes h' scs lss ∧
      tokText (sectionsOf startLine text).1 ++ allText h' lss = text := by
  obtain ⟨h1, p, l, st, h', P⟩ := parsed ho w ac startLine text
  rw [P.sections ho] at safe nocomm ⊢
  have mem : ∀ g ∈ (divide h1 (startLine - 1) l).2, g.map (kt h1) ∈ (divide h1 (startLine - 1) l).2.map (List.map (kt h1)) :=
    fun g hg => List.mem_map.2 ⟨g, hg, rfl⟩
  obtain ⟨h'', scs, lss, q1, q2, q3⟩ := identical_groups ho w ac P.extract P.fwd (startLine := startLine)
    (fun g hg => (safe_iff (divide_ne_nil _ _ _ g hg)).1 (safe _ (mem g hg)))
    (fun g hg hr a ha => nocomm _ (mem g hg) ((rebuilt_iff (divide_ne_nil _ _ _ g hg)).2 hr) (kt h1 a) (List.mem_map.2 ⟨a, ha, rfl⟩))
  exact ⟨h'', scs, lss, q1, q2, by simpa only [tokText_kt] using q3⟩

/-! ### The hypotheses of C14 on plain text -/

/-- The kinds of the pieces of a text, see C04. -/
def kindsOfText (text : Bytes) : List Kind := (lexAll text).map fun x => if x.comment then .comment else Kind.new x.text

theorem kindsOf_extract (ho : MapOrder ord) {text : Bytes} {h1 : Heap} {p : Ptr} {l : List Addr}
    (e : extractOrd ord h text = some (h1, p)) (f : Fwd h1 p l) : kindsOf h1 l = kindsOfText text := by
  obtain ⟨h1', p', l', e', f', k⟩ := C04_flat ho h text
  rw [e] at e'
  simp only [Option.some.injEq, Prod.mk.injEq] at e'
  obtain ⟨rfl, rfl⟩ := e'
  cases f.det f'
  have := congrArg (List.map Prod.fst) k
  simpa [kindsOf, kindsOfText, Function.comp_def] using this

/-- A text in which no piece is a comment, and in which there is no keyword `type` or no `(`. -/
theorem plain_groups (ho : MapOrder ord) {text : Bytes} {h1 : Heap} {p : Ptr} {l : List Addr}
    (e : extractOrd ord h text = some (h1, p)) (f : Fwd h1 p l) (hc : Kind.comment ∉ kindsOfText text)
    (ht : Kind.type_ ∉ kindsOfText text ∨ Kind.parenL ∉ kindsOfText text) (prev : Int) :
    ∀ g ∈ (divide h1 prev l).2, Safe h1 g ∧ ∀ a ∈ g, h1.kind (some a) ≠ .comment := by
  rw [← kindsOf_extract ho e f] at hc ht
  intro g hg
  have sub : g ⊆ l := by
    intro a ha
    rw [← divide_flatten h1 l prev]
    exact List.mem_append_right _ (List.mem_flatten.2 ⟨g, hg, ha⟩)
  have mem : ∀ a ∈ g, h1.kind (some a) ∈ kindsOf h1 l := fun a ha => List.mem_map.2 ⟨a, sub ha, rfl⟩
  refine ⟨?_, fun a ha hk => hc (hk ▸ mem a ha)⟩
  intro hk
  obtain ⟨a, g', rfl⟩ := List.exists_cons_of_ne_nil (divide_ne_nil _ _ _ g hg)
  rcases ht with ht | ht
  · exact absurd (hk ▸ mem a (by simp)) ht
  · refine Ok.of_no_paren _ _ ?_
    intro hh
    obtain ⟨b, hb, hb'⟩ := List.mem_map.1 hh
    exact ht (hb' ▸ mem b hb)

/-- **C14** on plain text: a text without comments, and without the keyword `type` or without `(`, comes out byte
for byte, from the first scope on. -/
theorem C14_plain (ho : MapOrder ord) (w : WF h) (ac : Acyclic h) (startLine : Int) (text : Bytes)
    (hc : Kind.comment ∉ kindsOfText text) (ht : Kind.type_ ∉ kindsOfText text ∨ Kind.parenL ∉ kindsOfText text) :
    ∃ h' scs lss lead, parseScopeOrd ord h startLine text = some (h', scs) ∧ ScopeNodes h' scs lss ∧
      lead ++ allText h' lss = text := by
  obtain ⟨h1, p, l, e, f, _⟩ := C01_lossless ho h text
  have pg := plain_groups ho e f hc ht (startLine - 1)
  obtain ⟨h', scs, lss, a, b, c⟩ := identical_groups ho w ac e f (fun g hg => (pg g hg).1) (fun g hg _ => (pg g hg).2)
  exact ⟨h', scs, lss, _, a, b, c⟩

example : Kind.comment ∉ kindsOfText b!"package a\n\nfunc (s *S) Get(k string) ([]int, error) { return f(k) }\n" ∧
    Kind.type_ ∉ kindsOfText b!"package a\n\nfunc (s *S) Get(k string) ([]int, error) { return f(k) }\n" := by decide +kernel

/-- Usual type declarations are safe, also with `(` in them. -/
example : Ok .name (kindsOfText b!"type T struct {\n\tA, B int\n\tF func(int) (string, error)\n}\n\n") ∧
    Ok .name (kindsOfText b!"type I[K any] interface {\n\tGet(k K) (int, error)\n\tSet(k K, v int)\n\tfmt.Stringer\n}\n") ∧
    Ok .name (kindsOfText b!"type F func(a int) error\n") ∧
    Ok .name (kindsOfText b!"type (\n\tA int\n\tB func(int)\n)\n") ∧
    Ok .name (kindsOfText b!"type M map[string]pkg.T\n") := by decide +kernel

/-- The sections of a small file: all are safe; the one that begins with `type` holds a comment, the one that begins with `func` does not. -/
example : (sectionsOf 0 b!"package a\n\ntype T struct { // t\n\tF func(int) (string, error)\n}\n\nfunc f(t T) { g(t) }\n").2.map
      (fun g => (tokText g, decide (SafeSection g), decide (RebuiltSection g), decide (∀ t ∈ g, t.1 ≠ .comment))) =
    [(b!"package a\n\n", true, false, true), (b!"type T struct { // t\n\tF func(int) (string, error)\n}\n\n", true, true, false),
     (b!"func f(t T) { g(t) }\n", true, true, true)] := by decide +kernel

/-- This one is not, see C15. -/
example : ¬ Ok .name (kindsOfText b!"type A <-chan (map[string]X)\n") := by decide +kernel

/-! ### Nothing before the first scope -/

theorem lex_begins : ∀ (text : Bytes) (m : Mode) (buf : Bytes), buf ≠ [] →
    ∃ x xs t, lex m buf text = x :: xs ∧ x.text = buf ++ t
  | [], m, buf, hb => ⟨⟨buf, false⟩, [], [], by simp [lex, word, hb], by simp⟩
  | c :: text, m, buf, hb => by
    have ih := fun m => lex_begins text m (buf ++ [c]) (by simp)
    have ih' : ∀ m, ∃ x xs t, lex m (buf ++ [c]) text = x :: xs ∧ x.text = buf ++ t := by
      intro m
      obtain ⟨x, xs, t, h1, h2⟩ := ih m
      exact ⟨x, xs, c :: t, h1, by rw [h2]; simp⟩
    have wd : ∀ ys, ∃ x xs t, word buf ++ ys = x :: xs ∧ x.text = buf ++ t :=
      fun ys => ⟨⟨buf, false⟩, ys, [], by simp [word, hb], by simp⟩
    cases m with
    | code =>
      unfold lex
      split
      · exact wd _
      · split
        · exact wd _
        · split
          · exact wd _
          · split
            · exact wd _
            · split
              · exact wd _
              · exact ih' _
    | lineComment => 
      unfold lex
      split
      · exact ⟨_, _, [], rfl, by simp⟩
      · exact ih' _
    | blockComment => 
      unfold lex
      split
      · exact ⟨_, _, [c], rfl, rfl⟩
      · exact ih' _
    | str => 
      unfold lex
      split
      · exact ⟨_, _, [c], rfl, rfl⟩
      · exact ih' _
    | rawStr => 
      unfold lex
      split
      · exact ⟨_, _, [c], rfl, rfl⟩
      · exact ih' _

theorem lex_word_prefix : ∀ (wd buf rest : Bytes), (∀ c ∈ wd, c ≠ 47 ∧ c ≠ 34 ∧ c ≠ 96 ∧ c ∉ separatorBytes) →
    lex .code buf (wd ++ rest) = lex .code (buf ++ wd) rest
  | [], buf, rest, _ => by simp
  | c :: wd, buf, rest, hw => by
    obtain ⟨a, b, d, e⟩ := hw c (by simp)
    rw [List.cons_append, lex]
    simp only [a, b, d, e, false_and, if_false]
    rw [lex_word_prefix wd _ rest fun x hx => hw x (by simp [hx])]
    simp

/-- A text that begins with a keyword: so does its first piece. -/
theorem lexAll_keyword {kw : Bytes} {k : ScopeKind} (hk : (kw, k) ∈ scopeKeywords) (rest : Bytes) :
    ∃ x xs t, lexAll (kw ++ rest) = x :: xs ∧ x.text = kw ++ t := by
  have cases3 : ∀ q ∈ scopeKeywords, q.1 = [47, 47] ∨ q.1 = [47, 42] ∨
      (q.1 ≠ [] ∧ ∀ c ∈ q.1, c ≠ 47 ∧ c ≠ 34 ∧ c ≠ 96 ∧ c ∉ separatorBytes) := by decide +kernel
  rcases cases3 _ hk with h | h | ⟨h1, h2⟩
  · simp only at h
    subst h
    have : lexAll ([47, 47] ++ rest) = lex .lineComment [47, 47] rest := by
      simp [lexAll, lex, word]
    rw [this]
    exact lex_begins _ _ _ (by simp)
  · simp only at h
    subst h
    have : lexAll ([47, 42] ++ rest) = lex .blockComment [47, 42] rest := by
      simp [lexAll, lex, word]
    rw [this]
    exact lex_begins _ _ _ (by simp)
  · simp only at h1 h2
    rw [lexAll, lex_word_prefix kw [] rest h2]
    simpa using lex_begins rest .code kw h1

/-- `ParseAst` parses with start line 0, so nothing precedes the first scope of a text that begins with a keyword. -/
theorem lead_nil (ho : MapOrder ord) {kw rest : Bytes} {k : ScopeKind} (hk : (kw, k) ∈ scopeKeywords)
    {h1 : Heap} {p : Ptr} {l : List Addr} (e : extractOrd ord h (kw ++ rest) = some (h1, p)) (f : Fwd h1 p l) :
    (divide h1 (0 - 1) l).1 = [] := by
  obtain ⟨x, xs, t, hx, ht⟩ := lexAll_keyword hk rest
  obtain ⟨h1', p', l', e', f', kt⟩ := C04_flat ho h (kw ++ rest)
  rw [e] at e'
  simp only [Option.some.injEq, Prod.mk.injEq] at e'
  obtain ⟨rfl, rfl⟩ := e'
  cases f.det f'
  rw [hx] at kt
  cases l with
  | nil => rfl
  | cons a l =>
    simp only [List.map_cons, List.cons.injEq, Prod.mk.injEq] at kt
    have hl : 0 ≤ h1.line (some a) := by
      rcases C06_lines (l₁ := []) ho e f with h | ⟨_, h, h'⟩ | ⟨_, h⟩ <;> omega
    have : Opens h1 (0 - 1) a := by
      refine ⟨by omega, ?_⟩
      rw [kt.1.2, ht]
      intro hu
      exact (C45_newScopeKind_unknown _).1 hu kw k hk ⟨t, rfl⟩
    simp only [divide, this, if_true]

/-! ## C15 -/

/-- **C15** A comment can disappear. -/
theorem C15_comment_lost : scopeTexts 0 b!"func (m *M) Start() []/*c*/T {}\n" =
    some [(.func_, 1, b!"func (m *M) Start() []T {}\n")] := by cbv

/-- **C15** Text can be duplicated. -/
theorem C15_duplicated : scopeTexts 0 b!"type A <-chan (map[string]X)\n" =
    some [(.type_, 1, b!"type A <-chan (map[string]string]X)[string]X)\n")] := by cbv

/-- **C15** So parsing does not keep the text of every scope. -/
theorem C15_not_preserved : ¬ ∀ text : Bytes, startsScope text = true →
    ∃ ts, scopeTexts 0 text = some ts ∧ (ts.map (·.2.2)).flatten = text := by
  intro hh
  obtain ⟨ts, h1, h2⟩ := hh b!"type A <-chan (map[string]X)\n" (by decide)
  rw [C15_duplicated] at h1
  simp only [Option.some.injEq] at h1
  subst h1
  revert h2
  decide +kernel

/-! ## C54 -/

/-- Parse and save, on the groups of nodes. -/
theorem roundtrip_groups (env : Env) (spare : Nat) (fs : FS) (st : AState) (w : WF st.heap) (ac : Acyclic st.heap)
    {file name buf data : Bytes} (hn : IsGoName file name)
    (hf : fs name = some buf) (o1 : env.openDenied name = false) (o2 : env.readFails name = false)
    (o3 : env.formatSource buf = some data) {h1 : Heap} {p : Ptr} {l : List Addr}
    (e : extract st.heap data = some (h1, p)) (f : Fwd h1 p l)
    (safe : ∀ g ∈ (divide h1 (0 - 1) l).2, Safe h1 g)
    (nocomm : ∀ g ∈ (divide h1 (0 - 1) l).2, Rebuilt h1 g → ∀ a ∈ g, h1.kind (some a) ≠ .comment)
    (hp : ∃ g ∈ (divide h1 (0 - 1) l).2, newScopeKind (h1.text g.head?) = .package_) :
    ∃ st' ast tail, parseAst env spare fs st file = some (.ok (st', ast)) ∧
      textOf h1 (divide h1 (0 - 1) l).1 ++ tail = data ∧
      ∀ fs' out ai, ast.save env fs' st' out ai = some (saveFile env fs' out tail ai) := by
  obtain ⟨h', scs, lss, q1, q2, q3⟩ := identical_groups mapOrder_id w ac (startLine := 0) e f safe nocomm
  obtain ⟨h2, scs2, r1, _, r3⟩ := C39_parsed env spare fs st w ac hn hf o1 o2 o3
  have r1' : parseScopeOrd (fun _ => commonDeeperExtract) st.heap 0 data = some (h2, scs2) := r1
  rw [q1] at r1'
  simp only [Option.some.injEq, Prod.mk.injEq] at r1'
  obtain ⟨rfl, rfl⟩ := r1'
  obtain ⟨h1x, px, lx, stx, h'x, P⟩ := parsed mapOrder_id w ac 0 data
  have e1 := P.extract
  have e' : extractOrd (fun _ => commonDeeperExtract) st.heap data = some (h1, p) := e
  rw [e'] at e1
  simp only [Option.some.injEq, Prod.mk.injEq] at e1
  obtain ⟨rfl, rfl⟩ := e1
  cases f.det P.fwd
  have e2 := P.parse
  rw [q1] at e2
  simp only [Option.some.injEq, Prod.mk.injEq] at e2
  obtain ⟨rfl, rfl⟩ := e2
  obtain ⟨g, hg, hk⟩ := hp
  obtain ⟨st', ast, s1, _, _, _, _, s2, s3, _⟩ := r3 ⟨scopeOf h1 g, by rw [P.scs]; exact List.mem_map.2 ⟨g, hg, rfl⟩, hk⟩
  refine ⟨st', ast, allText h' lss, s1, q3, ?_⟩
  intro fs' out ai
  have sn : ScopeNodes st'.heap (ast.scopes st') lss := by rw [s2, s3]; exact q2
  rw [C37_save_writes_scopes env fs' st' ast out ai sn, s3]

/-- **C54** Parse and save.  If the formatter made `data` of the file, some section of `data` begins with `package`, and all sections are
`SafeSection` and those that begin with `func` or `type` hold no comments, then `ParseAst` succeeds, and `Save` on the result hands `data`,
from the first section on, to `SaveFile` (see C37). -/
theorem C54_roundtrip (env : Env) (spare : Nat) (fs : FS) (st : AState) (w : WF st.heap) (ac : Acyclic st.heap)
    {file name buf data : Bytes} (hn : IsGoName file name)
    (hf : fs name = some buf) (o1 : env.openDenied name = false) (o2 : env.readFails name = false)
    (o3 : env.formatSource buf = some data)
    (safe : ∀ g ∈ (sectionsOf 0 data).2, SafeSection g)
    (nocomm : ∀ g ∈ (sectionsOf 0 data).2, RebuiltSection g → ∀ t ∈ g, t.1 ≠ .comment)
    (hp : ∃ g ∈ (sectionsOf 0 data).2, ∃ t, g.head? = some t ∧ b!"package" <+: t.2) :
    ∃ st' ast tail, parseAst env spare fs st file = some (.ok (st', ast)) ∧
      tokText (sectionsOf 0 data).1 ++ tail = data ∧
      ∀ fs' out ai, ast.save env fs' st' out ai = some (saveFile env fs' out tail ai) := by
  obtain ⟨h1, p, l, sp, h', P⟩ := parsed mapOrder_id w ac 0 data
  rw [P.sections mapOrder_id] at safe nocomm hp ⊢
  have mem : ∀ g ∈ (divide h1 (0 - 1) l).2, g.map (kt h1) ∈ (divide h1 (0 - 1) l).2.map (List.map (kt h1)) :=
    fun g hg => List.mem_map.2 ⟨g, hg, rfl⟩
  obtain ⟨st', ast, tail, s1, s2, s3⟩ := roundtrip_groups env spare fs st w ac hn hf o1 o2 o3 P.extract P.fwd
    (fun g hg => (safe_iff (divide_ne_nil _ _ _ g hg)).1 (safe _ (mem g hg)))
    (fun g hg hr a ha => nocomm _ (mem g hg) ((rebuilt_iff (divide_ne_nil _ _ _ g hg)).2 hr) (kt h1 a) (List.mem_map.2 ⟨a, ha, rfl⟩))
    (by
      obtain ⟨g, hg, t, ht, u, hu⟩ := hp
      obtain ⟨gg, hgg, rfl⟩ := List.mem_map.1 hg
      refine ⟨gg, hgg, ?_⟩
      obtain ⟨a, gg, rfl⟩ := List.exists_cons_of_ne_nil (divide_ne_nil _ _ _ gg hgg)
      cases ht
      rw [List.head?_cons, show h1.text (some a) = b!"package" ++ u from hu.symm]
      exact (C45_newScopeKind_some _ _ (by decide)).2 ⟨_, u, by decide, rfl⟩)
  exact ⟨st', ast, tail, s1, by simpa only [tokText_kt] using s2, s3⟩

/-- **C54** A formatted file without comments that begins `package NAME` and holds no keyword `type` or no `(`:
parsing it and saving it under the same name leaves all files as they were. -/
theorem C54_plain (env : Env) (spare : Nat) (fs : FS) (st : AState) (w : WF st.heap) (ac : Acyclic st.heap)
    {file name rest : Bytes} (hn : IsGoName file name)
    (hf : fs name = some (b!"package " ++ rest)) (o1 : env.openDenied name = false) (o2 : env.readFails name = false)
    (o3 : env.formatSource (b!"package " ++ rest) = some (b!"package " ++ rest))
    (hc : Kind.comment ∉ kindsOfText (b!"package " ++ rest))
    (ht : Kind.type_ ∉ kindsOfText (b!"package " ++ rest) ∨ Kind.parenL ∉ kindsOfText (b!"package " ++ rest))
    (o4 : env.mkdirOk (env.dir name) = true) (o5 : env.createOk name = true)
    (o6 : env.writeFailsAfter name (b!"package " ++ rest) = none) :
    ∃ st' ast, parseAst env spare fs st file = some (.ok (st', ast)) ∧
      ast.save env fs st' file [] = some (fs, none) := by
  obtain ⟨h1, p, l, e, f, _⟩ := C01_lossless mapOrder_id st.heap (b!"package " ++ rest)
  have pg := plain_groups mapOrder_id e f hc ht (0 - 1)
  have hk : (b!"package", ScopeKind.package_) ∈ scopeKeywords := by decide
  have ln := lead_nil mapOrder_id (rest := 32 :: rest) hk e f
  have hpk : ∃ g ∈ (divide h1 (0 - 1) l).2, newScopeKind (h1.text g.head?) = .package_ := by
    obtain ⟨x, xs, t, hx, ht'⟩ := lexAll_keyword hk (32 :: rest)
    obtain ⟨h1', p', l', e', f', kt⟩ := C04_flat mapOrder_id st.heap (b!"package " ++ rest)
    rw [e] at e'
    simp only [Option.some.injEq, Prod.mk.injEq] at e'
    obtain ⟨rfl, rfl⟩ := e'
    cases f.det f'
    have hx' : lexAll (b!"package " ++ rest) = x :: xs := hx
    rw [hx'] at kt
    cases l with
    | nil => simp at kt
    | cons a l =>
      simp only [List.map_cons, List.cons.injEq, Prod.mk.injEq] at kt
      have O : Opens h1 (0 - 1) a := by
        by_cases O : Opens h1 (0 - 1) a
        · exact O
        · simp only [divide, if_neg O] at ln
          cases ln
      refine ⟨a :: (divide h1 (h1.line (some a)) l).1, by simp only [divide, if_pos O]; exact List.mem_cons_self, ?_⟩
      rw [List.head?_cons, kt.1.2, ht']
      exact (C45_newScopeKind_some _ _ (by decide)).2 ⟨_, t, hk, rfl⟩
  obtain ⟨st', ast, tail, s1, s2, s3⟩ := roundtrip_groups env spare fs st w ac hn hf o1 o2 o3 e f (fun g hg => (pg g hg).1)
    (fun g hg _ => (pg g hg).2) hpk
  rw [ln] at s2
  have s2 : tail = b!"package " ++ rest := s2
  subst s2
  refine ⟨st', ast, s1, ?_⟩
  rw [s3]
  have := C37_save_ok env fs file (b!"package " ++ rest) name (b!"package " ++ rest) [] hn (by
    unfold IsOutput; rw [if_neg (by simp)]; exact .inl o3)
  have ok := this.1.2 ⟨by simp, o4, o5, o6⟩
  obtain ⟨c1, c2⟩ := this.2 ok
  have : (saveFile env fs file (b!"package " ++ rest) []).1 = fs := by
    funext g
    by_cases hg : g = name
    · rw [hg, c1, hf]
    · exact c2 g hg
  rw [Option.some.injEq, Prod.ext_iff]
  exact ⟨this, ok⟩

example : ∃ st' ast, parseAst demoEnv 0 (fun f => if f = b!"a.go" then some b!"package a\n\nvar x = f(1)\n" else none)
      ⟨Heap.empty, []⟩ b!"a" = some (.ok (st', ast)) ∧
    ast.save demoEnv (fun f => if f = b!"a.go" then some b!"package a\n\nvar x = f(1)\n" else none) st' b!"a" [] =
      some (fun f => if f = b!"a.go" then some b!"package a\n\nvar x = f(1)\n" else none, none) :=
  C54_plain demoEnv 0 _ _ wf_empty acyclic_empty (rest := b!"a\n\nvar x = f(1)\n") (name := b!"a.go")
    (.inr ⟨by rintro ⟨t, ht⟩; have := congrArg List.length ht; simp at this, rfl⟩)
    (by simp) rfl rfl rfl (by decide +kernel) (.inl (by decide +kernel)) rfl rfl rfl

end Goast
