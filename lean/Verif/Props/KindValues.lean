import Verif.Props.Kinds
import Verif.Props.Describe

/-!
# C79: kinds are values, user-made ones too
-/

set_option linter.unusedSimpArgs false

namespace Goast
open Heap

/-! ## Specification -/

/-- The brackets: first string, second string, and those of the counterpart (kind/kind.go:27-32). -/
def bracketStrings : List ((Bytes × Bytes) × (Bytes × Bytes)) :=
  [((b!"(", b!"ParenthesisLeft"), (b!")", b!"ParenthesisRight")), ((b!")", b!"ParenthesisRight"), (b!"(", b!"ParenthesisLeft")),
   ((b!"{", b!"CurlyBracketLeft"), (b!"}", b!"CurlyBracketRight")), ((b!"}", b!"CurlyBracketRight"), (b!"{", b!"CurlyBracketLeft")),
   ((b!"[", b!"SquareBracketLeft"), (b!"]", b!"SquareBracketRight")), ((b!"]", b!"SquareBracketRight"), (b!"[", b!"SquareBracketLeft"))]

/-- The names of the declared scope kinds (scope/scope_kind.go:9-17, 20-43). -/
def scopeNames : List (Bytes × Bytes) :=
  [(b!"", b!"Unknown"), (b!"package", b!"Package"), (b!"//", b!"Comment"), (b!"/*", b!"InnerComment"), (b!"import", b!"Import"),
   (b!"var", b!"Variable"), (b!"const", b!"Const"), (b!"type", b!"Type"), (b!"func", b!"Func")]

/-! ## Kinds of nodes -/

/-- **C79** The strings of `kind.Kind{lit, name}` are these two, and `String` (also through a pointer) is the second. -/
theorem C79_strings (lit name : Bytes) : (Kind.ofPair lit name).lit = lit ∧ (Kind.ofPair lit name).name = name ∧
    Kind.pointerString (some (Kind.ofPair lit name)) = name ∧ Kind.pointerString none = [] := by
  have key : (Kind.ofPair lit name).lit = lit ∧ (Kind.ofPair lit name).name = name := by
    unfold Kind.ofPair
    split
    · rename_i k hk
      simpa using List.find?_some hk
    · exact ⟨rfl, rfl⟩
  exact ⟨key.1, key.2, key.2, rfl⟩

/-- **C79** Two kinds are equal exactly if both strings are: what a program builds by hand can be compared with the declared kinds. -/
theorem C79_equal (l n l' n' : Bytes) : Kind.ofPair l n = Kind.ofPair l' n' ↔ l = l' ∧ n = n' := by
  refine ⟨fun h => ?_, fun ⟨h1, h2⟩ => by rw [h1, h2]⟩
  obtain ⟨a1, a2, _⟩ := C79_strings l n
  obtain ⟨b1, b2, _⟩ := C79_strings l' n'
  exact ⟨by rw [← a1, h, b1], by rw [← a2, h, b2]⟩

/-- **C79** A kind built with the strings of a declared one is that one; the zero value is `None`. -/
theorem C79_declared : (∀ k ∈ Kind.declared, Kind.ofPair k.lit k.name = k) ∧ Kind.ofPair [] [] = .none ∧
    (∀ k : Kind, (∀ l n, k ≠ .other l n) → k ∈ Kind.declared) := by
  refine ⟨by decide +kernel, by decide +kernel, fun k hk => ?_⟩
  cases k
  case other l n => exact absurd rfl (hk l n)
  all_goals decide

/-- **C79** `kind.New` never makes a kind other than the declared ones: its result is the kind of its own strings. -/
theorem C79_new (s : Bytes) : Kind.ofPair (Kind.new s).lit (Kind.new s).name = Kind.new s :=
  C79_declared.1 _ (C79_declared.2.2 _ fun l n e => C43_never s (.other l n) (.inr ⟨l, n, rfl⟩) e)

/-- **C79** `GetClose` of any kind, however it was made: the counterpart of a bracket, by its strings, and refused for all others. -/
theorem C79_getClose (l n : Bytes) :
    (∀ l' n', ((l, n), (l', n')) ∈ bracketStrings → (Kind.ofPair l n).getClose = (Kind.ofPair l' n', true)) ∧
    ((∀ x, ((l, n), x) ∉ bracketStrings) → (Kind.ofPair l n).getClose = (Kind.ofPair [] [], false)) := by
  constructor
  · intro l' n' hm
    have : ∀ x ∈ bracketStrings, (Kind.ofPair x.1.1 x.1.2).getClose = (Kind.ofPair x.2.1 x.2.2, true) := by decide +kernel
    exact this _ hm
  · intro hn
    rw [C79_declared.2.1]
    apply C44_getClose_other
    intro p hp
    obtain ⟨a1, a2, _⟩ := C79_strings l n
    have : ∀ p ∈ bracketPairs, (∃ x ∈ bracketStrings, x.1 = (p.1.lit, p.1.name)) ∧ (∃ x ∈ bracketStrings, x.1 = (p.2.lit, p.2.name)) := by decide +kernel
    obtain ⟨⟨x, hx, ex⟩, ⟨y, hy, ey⟩⟩ := this p hp
    constructor
    · intro e
      rw [← e, a1, a2] at ex
      exact hn x.2 (by rw [← ex]; exact hx)
    · intro e
      rw [← e, a1, a2] at ey
      exact hn y.2 (by rw [← ey]; exact hy)

/-- **C79** A node keeps the kind it is given, also a user-made one: `Kind().String()` is its second string, and `Description` ends with it. -/
theorem C79_node (h : Heap) {a : Addr} (ha : a < h.size) (l n : Bytes) :
    (h.setKind (some a) (Kind.ofPair l n)).kind (some a) = Kind.ofPair l n ∧
    ((h.setKind (some a) (Kind.ofPair l n)).describe (some a)) =
      itoa (h.line (some a) + 1) ++ b!" .... " ++ tidyText (h.text (some a)) ++ b!" .... *Node." ++ n := by
  have hk : (h.setKind (some a) (Kind.ofPair l n)).kind (some a) = Kind.ofPair l n := by
    rw [kind_setKind h a _ (some a) ha]; simp
  refine ⟨hk, ?_⟩
  rw [(C52_node _ a).2, hk, (C79_strings l n).2.1]
  simp

/-! ## Kinds of scopes -/

/-- **C79** The string of `scope.Kind(s)` is `s`; two scope kinds are equal exactly if their strings are; a declared one is recognised by its string. -/
theorem C79_scope (s s' : Bytes) : (ScopeKind.ofStr s).str = s ∧ (ScopeKind.ofStr s = ScopeKind.ofStr s' ↔ s = s') ∧
    (∀ k, (∀ t, k ≠ .other t) → ScopeKind.ofStr k.str = k) := by
  have key : ∀ s, (ScopeKind.ofStr s).str = s := by
    intro s
    unfold ScopeKind.ofStr
    split
    · rename_i k hk
      simpa using List.find?_some hk
    · rfl
  refine ⟨key s, ⟨fun e => by rw [← key s, e, key s'], fun e => by rw [e]⟩, fun k hk => ?_⟩
  cases k
  case other t => exact absurd rfl (hk t)
  all_goals decide +kernel

/-- **C79** `String` and `ToKind` of any scope kind: the table for the declared strings, `""` and the zero kind for any other string. -/
theorem C79_scope_string (s : Bytes) :
    (∀ name, (s, name) ∈ scopeNames → (ScopeKind.ofStr s).string = name) ∧
    ((∀ name, (s, name) ∉ scopeNames) → (ScopeKind.ofStr s).string = [] ∧ (ScopeKind.ofStr s).toKind = Kind.ofPair [] []) := by
  constructor
  · intro name hm
    have : ∀ x ∈ scopeNames, (ScopeKind.ofStr x.1).string = x.2 := by decide +kernel
    exact this _ hm
  · intro hn
    have : ScopeKind.ofStr s = .other s := by
      unfold ScopeKind.ofStr
      split
      · rename_i k hk
        have h1 := List.find?_some hk
        have h2 := List.mem_of_find?_eq_some hk
        have : ∀ k ∈ ([.unknown, .package_, .comment, .innerComment, .import_, .variable, .const_, .type_, .func_] : List ScopeKind),
            (k.str, k.string) ∈ scopeNames := by decide +kernel
        have h3 := this k h2
        rw [show k.str = s by simpa using h1] at h3
        exact absurd h3 (hn _)
      · rfl
    rw [this, C79_declared.2.1]
    exact ⟨rfl, rfl⟩

/-- A kind of the user's own on a node, one with the strings of a declared kind, and a scope kind of the user's own. -/
example : Kind.ofPair b!"=>" b!"Arrow" = .other b!"=>" b!"Arrow" ∧ Kind.ofPair b!"{" b!"CurlyBracketLeft" = .curlyL ∧
    Kind.ofPair b!"{" b!"Brace" ≠ .curlyL ∧ (Kind.ofPair b!"{" b!"Brace").getClose = (.none, false) ∧
    (ScopeKind.ofStr b!"macro").string = [] ∧ ScopeKind.ofStr b!"type" = .type_ := by decide +kernel

end Goast
