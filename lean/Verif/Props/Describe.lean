import Verif.Model.Describe
import Verif.Props.Ast
import Verif.Props.Helper

/-!
# Properties: descriptions (C52)
-/

namespace Goast

/-! ## C52 -/

/-- Value of a string of decimal digits (specification of `%d`). -/
def decValue (l : Bytes) : Nat := l.foldl (fun v c => 10 * v + (c.toNat - 48)) 0

theorem decValue_append (l : Bytes) (c : UInt8) : decValue (l ++ [c]) = 10 * decValue l + (c.toNat - 48) := by
  simp [decValue]

theorem natDigits_step (n : Nat) : natDigits n =
    if n < 10 then [UInt8.ofNat (48 + n)] else natDigits (n / 10) ++ [UInt8.ofNat (48 + n % 10)] := by
  unfold natDigits
  by_cases c : n < 10
  · rw [if_pos c, Nat.toDigits_of_lt_base c]
    simp [Nat.toNat_digitChar_of_lt_ten c]
  · rw [if_neg c, Nat.toDigits_of_base_le (by omega) (by omega)]
    simp [Nat.toNat_digitChar_of_lt_ten (Nat.mod_lt n (by omega : 0 < 10))]

theorem natDigits_spec (n : Nat) : (∀ c ∈ natDigits n, 48 ≤ c.toNat ∧ c.toNat ≤ 57) ∧ natDigits n ≠ [] ∧
    decValue (natDigits n) = n ∧ (n ≠ 0 → (natDigits n).head? ≠ some 48) := by
  have tn : ∀ m, m < 10 → (UInt8.ofNat (48 + m)).toNat = 48 + m := by
    intro m hm
    rw [UInt8.toNat_ofNat']
    omega
  induction n using Nat.strongRecOn with
  | ind n ih =>
    rw [natDigits_step]
    by_cases c : n < 10
    · rw [if_pos c]
      refine ⟨?_, by simp, ?_, ?_⟩
      · intro x hx
        rw [List.mem_singleton.1 hx, tn n c]; omega
      · simp only [decValue, List.foldl_cons, List.foldl_nil, tn n c]; omega
      · intro hn hh
        have : UInt8.ofNat (48 + n) = 48 := by simpa using hh
        have := congrArg UInt8.toNat this
        rw [tn n c] at this
        have h48 : (48 : UInt8).toNat = 48 := rfl
        omega
    · rw [if_neg c]
      obtain ⟨h1, h2, h3, h4⟩ := ih (n / 10) (by omega)
      have hm := tn (n % 10) (Nat.mod_lt n (by omega))
      refine ⟨?_, by simp, ?_, ?_⟩
      · intro x hx
        rcases List.mem_append.1 hx with hx | hx
        · exact h1 x hx
        · rw [List.mem_singleton.1 hx, hm]; omega
      · rw [decValue_append, h3, hm]; omega
      · intro _
        rw [List.head?_append]
        cases hd : (natDigits (n / 10)).head? with
        | none => exact absurd (List.head?_eq_none_iff.1 hd) h2
        | some x => have := h4 (by omega); rw [hd] at this; simpa using this

/-- **C52** the number printed is the decimal numeral of the value: digits only, no leading zero, value right; a minus
sign exactly for negative numbers. -/
theorem C52_decimal (n : Nat) :
    (∀ c ∈ itoa n, 48 ≤ c.toNat ∧ c.toNat ≤ 57) ∧ itoa n ≠ [] ∧ decValue (itoa n) = n ∧
    (n ≠ 0 → (itoa n).head? ≠ some 48) ∧ itoa (-(n + 1 : Nat)) = b!"-" ++ itoa (n + 1 : Nat) := by
  obtain ⟨h1, h2, h3, h4⟩ := natDigits_spec n
  exact ⟨h1, h2, h3, h4, rfl⟩

example : itoa 1207 = b!"1207" ∧ decValue b!"1207" = 1207 ∧ itoa (-3) = b!"-3" := by decide +kernel

/-- What is printed for a section that begins with a keyword. -/
def scopeTitles : List (Bytes × Bytes) :=
  [(b!"package", b!"Package"), (b!"//", b!"Comment"), (b!"/*", b!"InnerComment"), (b!"import", b!"Import"), (b!"var", b!"Variable"),
    (b!"const", b!"Const"), (b!"type", b!"Type"), (b!"func", b!"Func")]

/-- **C52** The title in a scope's description is that of the keyword the text begins with. -/
theorem C52_title {w title : Bytes} (hm : (w, title) ∈ scopeTitles) (rest : Bytes) : (newScopeKind (w ++ rest)).string = title := by
  have key : ∀ x ∈ scopeTitles, ∃ k ∈ ([.package_, .comment, .innerComment, .import_, .variable, .const_, .type_, .func_] : List ScopeKind),
      (x.1, k) ∈ scopeKeywords ∧ k.string = x.2 := by decide +kernel
  obtain ⟨k, hk, h1, h2⟩ := key _ hm
  have hu : k ≠ .unknown := by rintro rfl; revert hk; decide
  rw [(C45_newScopeKind_some (w ++ rest) k hu).2 ⟨w, rest, h1, rfl⟩]
  exact h2

/-- **C52** Any other text: `Unknown`. -/
theorem C52_title_unknown {s : Bytes} (h : ∀ x ∈ scopeTitles, ¬ x.1 <+: s) : (newScopeKind s).string = b!"Unknown" := by
  have key : ∀ x ∈ scopeKeywords, ∃ t ∈ scopeTitles, t.1 = x.1 := by decide +kernel
  rw [(C45_newScopeKind_unknown s).2]
  · rfl
  · rintro w k hm ⟨t, rfl⟩
    obtain ⟨x, hx, e⟩ := key _ hm
    exact h x hx ⟨t, by rw [e]⟩

/-- What is printed for the words that have a kind of their own. -/
def wordNames : List (Bytes × Bytes) :=
  [([], []), (b!"\t", b!"Tab"), (b!" ", b!"Space"), (b!",", b!"Comma"), (b!":", b!"Colon"), (b!"\n", b!"NewLine"), (b!";", b!"Semicolon"),
    (b!"(", b!"ParenthesisLeft"), (b!")", b!"ParenthesisRight"), (b!"{", b!"CurlyBracketLeft"), (b!"}", b!"CurlyBracketRight"),
    (b!"[", b!"SquareBracketLeft"), (b!"]", b!"SquareBracketRight"), (b!"import", b!"Import"), (b!"var", b!"Var"), (b!"const", b!"Const"),
    (b!"map", b!"Map"), (b!"chan", b!"Channel"), (b!"func", b!"Func"), (b!"type", b!"Type"), (b!"struct", b!"Struct"),
    (b!"interface", b!"Interface"), (b!"package", b!"Package")]

/-- **C52** The names in the descriptions of nodes: of the words with kinds of their own, of the classes of all other words, and of the labels. -/
theorem C52_names : (∀ x ∈ wordNames, (Kind.new x.1).name = x.2) ∧
    [Kind.number, .separator, .string, .keyword, .basic, .symbol, .raw].map Kind.name =
      [b!"Number", b!"Separator", b!"String", b!"Keyword", b!"BasicType", b!"Symbol", b!"Raw"] ∧
    [Kind.comment, .funcName, .typeName, .typeAliasType, .paramName, .paramType, .methodReceiverName, .methodReceiverType, .method].map Kind.name =
      [b!"Comment", b!"FuncName", b!"TypeName", b!"TypeAliasType", b!"ParamName", b!"ParamType", b!"MethodReceiverName", b!"MethodReceiverType", b!"Method"] :=
  ⟨by decide +kernel, rfl, rfl⟩

/-- **C52** `Description` of a node: its line plus one, its tidied text and the name of its kind, separated by
` .... `; `<nil>` for nil. -/
theorem C52_node (h : Heap) (a : Addr) :
    h.describe none = b!"<nil>" ∧
    h.describe (some a) = itoa (h.line (some a) + 1) ++ b!" .... " ++ tidyText (h.text (some a)) ++ b!" .... *Node." ++
      (h.kind (some a)).name := ⟨rfl, rfl⟩

theorem itoa_no_newline (i : Int) : (10 : UInt8) ∉ itoa i := by
  intro hm
  cases i with
  | ofNat n => exact absurd ((natDigits_spec n).1 10 hm).1 (by decide)
  | negSucc n =>
    rcases List.mem_append.1 hm with hm | hm
    · exact absurd hm (by decide)
    · exact absurd ((natDigits_spec (n + 1)).1 10 hm).1 (by decide)

/-- **C52** A node's description is one line of output whatever its text, as long as the name of its kind has no newline
(a kind made by `NewKind` from a multi-line text can have one). -/
theorem C52_node_one_line (h : Heap) (p : Ptr) (hk : (10 : UInt8) ∉ (h.kind p).name) : (10 : UInt8) ∉ h.describe p := by
  cases p with
  | none => rw [(C52_node h 0).1]; decide
  | some a =>
    rw [(C52_node h a).2]
    have t := (C47_tidyText_no_control (h.text (some a))).1
    have d := itoa_no_newline (h.line (some a) + 1)
    simp only [List.mem_append, not_or]
    exact ⟨⟨⟨⟨d, by decide⟩, t⟩, by decide⟩, hk⟩

/-- **C52** `Description` of a scope made by the scope splitter or by `NewScope(n.Line(), …)`: one more than the line
shown for its first node. -/
theorem C52_scope (h : Heap) (sc : ScopeRec) :
    sc.describe = itoa (sc.lineNo + 1) ++ b!" .... *Scope." ++ sc.kind.string ∧
    (sc.line = h.line sc.node → sc.describe = itoa (h.line sc.node + 1 + 1) ++ b!" .... *Scope." ++ sc.kind.string) := by
  refine ⟨rfl, fun e => ?_⟩
  rw [← e]; rfl

/-- **C52** `Description` of an `Ast` returns whenever its chains are finite; it is the descriptions of each scope and
of its nodes, in order, with nothing between them. -/
theorem C52_ast (h : Heap) (scs : List ScopeRec) (lss : List (List Addr)) (sn : ScopeNodes h scs lss) :
    astDescription h scs = some ((scs.zip lss).flatMap fun x => x.1.describe ++ x.2.flatMap fun a => h.describe (some a)) := by
  have hw : ∀ (l : List Addr) (s : Bytes),
      walk (fun (buf : Bytes) a => (buf ++ h.describe (some a), true)) s l = (s ++ l.flatMap (fun a => h.describe (some a)), none) := by
    intro l
    induction l with
    | nil => intro s; simp [walk]
    | cons a l ih => intro s; simp [walk, ih]
  induction sn with
  | nil => rfl
  | cons f sn ih =>
    rw [astDescription, C32_iterNext h _ f, hw, ih]
    simp

/-- **C52** `Print` of a node writes a tab, a blank, its description and a newline: one line of output, as long as the
name of its kind has no newline.  `Print` of a scope always writes one line. -/
theorem C52_print (h : Heap) (p : Ptr) (sc : ScopeRec) :
    h.print p = [9, 32] ++ h.describe p ++ [10] ∧ sc.print = sc.describe ++ [10] ∧
    ((10 : UInt8) ∉ (h.kind p).name → (h.print p).count 10 = 1) ∧ sc.print.count 10 = 1 := by
  refine ⟨rfl, rfl, fun hk => ?_, ?_⟩
  · have := List.count_eq_zero.2 (C52_node_one_line h p hk)
    show ([9, 32] ++ h.describe p ++ [10]).count 10 = 1
    rw [List.count_append, List.count_append, this]
    rfl
  · have : (itoa (sc.lineNo + 1) ++ b!" .... *Scope." ++ sc.kind.string).count 10 = 0 := by
      rw [List.count_append, List.count_append, List.count_eq_zero.2 (itoa_no_newline _)]
      cases sc.kind <;> rfl
    show ((itoa (sc.lineNo + 1) ++ b!" .... *Scope." ++ sc.kind.string) ++ [10]).count 10 = 1
    rw [List.count_append, this]
    rfl

/-- **C52** `debugText(k)`, which every resetter evaluates on entry, returns on every finite chain and has no effect: it is
the tidied texts of the node and of at most `k` nodes behind it. -/
theorem C52_debugText (h : Heap) {p : Ptr} {l : List Addr} (f : Fwd h p l) (k : Nat) :
    h.debugText p k = some ((l.take (k + 1)).flatMap fun a => tidyText (h.text (some a))) := by
  have hw : ∀ (l : List Addr) (s : Bytes) (c : Nat),
      (walk (fun (s : Bytes × Nat) a => ((s.1 ++ tidyText (h.text (some a)), s.2 - 1), s.2 - 1 != 0)) (s, c + 1) l).1.1 =
        s ++ (l.take (c + 1)).flatMap (fun a => tidyText (h.text (some a))) := by
    intro l
    induction l with
    | nil => intro s c; simp [walk]
    | cons a l ih =>
      intro s c
      cases c with
      | zero => simp [walk]
      | succ c =>
        have := ih (s ++ tidyText (h.text (some a))) c
        simp only [walk, Nat.add_sub_cancel]
        rw [show (c + 1 != 0) = true by simp]
        simpa using this
  cases f with
  | nil => simp [Heap.debugText]
  | cons ha f =>
    rename_i a l
    simp only [Heap.debugText]
    rw [C32_iterNext h _ (Fwd.cons ha f), Option.map_some, hw]
    rfl

example : demo.debugText (some 0) 1 = some b!"ab" ∧ demo.print (some 3) = b!"\t 6 .... d\\n .... *Node.Raw\n" := by decide +kernel

end Goast
