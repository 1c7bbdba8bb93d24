import Verif.Proofs.Reads
import Verif.Proofs.FuncReset

/-!
# C55: the labels of a function declaration
-/

set_option linter.unusedSimpArgs false
set_option linter.unusedVariables false

namespace Goast
open Heap

variable {ord : Nat → List (Bytes × Ext)} {h : Heap}

/-! ## Functions -/

/-- Both versions of C55 at once. -/
theorem func_tokens (ho : MapOrder ord) (w : WF h) (ac : Acyclic h) {startLine : Int} {text : Bytes} {h' : Heap} {scs : List ScopeRec}
    (e : parseScopeOrd ord h startLine text = some (h', scs)) {i : Nat} {sc : ScopeRec} (hsc : scs[i]? = some sc)
    {name : Bytes} {fin : Bool} {R ts ts' : List Token}
    (hg : (sectionsOf startLine text).2[i]? = some ((.func_, b!"func") :: (.space, b!" ") :: (.raw, name) :: ts)) (S : Sig R fin false ts ts') :
    ∃ rest', chainTokens h' sc.node = some ((.func_, b!"func") :: (.space, b!" ") :: (.funcName, name) :: (ts' ++ rest')) ∧
      (DeclEnd fin R → rest' = R) := by
  obtain ⟨ts2, h2, rest', rfl, h4⟩ := scope_labels ho w ac e hsc hg
    (fun l => ∃ rest', l = (.func_, b!"func") :: (.space, b!" ") :: (.funcName, name) :: (ts' ++ rest') ∧ (DeclEnd fin R → rest' = R)) (by
      intro ha hb a g r wa aca cha hkt er l' ch'
      simp only [List.map_cons] at hkt
      obtain ⟨ka, hkt⟩ := List.cons.inj hkt
      obtain ⟨b, g, rfl, kb, hkt⟩ := List.map_eq_cons_iff.1 hkt
      obtain ⟨n, g, rfl, kn, hkt⟩ := List.map_eq_cons_iff.1 hkt
      obtain ⟨rest', h1, h2⟩ := func_labels wa aca cha (congrArg Prod.fst ka) (congrArg Prod.fst kb) (congrArg Prod.fst kn) hkt S er ch'
      refine ⟨rest', ?_, h2⟩
      rw [h1, ka, kb, show ha.text (some n) = name from congrArg Prod.snd kn])
  exact ⟨rest', h2, h4⟩

/-- **C55** The nodes of a function declaration after `ParseScope`: `func`, a space, the name, and then the signature with
its labels, as the specification `Sig` reads it; what follows the end of the declaration is unchanged. -/
theorem C55_func (ho : MapOrder ord) (w : WF h) (ac : Acyclic h) {startLine : Int} {text : Bytes} {h' : Heap} {scs : List ScopeRec}
    (e : parseScopeOrd ord h startLine text = some (h', scs)) {i : Nat} {sc : ScopeRec} (hsc : scs[i]? = some sc)
    {name : Bytes} {fin : Bool} {R ts ts' : List Token}
    (hg : (sectionsOf startLine text).2[i]? = some ((.func_, b!"func") :: (.space, b!" ") :: (.raw, name) :: ts)) (S : Sig R fin false ts ts') (hend : DeclEnd fin R) :
    chainTokens h' sc.node = some ((.func_, b!"func") :: (.space, b!" ") :: (.funcName, name) :: (ts' ++ R)) := by
  obtain ⟨rest', h2, h4⟩ := func_tokens ho w ac e hsc hg S
  rw [h2, h4 hend]

/-- **C55** A beginning of a declaration is labelled alike whatever follows it. -/
theorem C55_func_front (ho : MapOrder ord) (w : WF h) (ac : Acyclic h) {startLine : Int} {text : Bytes} {h' : Heap} {scs : List ScopeRec}
    (e : parseScopeOrd ord h startLine text = some (h', scs)) {i : Nat} {sc : ScopeRec} (hsc : scs[i]? = some sc)
    {name : Bytes} {fin : Bool} {R ts ts' : List Token}
    (hg : (sectionsOf startLine text).2[i]? = some ((.func_, b!"func") :: (.space, b!" ") :: (.raw, name) :: ts)) (S : Sig R fin false ts ts') :
    ∃ rest', chainTokens h' sc.node = some ((.func_, b!"func") :: (.space, b!" ") :: (.funcName, name) :: (ts' ++ rest')) := by
  obtain ⟨rest', h2, _⟩ := func_tokens ho w ac e hsc hg S
  exact ⟨rest', h2⟩

/-! ## Methods -/

/-- Both versions for methods. -/
theorem method_tokens (ho : MapOrder ord) (w : WF h) (ac : Acyclic h) {startLine : Int} {text : Bytes} {h' : Heap} {scs : List ScopeRec}
    (e : parseScopeOrd ord h startLine text = some (h', scs)) {i : Nat} {sc : ScopeRec} (hsc : scs[i]? = some sc)
    {name : Bytes} {fin : Bool} {ps ps' R ts ts' : List Token}
    {g : List Token} (hg : (sectionsOf startLine text).2[i]? = some g)
    (eg : g = (.func_, b!"func") :: (.space, b!" ") :: (.parenL, b!"(") :: (ps ++ (.parenR, b!")") :: (.space, b!" ") :: (.raw, name) :: ts))
    (hcall : ¬ CalledAtOnce (g.map Prod.fst)) (P : Params .methodReceiverName .methodReceiverType ps ps') (S : Sig R fin true ts ts') :
    ∃ rest', chainTokens h' sc.node = some ((.func_, b!"func") :: (.space, b!" ") :: (.parenL, b!"(") ::
        (ps' ++ (.parenR, b!")") :: (.space, b!" ") :: (.funcName, name) :: (ts' ++ rest'))) ∧ (DeclEnd fin R → rest' = R) := by
  subst eg
  obtain ⟨ts2, h2, rest', rfl, h4⟩ := scope_labels ho w ac e hsc hg
    (fun l => ∃ rest', l = (.func_, b!"func") :: (.space, b!" ") :: (.parenL, b!"(") ::
        (ps' ++ (.parenR, b!")") :: (.space, b!" ") :: (.funcName, name) :: (ts' ++ rest')) ∧ (DeclEnd fin R → rest' = R)) (by
      intro ha hb a g r wa aca cha hkt er l' ch'
      have hcall' : ¬ CalledAtOnce (kindsOf ha (a :: g)) := by
        rw [← hkt, List.map_map] at hcall
        exact hcall
      simp only [List.map_cons] at hkt
      obtain ⟨ka, hkt⟩ := List.cons.inj hkt
      obtain ⟨b, g, rfl, kb, hkt⟩ := List.map_eq_cons_iff.1 hkt
      obtain ⟨q, g, rfl, kq, hkt⟩ := List.map_eq_cons_iff.1 hkt
      obtain ⟨mid, g, rfl, em, hkt⟩ := List.map_eq_append_iff.1 hkt
      obtain ⟨q2, g, rfl, kq2, hkt⟩ := List.map_eq_cons_iff.1 hkt
      obtain ⟨s, g, rfl, ks, hkt⟩ := List.map_eq_cons_iff.1 hkt
      obtain ⟨n, g, rfl, kn, hkt⟩ := List.map_eq_cons_iff.1 hkt
      obtain ⟨rest', h1, h2⟩ := method_labels wa aca cha (congrArg Prod.fst ka) (congrArg Prod.fst kb) (congrArg Prod.fst kq) (congrArg Prod.fst kq2)
        (congrArg Prod.fst ks) (congrArg Prod.fst kn) hcall' em P hkt S er ch'
      refine ⟨rest', ?_, h2⟩
      rw [h1, ka, kb, kq, kq2, ks, show ha.text (some n) = name from congrArg Prod.snd kn])
  exact ⟨rest', h2, h4⟩

/-- **C55** The nodes of a method declaration after `ParseScope`: the receiver is labelled too. -/
theorem C55_method (ho : MapOrder ord) (w : WF h) (ac : Acyclic h) {startLine : Int} {text : Bytes} {h' : Heap} {scs : List ScopeRec}
    (e : parseScopeOrd ord h startLine text = some (h', scs)) {i : Nat} {sc : ScopeRec} (hsc : scs[i]? = some sc)
    {name : Bytes} {fin : Bool} {ps ps' R ts ts' : List Token}
    {g : List Token} (hg : (sectionsOf startLine text).2[i]? = some g)
    (eg : g = (.func_, b!"func") :: (.space, b!" ") :: (.parenL, b!"(") :: (ps ++ (.parenR, b!")") :: (.space, b!" ") :: (.raw, name) :: ts))
    (hcall : ¬ CalledAtOnce (g.map Prod.fst)) (P : Params .methodReceiverName .methodReceiverType ps ps') (S : Sig R fin true ts ts')
    (hend : DeclEnd fin R) :
    chainTokens h' sc.node = some ((.func_, b!"func") :: (.space, b!" ") :: (.parenL, b!"(") ::
        (ps' ++ (.parenR, b!")") :: (.space, b!" ") :: (.funcName, name) :: (ts' ++ R))) := by
  obtain ⟨rest', h2, h4⟩ := method_tokens ho w ac e hsc hg eg hcall P S
  rw [h2, h4 hend]

/-- **C55** A beginning of a method declaration is labelled alike whatever follows it. -/
theorem C55_method_front (ho : MapOrder ord) (w : WF h) (ac : Acyclic h) {startLine : Int} {text : Bytes} {h' : Heap} {scs : List ScopeRec}
    (e : parseScopeOrd ord h startLine text = some (h', scs)) {i : Nat} {sc : ScopeRec} (hsc : scs[i]? = some sc)
    {name : Bytes} {fin : Bool} {ps ps' R ts ts' : List Token}
    {g : List Token} (hg : (sectionsOf startLine text).2[i]? = some g)
    (eg : g = (.func_, b!"func") :: (.space, b!" ") :: (.parenL, b!"(") :: (ps ++ (.parenR, b!")") :: (.space, b!" ") :: (.raw, name) :: ts))
    (hcall : ¬ CalledAtOnce (g.map Prod.fst)) (P : Params .methodReceiverName .methodReceiverType ps ps') (S : Sig R fin true ts ts') :
    ∃ rest', chainTokens h' sc.node = some ((.func_, b!"func") :: (.space, b!" ") :: (.parenL, b!"(") ::
        (ps' ++ (.parenR, b!")") :: (.space, b!" ") :: (.funcName, name) :: (ts' ++ rest'))) := by
  obtain ⟨rest', h2, _⟩ := method_tokens ho w ac e hsc hg eg hcall P S
  exact ⟨rest', h2⟩

/-! ## A list of named parameters -/

/-- The text of parameters, each a name, a space and a type, separated by a comma and a space. -/
def paramText : List (Bytes × Bytes) → Bytes
  | [] => []
  | [(n, T)] => n ++ b!" " ++ T
  | (n, T) :: ps => n ++ b!" " ++ T ++ b!", " ++ paramText ps

/-- The tokens of such parameters, when names have the kind `nk` and types the kind `tk`. -/
def paramToks (nk tk : Kind) : List (Bytes × Bytes) → List Token
  | [] => []
  | [(n, T)] => [(nk, n), (.space, b!" "), (tk, T)]
  | (n, T) :: ps => (nk, n) :: (.space, b!" ") :: (tk, T) :: (.comma, b!",") :: (.space, b!" ") :: paramToks nk tk ps

theorem params_named (nk tk : Kind) : ∀ (ps : List (Bytes × Bytes)), Params nk tk (paramToks .raw .raw ps) (paramToks nk tk ps)
  | [] => .nil
  | [(n, T)] => Params.param (t := (.raw, n)) (ty := [(.space, b!" "), (.raw, T)]) (rest := []) (rest' := [])
      (by simp [isBlank]) (.word (pending := true) rfl (.plain (by simp [isPlain]) (.word rfl .nil))) (by simp) .nil
  | (n, T) :: q :: ps => Params.param (t := (.raw, n)) (ty := [(.space, b!" "), (.raw, T)])
      (rest := (.comma, b!",") :: (.space, b!" ") :: paramToks .raw .raw (q :: ps))
      (rest' := (.comma, b!",") :: (.space, b!" ") :: paramToks nk tk (q :: ps))
      (by simp [isBlank]) (.word (pending := true) rfl (.plain (by simp [isPlain]) (.word rfl .nil))) (by simp)
      (.sep (.inr (.inl rfl)) (.sep (.inl (.inl rfl)) (params_named nk tk (q :: ps))))

theorem tokens_word {w : Bytes} (hw : ∀ b ∈ w, WordByte b) (ne : w ≠ []) {c : UInt8} (hc : c ∈ separatorBytes)
    (rest : Bytes) : tokens (w ++ c :: rest) = (Kind.new w, w) :: (Kind.new [c], [c]) :: tokens rest := by
  rw [tokens, lexAll_word hw ne hc]; rfl

theorem tokens_sep {c : UInt8} (hc : c ∈ separatorBytes) (rest : Bytes) : tokens (c :: rest) = (Kind.new [c], [c]) :: tokens rest := by
  rw [tokens, lexAll_sep hc]; rfl

theorem tokens_params (rest : Bytes) : ∀ (ps : List (Bytes × Bytes)), (∀ x ∈ ps, Word x.1 ∧ Word x.2) →
    tokens (paramText ps ++ 41 :: rest) = paramToks .raw .raw ps ++ (.parenR, b!")") :: tokens rest
  | [], _ => by
    rw [paramText, List.nil_append, tokens_sep (by decide)]; rfl
  | [(n, T)], hp => by
    obtain ⟨hn, hT⟩ := hp (n, T) (by simp)
    rw [paramText, show n ++ b!" " ++ T ++ 41 :: rest = n ++ 32 :: (T ++ 41 :: rest) by simp,
      tokens_word hn.bytes hn.ne_nil (by decide), tokens_word hT.bytes hT.ne_nil (by decide), hn.raw, hT.raw]
    rfl
  | (n, T) :: q :: ps, hp => by
    obtain ⟨hn, hT⟩ := hp (n, T) (by simp)
    rw [paramText, show n ++ b!" " ++ T ++ b!", " ++ paramText (q :: ps) ++ 41 :: rest =
        n ++ 32 :: (T ++ 44 :: 32 :: (paramText (q :: ps) ++ 41 :: rest)) by simp,
      tokens_word hn.bytes hn.ne_nil (by decide), tokens_word hT.bytes hT.ne_nil (by decide), tokens_sep (by decide), hn.raw, hT.raw,
      tokens_params rest (q :: ps) (fun x hx => hp x (by simp only [List.mem_cons] at hx ⊢; exact .inr hx))]
    rfl
    simp

/-- The mode at the end of a text is not changed by words and separators in front. -/
theorem lexEnd_word : ∀ (w buf rest : Bytes), (∀ b ∈ w, WordByte b) → lexEnd .code buf (w ++ rest) = lexEnd .code (buf ++ w) rest
  | [], buf, rest, _ => by simp
  | b :: w, buf, rest, hw => by
    obtain ⟨h1, h2, h3, h4⟩ := hw b (by simp)
    rw [List.cons_append, lexEnd, if_neg (by simp [h4]), if_neg (by simp [h4]), if_neg h2, if_neg h3, if_neg h1,
      lexEnd_word w _ rest (fun x hx => hw x (by simp [hx]))]
    simp

theorem lexEnd_sep {c : UInt8} (hc : c ∈ separatorBytes) (buf rest : Bytes) : lexEnd .code buf (c :: rest) = lexEnd .code [] rest := by
  obtain ⟨h1, h2, h3⟩ := sep_facts hc
  rw [lexEnd, if_neg (by simp [h1]), if_neg (by simp [h1]), if_neg h2, if_neg h3, if_pos hc]

theorem lexEnd_params (rest : Bytes) : ∀ (ps : List (Bytes × Bytes)), (∀ x ∈ ps, Word x.1 ∧ Word x.2) → ∀ buf,
    lexEnd .code buf (paramText ps ++ 41 :: rest) = lexEnd .code [] rest
  | [], _, buf => by rw [paramText, List.nil_append, lexEnd_sep (by decide)]
  | [(n, T)], hp, buf => by
    obtain ⟨hn, hT⟩ := hp (n, T) (by simp)
    rw [paramText, show n ++ b!" " ++ T ++ 41 :: rest = n ++ 32 :: (T ++ 41 :: rest) by simp,
      lexEnd_word _ _ _ hn.bytes, lexEnd_sep (by decide), lexEnd_word _ _ _ hT.bytes, lexEnd_sep (by decide)]
  | (n, T) :: q :: ps, hp, buf => by
    obtain ⟨hn, hT⟩ := hp (n, T) (by simp)
    rw [paramText, show n ++ b!" " ++ T ++ b!", " ++ paramText (q :: ps) ++ 41 :: rest =
        n ++ 32 :: (T ++ 44 :: 32 :: (paramText (q :: ps) ++ 41 :: rest)) by simp,
      lexEnd_word _ _ _ hn.bytes, lexEnd_sep (by decide), lexEnd_word _ _ _ hT.bytes, lexEnd_sep (by decide), lexEnd_sep (by decide),
      lexEnd_params rest (q :: ps) (fun x hx => hp x (by simp only [List.mem_cons] at hx ⊢; exact .inr hx))]
    simp

/-- **C55** In a scope `func NAME(a T, b U, …)` followed by anything, every parameter name becomes a node of kind
`ParamName` and every parameter type (here: one word) a node of kind `ParamType`. -/
theorem C55_named_params (ho : MapOrder ord) (w : WF h) (ac : Acyclic h) {startLine : Int} {text : Bytes} {h' : Heap} {scs : List ScopeRec}
    (e : parseScopeOrd ord h startLine text = some (h', scs)) {i : Nat} {sc : ScopeRec} (hsc : scs[i]? = some sc)
    {name rest : Bytes} {ps : List (Bytes × Bytes)} (hn : Word name) (hp : ∀ x ∈ ps, Word x.1 ∧ Word x.2) (hr : Complete rest)
    {g : List Token} (hg : (sectionsOf startLine text).2[i]? = some g)
    (ht : tokText g = b!"func " ++ name ++ b!"(" ++ paramText ps ++ b!")" ++ rest) :
    ∃ rest', chainTokens h' sc.node = some ((.func_, b!"func") :: (.space, b!" ") :: (.funcName, name) :: (.parenL, b!"(") ::
      (paramToks .paramName .paramType ps ++ (.parenR, b!")") :: rest')) := by
  have e0 : b!"func " ++ name ++ b!"(" ++ paramText ps ++ b!")" ++ rest = b!"func" ++ 32 :: (name ++ 40 :: (paramText ps ++ 41 :: rest)) := by simp
  rw [e0] at ht
  have hk : tokens (b!"func" ++ 32 :: (name ++ 40 :: (paramText ps ++ 41 :: rest))) =
      (.func_, b!"func") :: (.space, b!" ") :: (.raw, name) :: ((.parenL, b!"(") :: (paramToks .raw .raw ps ++ (.parenR, b!")") :: tokens rest)) := by
    rw [tokens_word (by decide) (by decide) (by decide), tokens_word hn.bytes hn.ne_nil (by decide), tokens_params rest ps hp, hn.raw]
    rfl
  have hc : Complete (b!"func" ++ 32 :: (name ++ 40 :: (paramText ps ++ 41 :: rest))) := by
    rw [Complete, lexEnd_word _ _ _ (by decide), lexEnd_sep (by decide), lexEnd_word _ _ _ hn.bytes, lexEnd_sep (by decide), lexEnd_params rest ps hp]
    exact hr
  rw [section_tokens_text ho w ac hg ht hc, hk] at hg
  obtain ⟨rest', h2⟩ := C55_func_front ho w ac e hsc hg
    (.parens rfl rfl (params_named _ _ ps) (.stop : Sig (tokens rest) true true (tokens rest) []))
  exact ⟨rest', by simpa using h2⟩

/-! ## Cases that meet the hypotheses, and quirks -/

/-- The nodes of scope number `i` of a text, after `ParseScope`. -/
def labels (text : Bytes) (i : Nat) : Option (List Token) :=
  match parseScope Heap.empty 0 text with
  | none => none
  | some (h, scs) =>
    match scs[i]? with
    | none => none
    | some sc => chainTokens h sc.node

set_option maxRecDepth 100000

example : Complete b!"func f(a T, b *U) (c V, err error) {\n\treturn g(a, \"x\") // done\n}\n" := by decide +kernel

/-- A declaration the specification reads: with parameters, two results and a body. -/
example : ∃ body, Sig [(.newLine, b!"\n")] true false ((tokens b!"func f(a T, b *U) (c V, err error) {\n\treturn g(a, \"x\") // done\n}\n").drop 3)
      ((.parenL, b!"(") :: (paramToks .paramName .paramType [(b!"a", b!"T"), (b!"b", b!"*U")] ++ (.parenR, b!")") :: (.space, b!" ") :: (.parenL, b!"(") ::
        (paramToks .paramName .paramType [(b!"c", b!"V"), (b!"err", b!"error")] ++ (.parenR, b!")") :: (.space, b!" ") :: ([] ++ (.curlyL, b!"{") :: (body ++ (.curlyR, b!"}") :: []))))) ∧
    DeclEnd true [(.newLine, b!"\n")] := by
  have e : (tokens b!"func f(a T, b *U) (c V, err error) {\n\treturn g(a, \"x\") // done\n}\n").drop 3 =
      (.parenL, b!"(") :: (paramToks .raw .raw [(b!"a", b!"T"), (b!"b", b!"*U")] ++ (.parenR, b!")") ::
      (.space, b!" ") :: (.parenL, b!"(") :: (paramToks .raw .raw [(b!"c", b!"V"), (b!"err", b!"error")] ++ (.parenR, b!")") ::
      (.space, b!" ") :: ([] ++ (.curlyL, b!"{") :: [(.newLine, b!"\n"), (.tab, b!"\t"), (.keyword, b!"return"), (.space, b!" "), (.raw, b!"g"), (.parenL, b!"("),
      (.raw, b!"a"), (.comma, b!","), (.space, b!" "), (.string, b!"\"x\""), (.parenR, b!")"), (.space, b!" "), (.comment, b!"// done"), (.newLine, b!"\n"), (.curlyR, b!"}"), (.newLine, b!"\n")]))) := by
    decide +kernel
  rw [e]
  exact ⟨_, .parens rfl rfl (params_named _ _ _) (.results rfl rfl rfl (params_named _ _ _) (.space rfl (by simp) (by simp) (.body rfl rfl .stop))), .inr ⟨rfl, _, rfl, rfl⟩⟩

example : labels b!"func f(a T, b *U) (c V, err error) {\n}\n" 0 = some [(.func_, b!"func"), (.space, b!" "), (.funcName, b!"f"), (.parenL, b!"("), (.paramName, b!"a"), (.space, b!" "),
    (.paramType, b!"T"), (.comma, b!","), (.space, b!" "), (.paramName, b!"b"), (.space, b!" "), (.paramType, b!"*U"), (.parenR, b!")"), (.space, b!" "), (.parenL, b!"("),
    (.paramName, b!"c"), (.space, b!" "), (.paramType, b!"V"), (.comma, b!","), (.space, b!" "), (.paramName, b!"err"), (.space, b!" "), (.paramType, b!"error"), (.parenR, b!")"), (.space, b!" "),
    (.curlyL, b!"{"), (.newLine, b!"\n"), (.curlyR, b!"}"), (.newLine, b!"\n")] := by cbv

/-- A single result is merged into one node. -/
example : labels b!"func f() map[K]V {\n}\n" 0 = some [(.func_, b!"func"), (.space, b!" "), (.funcName, b!"f"), (.parenL, b!"("), (.parenR, b!")"), (.space, b!" "),
    (.paramType, b!"map[K]V"), (.space, b!" "), (.curlyL, b!"{"), (.newLine, b!"\n"), (.curlyR, b!"}"), (.newLine, b!"\n")] := by cbv

theorem Params.param' {nk tk : Kind} {b : Bool} {t : Token} {ty ty' rest rest' : List Token} (q : Param nk tk b (t :: ty) ty')
    (hb : decide (relevant (t :: ty) ≠ 1) = b) (first : ¬ isBlank t ∧ t.1 ≠ .parenL)
    (stop : ∀ x, rest.head? = some x → x.1 = .comma) (p : Params nk tk rest rest') : Params nk tk (t :: ty ++ rest) (ty' ++ rest') :=
  .param first (by rw [hb]; exact q) stop p

/-- A function whose parameter and result are functions. -/
example : Sig [(.newLine, b!"\n")] true false ((tokens b!"func f(g func(A, b B) C, d D) func(E) F\n").drop 3)
      [(.parenL, b!"("), (.paramName, b!"g"), (.space, b!" "), (.func_, b!"func"), (.parenL, b!"("), (.paramType, b!"A"), (.comma, b!","), (.space, b!" "), (.paramName, b!"b"),
        (.space, b!" "), (.paramType, b!"B"), (.parenR, b!")"), (.space, b!" "), (.paramType, b!"C"), (.comma, b!","), (.space, b!" "), (.paramName, b!"d"), (.space, b!" "),
        (.paramType, b!"D"), (.parenR, b!")"), (.space, b!" "), (.func_, b!"func"), (.parenL, b!"("), (.paramType, b!"E"), (.parenR, b!")"), (.space, b!" "), (.paramType, b!"F")] := by
  have e : (tokens b!"func f(g func(A, b B) C, d D) func(E) F\n").drop 3 =
      (.parenL, b!"(") :: (((.raw, b!"g") :: [(.space, b!" "), (.func_, b!"func"), (.parenL, b!"("), (.raw, b!"A"), (.comma, b!","), (.space, b!" "), (.raw, b!"b"),
        (.space, b!" "), (.raw, b!"B"), (.parenR, b!")"), (.space, b!" "), (.raw, b!"C")] ++ ([(.comma, b!","), (.space, b!" ")] ++ paramToks .raw .raw [(b!"d", b!"D")])) ++
        (.parenR, b!")") :: (.space, b!" ") :: (.func_, b!"func") :: (.parenL, b!"(") :: ([(.raw, b!"E")] ++ (.parenR, b!")") :: (.space, b!" ") :: ([(.raw, b!"F")] ++ [(.newLine, b!"\n")]))) := by
    decide +kernel
  rw [e]
  have hE : Params .paramName .paramType [(.raw, b!"E")] [(.paramType, b!"E")] :=
    Params.param (t := (.raw, b!"E")) (ty := []) (rest := []) (rest' := []) (by simp [isBlank]) (.word (pending := false) rfl .nil) (by simp) .nil
  have hA : Params .paramName .paramType ((.raw, b!"A") :: (.comma, b!",") :: (.space, b!" ") :: paramToks .raw .raw [(b!"b", b!"B")])
      ((.paramType, b!"A") :: (.comma, b!",") :: (.space, b!" ") :: paramToks .paramName .paramType [(b!"b", b!"B")]) :=
    Params.param (t := (.raw, b!"A")) (ty := []) (by simp [isBlank]) (.word (pending := false) rfl .nil) (by simp)
      (.sep (.inr (.inl rfl)) (.sep (.inl (.inl rfl)) (params_named _ _ _)))
  have hG : Param .paramName .paramType true ((.raw, b!"g") :: (.space, b!" ") :: (.func_, b!"func") :: (.parenL, b!"(") ::
        (((.raw, b!"A") :: (.comma, b!",") :: (.space, b!" ") :: paramToks .raw .raw [(b!"b", b!"B")]) ++ (.parenR, b!")") :: [(.space, b!" "), (.raw, b!"C")]))
      ((.paramName, b!"g") :: (.space, b!" ") :: (.func_, b!"func") :: (.parenL, b!"(") ::
        (((.paramType, b!"A") :: (.comma, b!",") :: (.space, b!" ") :: paramToks .paramName .paramType [(b!"b", b!"B")]) ++ (.parenR, b!")") :: [(.space, b!" "), (.paramType, b!"C")])) :=
    .word (pending := true) rfl (.plain (by simp [isPlain]) (.func ⟨rfl, rfl⟩ rfl rfl rfl hA (.plain (by simp [isPlain]) (.word (pending := false) rfl .nil))))
  have hP := Params.param' hG (rest := [(.comma, b!","), (.space, b!" ")] ++ paramToks .raw .raw [(b!"d", b!"D")]) rfl (by simp [isBlank]) (by simp)
    (.sep (.inr (.inl rfl)) (.sep (.inl (.inl rfl)) (params_named _ _ [(b!"d", b!"D")])))
  have hF : Sig [(.newLine, b!"\n")] true true ((.space, b!" ") :: ([(.raw, b!"F")] ++ [(.newLine, b!"\n")])) [(.space, b!" "), (.paramType, b!"F")] :=
    Sig.result (t := (.raw, b!"F")) (us := []) rfl (by simp) (by simp) (by simp) .stop
  exact .parens rfl rfl hP (.func rfl rfl rfl rfl hE hF)

/-- The model agrees. -/
example : labels b!"func f(g func(A, b B) C, d D) func(E) F\n" 0 = some [(.func_, b!"func"), (.space, b!" "), (.funcName, b!"f"), (.parenL, b!"("), (.paramName, b!"g"), (.space, b!" "),
    (.func_, b!"func"), (.parenL, b!"("), (.paramType, b!"A"), (.comma, b!","), (.space, b!" "), (.paramName, b!"b"), (.space, b!" "), (.paramType, b!"B"), (.parenR, b!")"), (.space, b!" "),
    (.paramType, b!"C"), (.comma, b!","), (.space, b!" "), (.paramName, b!"d"), (.space, b!" "), (.paramType, b!"D"), (.parenR, b!")"), (.space, b!" "), (.func_, b!"func"), (.parenL, b!"("),
    (.paramType, b!"E"), (.parenR, b!")"), (.space, b!" "), (.paramType, b!"F"), (.newLine, b!"\n")] := by cbv

/-- **C55** Quirk: results in parentheses of a function-typed parameter end the parameter list.  In
`func f(g func(A) (B, C), d D) E {}` the name `d` is labelled as a type, and `D` and the closing parenthesis become one
node. -/
theorem C55_func_results : labels b!"func f(g func(A) (B, C), d D) E {}\n" 0 = some [(.func_, b!"func"), (.space, b!" "), (.funcName, b!"f"), (.parenL, b!"("), (.paramName, b!"g"),
    (.space, b!" "), (.func_, b!"func"), (.parenL, b!"("), (.paramType, b!"A"), (.parenR, b!")"), (.space, b!" "), (.parenL, b!"("), (.paramType, b!"B"), (.comma, b!","), (.space, b!" "),
    (.paramType, b!"C"), (.parenR, b!")"), (.comma, b!","), (.space, b!" "), (.paramType, b!"d"), (.space, b!" "), (.paramType, b!"D)"), (.space, b!" "), (.paramType, b!"E"), (.space, b!" "),
    (.curlyL, b!"{"), (.curlyR, b!"}"), (.newLine, b!"\n")] := by cbv

/-- **C55** Quirk: the result of an unnamed function-typed parameter is labelled as a name. -/
theorem C55_unnamed_func : labels b!"func f(func(A) B)\n" 0 = some [(.func_, b!"func"), (.space, b!" "), (.funcName, b!"f"), (.parenL, b!"("), (.func_, b!"func"), (.parenL, b!"("),
    (.paramType, b!"A"), (.parenR, b!")"), (.space, b!" "), (.paramName, b!"B"), (.parenR, b!")"), (.newLine, b!"\n")] := by cbv

/-- **C55** Quirk: in `func f(a, b T)` the name `a` is labelled as a type. -/
theorem C55_grouped : labels b!"func f(a, b T)\n" 0 = some [(.func_, b!"func"), (.space, b!" "), (.funcName, b!"f"), (.parenL, b!"("), (.paramType, b!"a"), (.comma, b!","),
    (.space, b!" "), (.paramName, b!"b"), (.space, b!" "), (.paramType, b!"T"), (.parenR, b!")"), (.newLine, b!"\n")] := by cbv

/-- **C55** Quirk: in `func f([]T)` the type is labelled as a name. -/
theorem C55_unnamed_slice : labels b!"func f([]T)\n" 0 = some [(.func_, b!"func"), (.space, b!" "), (.funcName, b!"f"), (.parenL, b!"("), (.squareL, b!"["), (.squareR, b!"]"),
    (.paramName, b!"T"), (.parenR, b!")"), (.newLine, b!"\n")] := by cbv

end Goast
