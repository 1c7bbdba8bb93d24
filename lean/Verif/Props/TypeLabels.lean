import Verif.Props.Labels
import Verif.Proofs.TypeDecl

/-!
# C56, C57, C58: the labels of a type declaration
-/

set_option linter.unusedSimpArgs false
set_option linter.unusedVariables false

namespace Goast
open Heap

variable {ord : Nat → List (Bytes × Ext)} {h : Heap}

/-! ## C58: all type declarations -/

/-- Both versions of C58 at once. -/
theorem type_tokens (ho : MapOrder ord) (w : WF h) (ac : Acyclic h) {startLine : Int} {text : Bytes} {h' : Heap} {scs : List ScopeRec}
    (e : parseScopeOrd ord h startLine text = some (h', scs)) {i : Nat} {sc : ScopeRec} (hsc : scs[i]? = some sc)
    {name : Bytes} {R tp ts ts' : List Token}
    (hg : (sectionsOf startLine text).2[i]? = some ((.type_, b!"type") :: (.space, b!" ") :: (.raw, name) :: (tp ++ (.space, b!" ") :: ts)))
    (P : TypeParams tp) (D : Def R ts ts') :
    ∃ rest', chainTokens h' sc.node = some ((.type_, b!"type") :: (.space, b!" ") :: (.typeName, name) :: (tp ++ (.space, b!" ") :: (ts' ++ rest'))) ∧
      (R = [] → rest' = []) := by
  obtain ⟨ts2, h2, rest', rfl, h4⟩ := scope_labels ho w ac e hsc hg
    (fun l => ∃ rest', l = (.type_, b!"type") :: (.space, b!" ") :: (.typeName, name) :: (tp ++ (.space, b!" ") :: (ts' ++ rest')) ∧ (R = [] → rest' = [])) (by
      intro ha hb a g r wa aca cha hkt er l' ch'
      simp only [List.map_cons] at hkt
      obtain ⟨ka, hkt⟩ := List.cons.inj hkt
      obtain ⟨b, g, rfl, kb, hkt⟩ := List.map_eq_cons_iff.1 hkt
      obtain ⟨n, g, rfl, kn, hkt⟩ := List.map_eq_cons_iff.1 hkt
      obtain ⟨rest', h1, h2⟩ := type_labels wa aca cha (congrArg Prod.fst ka) (congrArg Prod.fst kb) (congrArg Prod.fst kn) hkt P rfl D er ch'
      refine ⟨rest', ?_, h2⟩
      rw [h1, ka, kb, show ha.text (some n) = name from congrArg Prod.snd kn])
  exact ⟨rest', h2, h4⟩

/-- **C58** The nodes of a type declaration after `ParseScope`: `type`, a space, the name, type parameters and a space,
and then the definition with its labels, as the specification `Def` reads it. -/
theorem C58_type (ho : MapOrder ord) (w : WF h) (ac : Acyclic h) {startLine : Int} {text : Bytes} {h' : Heap} {scs : List ScopeRec}
    (e : parseScopeOrd ord h startLine text = some (h', scs)) {i : Nat} {sc : ScopeRec} (hsc : scs[i]? = some sc)
    {name : Bytes} {tp ts ts' : List Token}
    (hg : (sectionsOf startLine text).2[i]? = some ((.type_, b!"type") :: (.space, b!" ") :: (.raw, name) :: (tp ++ (.space, b!" ") :: ts)))
    (P : TypeParams tp) (D : Def [] ts ts') :
    chainTokens h' sc.node = some ((.type_, b!"type") :: (.space, b!" ") :: (.typeName, name) :: (tp ++ (.space, b!" ") :: ts')) := by
  obtain ⟨rest', h2, h4⟩ := type_tokens ho w ac e hsc hg P D
  rw [h2, h4 rfl, List.append_nil]

/-- **C58** A beginning of a type declaration is labelled alike whatever follows it. -/
theorem C58_type_front (ho : MapOrder ord) (w : WF h) (ac : Acyclic h) {startLine : Int} {text : Bytes} {h' : Heap} {scs : List ScopeRec}
    (e : parseScopeOrd ord h startLine text = some (h', scs)) {i : Nat} {sc : ScopeRec} (hsc : scs[i]? = some sc)
    {name : Bytes} {R tp ts ts' : List Token}
    (hg : (sectionsOf startLine text).2[i]? = some ((.type_, b!"type") :: (.space, b!" ") :: (.raw, name) :: (tp ++ (.space, b!" ") :: ts)))
    (P : TypeParams tp) (D : Def R ts ts') :
    ∃ rest', chainTokens h' sc.node = some ((.type_, b!"type") :: (.space, b!" ") :: (.typeName, name) :: (tp ++ (.space, b!" ") :: (ts' ++ rest'))) := by
  obtain ⟨rest', h2, _⟩ := type_tokens ho w ac e hsc hg P D
  exact ⟨rest', h2⟩

/-- **C58** `type NAME T` at the end of a line: the name is a `TypeName`, the type a `ParamType`, whatever follows the line. -/
theorem C58_word (ho : MapOrder ord) (w : WF h) (ac : Acyclic h) {startLine : Int} {text : Bytes} {h' : Heap} {scs : List ScopeRec}
    (e : parseScopeOrd ord h startLine text = some (h', scs)) {i : Nat} {sc : ScopeRec} (hsc : scs[i]? = some sc)
    {name T rest : Bytes} (hn : Word name) (hT : Word T) (hr : Complete rest)
    {g : List Token} (hg : (sectionsOf startLine text).2[i]? = some g)
    (ht : tokText g = b!"type " ++ name ++ b!" " ++ T ++ b!"\n" ++ rest) :
    ∃ rest', chainTokens h' sc.node = some ((.type_, b!"type") :: (.space, b!" ") :: (.typeName, name) :: (.space, b!" ") ::
      (.paramType, T) :: rest') := by
  have e0 : b!"type " ++ name ++ b!" " ++ T ++ b!"\n" ++ rest = b!"type" ++ 32 :: (name ++ 32 :: (T ++ 10 :: rest)) := by simp
  rw [e0] at ht
  have hk : tokens (b!"type" ++ 32 :: (name ++ 32 :: (T ++ 10 :: rest))) =
      (.type_, b!"type") :: (.space, b!" ") :: (.raw, name) :: ([] ++ (.space, b!" ") :: ((.raw, T) :: ([] ++ ([] ++ (.newLine, b!"\n") :: tokens rest)))) := by
    rw [tokens_word (by decide) (by decide) (by decide), tokens_word hn.bytes hn.ne_nil (by decide), tokens_word hT.bytes hT.ne_nil (by decide), hn.raw, hT.raw]
    rfl
  have hc : Complete (b!"type" ++ 32 :: (name ++ 32 :: (T ++ 10 :: rest))) := by
    rw [Complete, lexEnd_word _ _ _ (by decide), lexEnd_sep (by decide), lexEnd_word _ _ _ hn.bytes, lexEnd_sep (by decide),
      lexEnd_word _ _ _ hT.bytes, lexEnd_sep (by decide)]
    exact hr
  rw [section_tokens_text ho w ac hg ht hc, hk] at hg
  obtain ⟨rest', h2⟩ := C58_type_front ho w ac e hsc hg .none
    (.word rfl (by simp) (by simp) (by simp) (.stop : Def ((.newLine, b!"\n") :: tokens rest) _ []))
  exact ⟨rest', by simpa using h2⟩

/-- **C58** `type NAME = T` at the end of a line is labelled alike. -/
theorem C58_alias (ho : MapOrder ord) (w : WF h) (ac : Acyclic h) {startLine : Int} {text : Bytes} {h' : Heap} {scs : List ScopeRec}
    (e : parseScopeOrd ord h startLine text = some (h', scs)) {i : Nat} {sc : ScopeRec} (hsc : scs[i]? = some sc)
    {name T rest : Bytes} (hn : Word name) (hT : Word T) (hr : Complete rest)
    {g : List Token} (hg : (sectionsOf startLine text).2[i]? = some g)
    (ht : tokText g = b!"type " ++ name ++ b!" = " ++ T ++ b!"\n" ++ rest) :
    ∃ rest', chainTokens h' sc.node = some ((.type_, b!"type") :: (.space, b!" ") :: (.typeName, name) :: (.space, b!" ") ::
      (.symbol, b!"=") :: (.space, b!" ") :: (.paramType, T) :: rest') := by
  have e0 : b!"type " ++ name ++ b!" = " ++ T ++ b!"\n" ++ rest = b!"type" ++ 32 :: (name ++ 32 :: (b!"=" ++ 32 :: (T ++ 10 :: rest))) := by simp
  rw [e0] at ht
  have hk : tokens (b!"type" ++ 32 :: (name ++ 32 :: (b!"=" ++ 32 :: (T ++ 10 :: rest)))) =
      (.type_, b!"type") :: (.space, b!" ") :: (.raw, name) :: ([] ++ (.space, b!" ") :: ((.symbol, b!"=") :: (.space, b!" ") ::
        ((.raw, T) :: ([] ++ ([] ++ (.newLine, b!"\n") :: tokens rest))))) := by
    rw [tokens_word (by decide) (by decide) (by decide), tokens_word hn.bytes hn.ne_nil (by decide), tokens_word (by decide) (by decide) (by decide),
      tokens_word hT.bytes hT.ne_nil (by decide), hn.raw, hT.raw]
    rfl
  have hc : Complete (b!"type" ++ 32 :: (name ++ 32 :: (b!"=" ++ 32 :: (T ++ 10 :: rest)))) := by
    rw [Complete, lexEnd_word _ _ _ (by decide), lexEnd_sep (by decide), lexEnd_word _ _ _ hn.bytes, lexEnd_sep (by decide),
      lexEnd_word _ _ _ (by decide), lexEnd_sep (by decide), lexEnd_word _ _ _ hT.bytes, lexEnd_sep (by decide)]
    exact hr
  rw [section_tokens_text ho w ac hg ht hc, hk] at hg
  obtain ⟨rest', h2⟩ := C58_type_front ho w ac e hsc hg .none
    (.pass (by decide) (.pass (by decide) (.word rfl (by simp) (by simp) (by simp) (.stop : Def ((.newLine, b!"\n") :: tokens rest) _ []))))
  exact ⟨rest', by simpa using h2⟩

/-! ## C56: structs -/

/-- **C56** The fields of a struct declaration after `ParseScope`, whatever follows its closing bracket. -/
theorem C56_struct (ho : MapOrder ord) (w : WF h) (ac : Acyclic h) {startLine : Int} {text : Bytes} {h' : Heap} {scs : List ScopeRec}
    (e : parseScopeOrd ord h startLine text = some (h', scs)) {i : Nat} {sc : ScopeRec} (hsc : scs[i]? = some sc)
    {name : Bytes} {tp ts ts' M : List Token}
    (hg : (sectionsOf startLine text).2[i]? = some ((.type_, b!"type") :: (.space, b!" ") :: (.raw, name) :: (tp ++ (.space, b!" ") :: (.struct_, b!"struct") :: (.space, b!" ") ::
      (.curlyL, b!"{") :: ts))) (P : TypeParams tp) (F : Fields ((.curlyR, b!"}") :: M) ts ts') :
    ∃ rest', chainTokens h' sc.node = some ((.type_, b!"type") :: (.space, b!" ") :: (.typeName, name) :: (tp ++ (.space, b!" ") :: (.struct_, b!"struct") ::
      (.space, b!" ") :: (.curlyL, b!"{") :: (ts' ++ (.curlyR, b!"}") :: rest'))) := by
  obtain ⟨rest', h2⟩ := C58_type_front ho w ac e hsc hg P
    (.struct (gap := [(.space, b!" ")]) rfl (by simp) rfl rfl F (.stop : Def M M []))
  exact ⟨rest', by simpa using h2⟩

/-- The names of a field line, separated by a comma and a space. -/
def nameText : List Bytes → Bytes
  | [] => []
  | [n] => n
  | n :: ns => n ++ b!", " ++ nameText ns

/-- Their tokens. -/
def nameToks (k : Kind) : List Bytes → List Token
  | [] => []
  | [n] => [(k, n)]
  | n :: ns => (k, n) :: (.comma, b!",") :: (.space, b!" ") :: nameToks k ns

/-- A line of a struct. -/
inductive FieldLine where
  /-- an embedded type, here one word -/
  | embedded (T : Bytes)
  /-- names and their type, here one word -/
  | named (n : Bytes) (ns : List Bytes) (T : Bytes)
  /-- names and a function type with named parameters and no result -/
  | func (n : Bytes) (ns : List Bytes) (ps : List (Bytes × Bytes))
  /-- the same with one result, here one word -/
  | funcOne (n : Bytes) (ns : List Bytes) (ps : List (Bytes × Bytes)) (result : Bytes)
  /-- the same with unnamed results in parentheses -/
  | funcMany (n : Bytes) (ns : List Bytes) (ps : List (Bytes × Bytes)) (r : Bytes) (rs : List Bytes)

/-- All its words are words. -/
def FieldLine.OK : FieldLine → Prop
  | .embedded T => Word T
  | .named n ns T => (∀ x ∈ n :: ns, Word x) ∧ Word T
  | .func n ns ps => (∀ x ∈ n :: ns, Word x) ∧ ∀ x ∈ ps, Word x.1 ∧ Word x.2
  | .funcOne n ns ps r => (∀ x ∈ n :: ns, Word x) ∧ (∀ x ∈ ps, Word x.1 ∧ Word x.2) ∧ Word r
  | .funcMany n ns ps r rs => (∀ x ∈ n :: ns, Word x) ∧ (∀ x ∈ ps, Word x.1 ∧ Word x.2) ∧ ∀ x ∈ r :: rs, Word x

/-- The text of such lines: each begins with a tab. -/
def fieldText : List FieldLine → Bytes
  | [] => []
  | .embedded T :: fs => b!"\t" ++ T ++ b!"\n" ++ fieldText fs
  | .named n ns T :: fs => b!"\t" ++ nameText (n :: ns) ++ b!" " ++ T ++ b!"\n" ++ fieldText fs
  | .func n ns ps :: fs => b!"\t" ++ nameText (n :: ns) ++ b!" func(" ++ paramText ps ++ b!")\n" ++ fieldText fs
  | .funcOne n ns ps r :: fs => b!"\t" ++ nameText (n :: ns) ++ b!" func(" ++ paramText ps ++ b!") " ++ r ++ b!"\n" ++ fieldText fs
  | .funcMany n ns ps r rs :: fs => b!"\t" ++ nameText (n :: ns) ++ b!" func(" ++ paramText ps ++ b!") (" ++ nameText (r :: rs) ++ b!")\n" ++ fieldText fs

/-- Their tokens, when names have the kind `nk` and types the kind `tk`. -/
def fieldToks (nk tk : Kind) : List FieldLine → List Token
  | [] => []
  | .embedded T :: fs => (.tab, b!"\t") :: (tk, T) :: (.newLine, b!"\n") :: fieldToks nk tk fs
  | .named n ns T :: fs => (.tab, b!"\t") :: (nameToks nk (n :: ns) ++ (.space, b!" ") :: (tk, T) :: (.newLine, b!"\n") :: fieldToks nk tk fs)
  | .func n ns ps :: fs => (.tab, b!"\t") :: (nameToks nk (n :: ns) ++ (.space, b!" ") :: (.func_, b!"func") :: (.parenL, b!"(") ::
      (paramToks nk tk ps ++ (.parenR, b!")") :: (.newLine, b!"\n") :: fieldToks nk tk fs))
  | .funcOne n ns ps r :: fs => (.tab, b!"\t") :: (nameToks nk (n :: ns) ++ (.space, b!" ") :: (.func_, b!"func") :: (.parenL, b!"(") ::
      (paramToks nk tk ps ++ (.parenR, b!")") :: (.space, b!" ") :: (tk, r) :: (.newLine, b!"\n") :: fieldToks nk tk fs))
  | .funcMany n ns ps r rs :: fs => (.tab, b!"\t") :: (nameToks nk (n :: ns) ++ (.space, b!" ") :: (.func_, b!"func") :: (.parenL, b!"(") ::
      (paramToks nk tk ps ++ (.parenR, b!")") :: (.space, b!" ") :: (.parenL, b!"(") :: (nameToks tk (r :: rs) ++ (.parenR, b!")") ::
        (.newLine, b!"\n") :: fieldToks nk tk fs)))

theorem names_toks : ∀ (n : Bytes) (ns : List Bytes), Names (ns.length + 1) (nameToks .raw (n :: ns))
  | n, [] => .one rfl
  | n, m :: ns => .more (bs := []) (cs := [(.space, b!" ")]) rfl (by simp) rfl (by simp [isGap]) (names_toks m ns)

theorem row_names {ts ts' : List Token} (r : Row 0 ts ts') : ∀ (n : Bytes) (ns : List Bytes),
    Row (ns.length + 1) (nameToks .raw (n :: ns) ++ ts) (nameToks .paramName (n :: ns) ++ ts')
  | n, [] => .word (t := (.raw, n)) rfl r
  | n, m :: ns => .word (t := (.raw, n)) rfl (.keep (by simp) (.keep (by simp) (row_names r m ns)))

theorem row_types {ts ts' : List Token} (r : Row 0 ts ts') : ∀ (n : Bytes) (ns : List Bytes),
    Row 0 (nameToks .raw (n :: ns) ++ ts) (nameToks .paramType (n :: ns) ++ ts')
  | n, [] => .word (n := 0) (t := (.raw, n)) rfl r
  | n, m :: ns => .word (n := 0) (t := (.raw, n)) rfl (.keep (by simp) (.keep (by simp) (row_types r m ns)))

theorem typeWord_params : ∀ (ps : List (Bytes × Bytes)), (paramToks .paramName .paramType ps).map typeWord = paramToks .paramName .paramType ps
  | [] => rfl
  | [(n, T)] => by simp [paramToks, typeWord]
  | (n, T) :: q :: ps => by
    have := typeWord_params (q :: ps)
    simp only [paramToks, List.map_cons, this]
    simp [typeWord]

theorem row_func (ps : List (Bytes × Bytes)) {ts ts' : List Token} (r : Row 0 ts ts') :
    Row 0 ((.space, b!" ") :: (.func_, b!"func") :: (.parenL, b!"(") :: (paramToks .raw .raw ps ++ (.parenR, b!")") :: ts))
      ((.space, b!" ") :: (.func_, b!"func") :: (.parenL, b!"(") :: (paramToks .paramName .paramType ps ++ (.parenR, b!")") :: ts')) := by
  have := Row.func (n := 0) (t := (.func_, b!"func")) (l := (.parenL, b!"(")) (u := (.parenR, b!")")) rfl rfl rfl (params_named _ _ ps) r
  rw [typeWord_params] at this
  exact .keep (by simp) this

/-- A line that begins with a tab and names. -/
theorem fields_named (R : List Token) (n : Bytes) (ns : List Bytes) {ty ty' ts ts' : List Token} (hc : commaFree ty)
    (r : Row 0 ((.space, b!" ") :: ty) ((.space, b!" ") :: ty')) (f : Fields R ts ts') :
    Fields R ((.tab, b!"\t") :: (nameToks .raw (n :: ns) ++ (.space, b!" ") :: (ty ++ (.newLine, b!"\n") :: ts)))
      ((.tab, b!"\t") :: (nameToks .paramName (n :: ns) ++ (.space, b!" ") :: (ty' ++ (.newLine, b!"\n") :: ts'))) := by
  have := Fields.line (R := R) (n := ns.length + 1) (t := (.tab, b!"\t")) (u := (.newLine, b!"\n")) (us := nameToks .raw (n :: ns) ++ (Kind.space, b!" ") :: ty)
    (by simp) (.named (t := (Kind.space, b!" ")) (bs := [(.tab, b!"\t")]) (ty := ty) (by simp [isGap]) (names_toks n ns) rfl hc)
    (.keep (by simp) (row_names r n ns)) rfl f
  simpa using this

theorem fields_toks (R : List Token) : ∀ (fs : List FieldLine), Fields R (fieldToks .raw .raw fs ++ R) (fieldToks .paramName .paramType fs)
  | [] => .stop
  | .embedded T :: fs => by
    have := Fields.line (R := R) (n := 0) (t := (.tab, b!"\t")) (u := (.newLine, b!"\n")) (us := [(.raw, T)])
      (by simp) (.embedded (bs := [(.tab, b!"\t")]) (ty := []) (by simp [isGap]) rfl (by simp)) (.keep (by simp) (.word rfl .nil)) rfl (fields_toks R fs)
    simpa [fieldToks] using this
  | .named n ns T :: fs => by
    have := fields_named R n ns (ty := [(.raw, T)]) (by simp [commaFree]) (.keep (by simp) (.word rfl .nil)) (fields_toks R fs)
    simpa [fieldToks] using this
  | .func n ns ps :: fs => by
    have := fields_named R n ns (by simp [commaFree, isGap]) (row_func ps .nil) (fields_toks R fs)
    simpa [fieldToks] using this
  | .funcOne n ns ps r :: fs => by
    have := fields_named R n ns (by simp [commaFree, isGap]) (row_func ps (.keep (t := (.space, b!" ")) (by simp) (.word (t := (.raw, r)) rfl .nil))) (fields_toks R fs)
    simpa [fieldToks] using this
  | .funcMany n ns ps r rs :: fs => by
    have := fields_named R n ns (by simp [commaFree, isGap]) (row_func ps (.keep (t := (.space, b!" ")) (by simp) (.keep (t := (.parenL, b!"(")) (by simp)
      (row_types (.keep (t := (.parenR, b!")")) (by simp) .nil) r rs)))) (fields_toks R fs)
    simpa [fieldToks] using this

theorem tokens_names {c : UInt8} (hc : c ∈ separatorBytes) (rest : Bytes) : ∀ (n : Bytes) (ns : List Bytes), (∀ x ∈ n :: ns, Word x) →
    tokens (nameText (n :: ns) ++ c :: rest) = nameToks .raw (n :: ns) ++ (Kind.new [c], [c]) :: tokens rest
  | n, [], hw => by
    have hn := hw n (by simp)
    rw [nameText, tokens_word hn.bytes hn.ne_nil hc, hn.raw]
    rfl
  | n, m :: ns, hw => by
    have hn := hw n (by simp)
    rw [nameText, show n ++ b!", " ++ nameText (m :: ns) ++ c :: rest = n ++ 44 :: 32 :: (nameText (m :: ns) ++ c :: rest) by simp,
      tokens_word hn.bytes hn.ne_nil (by decide), tokens_sep (by decide), hn.raw, tokens_names hc rest m ns (fun x hx => hw x (by simp only [List.mem_cons] at hx ⊢; exact .inr hx))]
    rfl
    simp

theorem lexEnd_names {c : UInt8} (hc : c ∈ separatorBytes) (rest : Bytes) : ∀ (n : Bytes) (ns : List Bytes), (∀ x ∈ n :: ns, Word x) → ∀ buf,
    lexEnd .code buf (nameText (n :: ns) ++ c :: rest) = lexEnd .code [] rest
  | n, [], hw, buf => by rw [nameText, lexEnd_word _ _ _ (hw n (by simp)).bytes, lexEnd_sep hc]
  | n, m :: ns, hw, buf => by
    rw [nameText, show n ++ b!", " ++ nameText (m :: ns) ++ c :: rest = n ++ 44 :: 32 :: (nameText (m :: ns) ++ c :: rest) by simp,
      lexEnd_word _ _ _ (hw n (by simp)).bytes, lexEnd_sep (by decide), lexEnd_sep (by decide),
      lexEnd_names hc rest m ns (fun x hx => hw x (by simp only [List.mem_cons] at hx ⊢; exact .inr hx))]
    simp

theorem tokens_fields (rest : Bytes) : ∀ (fs : List FieldLine), (∀ f ∈ fs, f.OK) →
    tokens (fieldText fs ++ rest) = fieldToks .raw .raw fs ++ tokens rest
  | [], _ => rfl
  | .embedded T :: fs, hf => by
    have hT : Word T := hf (.embedded T) (by simp)
    rw [fieldText, show b!"\t" ++ T ++ b!"\n" ++ fieldText fs ++ rest = 9 :: (T ++ 10 :: (fieldText fs ++ rest)) by simp,
      tokens_sep (by decide), tokens_word hT.bytes hT.ne_nil (by decide), tokens_fields rest fs (fun f h => hf f (by simp [h])), hT.raw]
    rfl
  | .named n ns T :: fs, hf => by
    obtain ⟨hns, hT⟩ := hf (.named n ns T) (by simp)
    rw [fieldText, show b!"\t" ++ nameText (n :: ns) ++ b!" " ++ T ++ b!"\n" ++ fieldText fs ++ rest =
        9 :: (nameText (n :: ns) ++ 32 :: (T ++ 10 :: (fieldText fs ++ rest))) by simp,
      tokens_sep (by decide), tokens_names (by decide) _ n ns hns, tokens_word hT.bytes hT.ne_nil (by decide), tokens_fields rest fs (fun f h => hf f (by simp [h])), hT.raw]
    simp only [fieldToks, List.append_assoc, List.cons_append]
    rfl
  | .func n ns ps :: fs, hf => by
    obtain ⟨hns, hp⟩ := hf (.func n ns ps) (by simp)
    rw [fieldText, show b!"\t" ++ nameText (n :: ns) ++ b!" func(" ++ paramText ps ++ b!")\n" ++ fieldText fs ++ rest =
        9 :: (nameText (n :: ns) ++ 32 :: (b!"func" ++ 40 :: (paramText ps ++ 41 :: 10 :: (fieldText fs ++ rest)))) by simp,
      tokens_sep (by decide), tokens_names (by decide) _ n ns hns, tokens_word (by decide) (by decide) (by decide), tokens_params _ _ hp, tokens_sep (by decide),
      tokens_fields rest fs (fun f h => hf f (by simp [h]))]
    simp only [fieldToks, List.append_assoc, List.cons_append]
    rfl
  | .funcOne n ns ps r :: fs, hf => by
    obtain ⟨hns, hp, hr⟩ := hf (.funcOne n ns ps r) (by simp)
    rw [fieldText, show b!"\t" ++ nameText (n :: ns) ++ b!" func(" ++ paramText ps ++ b!") " ++ r ++ b!"\n" ++ fieldText fs ++ rest =
        9 :: (nameText (n :: ns) ++ 32 :: (b!"func" ++ 40 :: (paramText ps ++ 41 :: 32 :: (r ++ 10 :: (fieldText fs ++ rest))))) by simp,
      tokens_sep (by decide), tokens_names (by decide) _ n ns hns, tokens_word (by decide) (by decide) (by decide), tokens_params _ _ hp, tokens_sep (by decide),
      tokens_word hr.bytes hr.ne_nil (by decide), tokens_fields rest fs (fun f h => hf f (by simp [h])), hr.raw]
    simp only [fieldToks, List.append_assoc, List.cons_append]
    rfl
  | .funcMany n ns ps r rs :: fs, hf => by
    obtain ⟨hns, hp, hr⟩ := hf (.funcMany n ns ps r rs) (by simp)
    rw [fieldText, show b!"\t" ++ nameText (n :: ns) ++ b!" func(" ++ paramText ps ++ b!") (" ++ nameText (r :: rs) ++ b!")\n" ++ fieldText fs ++ rest =
        9 :: (nameText (n :: ns) ++ 32 :: (b!"func" ++ 40 :: (paramText ps ++ 41 :: 32 :: 40 :: (nameText (r :: rs) ++ 41 :: 10 :: (fieldText fs ++ rest))))) by simp,
      tokens_sep (by decide), tokens_names (by decide) _ n ns hns, tokens_word (by decide) (by decide) (by decide), tokens_params _ _ hp, tokens_sep (by decide),
      tokens_sep (by decide), tokens_names (by decide) _ r rs hr, tokens_sep (by decide), tokens_fields rest fs (fun f h => hf f (by simp [h]))]
    simp only [fieldToks, List.append_assoc, List.cons_append]
    rfl

theorem lexEnd_fields (rest : Bytes) : ∀ (fs : List FieldLine), (∀ f ∈ fs, f.OK) →
    lexEnd .code [] (fieldText fs ++ rest) = lexEnd .code [] rest
  | [], _ => rfl
  | .embedded T :: fs, hf => by
    have hT : Word T := hf (.embedded T) (by simp)
    rw [fieldText, show b!"\t" ++ T ++ b!"\n" ++ fieldText fs ++ rest = 9 :: (T ++ 10 :: (fieldText fs ++ rest)) by simp,
      lexEnd_sep (by decide), lexEnd_word _ _ _ hT.bytes, lexEnd_sep (by decide), lexEnd_fields rest fs (fun f h => hf f (by simp [h]))]
  | .named n ns T :: fs, hf => by
    obtain ⟨hns, hT⟩ := hf (.named n ns T) (by simp)
    rw [fieldText, show b!"\t" ++ nameText (n :: ns) ++ b!" " ++ T ++ b!"\n" ++ fieldText fs ++ rest =
        9 :: (nameText (n :: ns) ++ 32 :: (T ++ 10 :: (fieldText fs ++ rest))) by simp,
      lexEnd_sep (by decide), lexEnd_names (by decide) _ n ns hns, lexEnd_word _ _ _ hT.bytes, lexEnd_sep (by decide), lexEnd_fields rest fs (fun f h => hf f (by simp [h]))]
  | .func n ns ps :: fs, hf => by
    obtain ⟨hns, hp⟩ := hf (.func n ns ps) (by simp)
    rw [fieldText, show b!"\t" ++ nameText (n :: ns) ++ b!" func(" ++ paramText ps ++ b!")\n" ++ fieldText fs ++ rest =
        9 :: (nameText (n :: ns) ++ 32 :: (b!"func" ++ 40 :: (paramText ps ++ 41 :: 10 :: (fieldText fs ++ rest)))) by simp,
      lexEnd_sep (by decide), lexEnd_names (by decide) _ n ns hns, lexEnd_word _ _ _ (by decide), lexEnd_sep (by decide), lexEnd_params _ _ hp, lexEnd_sep (by decide),
      lexEnd_fields rest fs (fun f h => hf f (by simp [h]))]
  | .funcOne n ns ps r :: fs, hf => by
    obtain ⟨hns, hp, hr⟩ := hf (.funcOne n ns ps r) (by simp)
    rw [fieldText, show b!"\t" ++ nameText (n :: ns) ++ b!" func(" ++ paramText ps ++ b!") " ++ r ++ b!"\n" ++ fieldText fs ++ rest =
        9 :: (nameText (n :: ns) ++ 32 :: (b!"func" ++ 40 :: (paramText ps ++ 41 :: 32 :: (r ++ 10 :: (fieldText fs ++ rest))))) by simp,
      lexEnd_sep (by decide), lexEnd_names (by decide) _ n ns hns, lexEnd_word _ _ _ (by decide), lexEnd_sep (by decide), lexEnd_params _ _ hp, lexEnd_sep (by decide),
      lexEnd_word _ _ _ hr.bytes, lexEnd_sep (by decide), lexEnd_fields rest fs (fun f h => hf f (by simp [h]))]
  | .funcMany n ns ps r rs :: fs, hf => by
    obtain ⟨hns, hp, hr⟩ := hf (.funcMany n ns ps r rs) (by simp)
    rw [fieldText, show b!"\t" ++ nameText (n :: ns) ++ b!" func(" ++ paramText ps ++ b!") (" ++ nameText (r :: rs) ++ b!")\n" ++ fieldText fs ++ rest =
        9 :: (nameText (n :: ns) ++ 32 :: (b!"func" ++ 40 :: (paramText ps ++ 41 :: 32 :: 40 :: (nameText (r :: rs) ++ 41 :: 10 :: (fieldText fs ++ rest))))) by simp,
      lexEnd_sep (by decide), lexEnd_names (by decide) _ n ns hns, lexEnd_word _ _ _ (by decide), lexEnd_sep (by decide), lexEnd_params _ _ hp, lexEnd_sep (by decide),
      lexEnd_sep (by decide), lexEnd_names (by decide) _ r rs hr, lexEnd_sep (by decide), lexEnd_fields rest fs (fun f h => hf f (by simp [h]))]

/-- **C56** In a scope `type NAME struct {`, lines of fields, `}` and anything behind it, every field name becomes a
node of kind `ParamName` and every field type or embedded type (here: one word) a node of kind `ParamType`; in a field
of function type the parameter names become `ParamName`, the parameter types and the results `ParamType`. -/
theorem C56_fields (ho : MapOrder ord) (w : WF h) (ac : Acyclic h) {startLine : Int} {text : Bytes} {h' : Heap} {scs : List ScopeRec}
    (e : parseScopeOrd ord h startLine text = some (h', scs)) {i : Nat} {sc : ScopeRec} (hsc : scs[i]? = some sc)
    {name rest : Bytes} {fs : List FieldLine} (hn : Word name) (hf : ∀ f ∈ fs, f.OK) (hr : Complete rest)
    {g : List Token} (hg : (sectionsOf startLine text).2[i]? = some g)
    (ht : tokText g = b!"type " ++ name ++ b!" struct {\n" ++ fieldText fs ++ b!"}" ++ rest) :
    ∃ rest', chainTokens h' sc.node = some ((.type_, b!"type") :: (.space, b!" ") :: (.typeName, name) :: (.space, b!" ") :: (.struct_, b!"struct") ::
      (.space, b!" ") :: (.curlyL, b!"{") :: (.newLine, b!"\n") :: (fieldToks .paramName .paramType fs ++ (.curlyR, b!"}") :: rest')) := by
  have e0 : b!"type " ++ name ++ b!" struct {\n" ++ fieldText fs ++ b!"}" ++ rest =
      b!"type" ++ 32 :: (name ++ 32 :: (b!"struct" ++ 32 :: 123 :: 10 :: (fieldText fs ++ 125 :: rest))) := by simp
  rw [e0] at ht
  have hk : tokens (b!"type" ++ 32 :: (name ++ 32 :: (b!"struct" ++ 32 :: 123 :: 10 :: (fieldText fs ++ 125 :: rest)))) =
      (.type_, b!"type") :: (.space, b!" ") :: (.raw, name) :: ([] ++ (.space, b!" ") :: (.struct_, b!"struct") :: (.space, b!" ") :: (.curlyL, b!"{") ::
        ((.newLine, b!"\n") :: (fieldToks .raw .raw fs ++ (.curlyR, b!"}") :: tokens rest))) := by
    rw [tokens_word (by decide) (by decide) (by decide), tokens_word hn.bytes hn.ne_nil (by decide), tokens_word (by decide) (by decide) (by decide),
      tokens_sep (by decide), tokens_sep (by decide), tokens_fields _ _ hf, tokens_sep (by decide), hn.raw]
    rfl
  have hc : Complete (b!"type" ++ 32 :: (name ++ 32 :: (b!"struct" ++ 32 :: 123 :: 10 :: (fieldText fs ++ 125 :: rest)))) := by
    rw [Complete, lexEnd_word _ _ _ (by decide), lexEnd_sep (by decide), lexEnd_word _ _ _ hn.bytes, lexEnd_sep (by decide),
      lexEnd_word _ _ _ (by decide), lexEnd_sep (by decide), lexEnd_sep (by decide), lexEnd_sep (by decide), lexEnd_fields _ _ hf, lexEnd_sep (by decide)]
    exact hr
  rw [section_tokens_text ho w ac hg ht hc, hk] at hg
  obtain ⟨rest', h2⟩ := C56_struct ho w ac e hsc hg .none (.skip (.inl rfl) (fields_toks ((.curlyR, b!"}") :: tokens rest) fs))
  exact ⟨rest', by simpa using h2⟩

/-! ## C57: interfaces -/

/-- **C57** The methods of an interface declaration after `ParseScope`, whatever follows its closing bracket. -/
theorem C57_interface (ho : MapOrder ord) (w : WF h) (ac : Acyclic h) {startLine : Int} {text : Bytes} {h' : Heap} {scs : List ScopeRec}
    (e : parseScopeOrd ord h startLine text = some (h', scs)) {i : Nat} {sc : ScopeRec} (hsc : scs[i]? = some sc)
    {name : Bytes} {tp ts ts' M : List Token}
    (hg : (sectionsOf startLine text).2[i]? = some ((.type_, b!"type") :: (.space, b!" ") :: (.raw, name) :: (tp ++ (.space, b!" ") :: (.interface_, b!"interface") :: (.space, b!" ") ::
      (.curlyL, b!"{") :: ts))) (P : TypeParams tp) (F : Methods ((.curlyR, b!"}") :: M) ts ts') :
    ∃ rest', chainTokens h' sc.node = some ((.type_, b!"type") :: (.space, b!" ") :: (.typeName, name) :: (tp ++ (.space, b!" ") :: (.interface_, b!"interface") ::
      (.space, b!" ") :: (.curlyL, b!"{") :: (ts' ++ (.curlyR, b!"}") :: rest'))) := by
  obtain ⟨rest', h2⟩ := C58_type_front ho w ac e hsc hg P
    (.interface (gap := [(.space, b!" ")]) rfl (by simp) rfl rfl F (.stop : Def M M []))
  exact ⟨rest', by simpa using h2⟩

/-- A line of an interface. -/
inductive Member where
  /-- a method with named parameters and no result -/
  | plain (name : Bytes) (ps : List (Bytes × Bytes))
  /-- a method with named parameters and one result, here one word -/
  | one (name : Bytes) (ps : List (Bytes × Bytes)) (result : Bytes)
  /-- a method with named parameters and named results -/
  | many (name : Bytes) (ps rs : List (Bytes × Bytes))
  /-- an embedded interface -/
  | embedded (name : Bytes)

/-- All its words are words. -/
def Member.OK : Member → Prop
  | .plain n ps => Word n ∧ ∀ x ∈ ps, Word x.1 ∧ Word x.2
  | .one n ps r => Word n ∧ (∀ x ∈ ps, Word x.1 ∧ Word x.2) ∧ Word r
  | .many n ps rs => Word n ∧ (∀ x ∈ ps, Word x.1 ∧ Word x.2) ∧ ∀ x ∈ rs, Word x.1 ∧ Word x.2
  | .embedded n => Word n

/-- The lines of an interface. -/
def memberText : List Member → Bytes
  | [] => []
  | .plain n ps :: ms => b!"\t" ++ n ++ b!"(" ++ paramText ps ++ b!")\n" ++ memberText ms
  | .one n ps r :: ms => b!"\t" ++ n ++ b!"(" ++ paramText ps ++ b!") " ++ r ++ b!"\n" ++ memberText ms
  | .many n ps rs :: ms => b!"\t" ++ n ++ b!"(" ++ paramText ps ++ b!") (" ++ paramText rs ++ b!")\n" ++ memberText ms
  | .embedded n :: ms => b!"\t" ++ n ++ b!"\n" ++ memberText ms

/-- Their tokens: method names have the kind `mk`, embedded names `ek`, parameter names `nk` and types `tk`. -/
def memberToks (mk ek nk tk : Kind) : List Member → List Token
  | [] => []
  | .plain n ps :: ms => (.tab, b!"\t") :: (mk, n) :: (.parenL, b!"(") :: (paramToks nk tk ps ++ (.parenR, b!")") :: (.newLine, b!"\n") :: memberToks mk ek nk tk ms)
  | .one n ps r :: ms => (.tab, b!"\t") :: (mk, n) :: (.parenL, b!"(") :: (paramToks nk tk ps ++ (.parenR, b!")") :: (.space, b!" ") :: (tk, r) ::
      (.newLine, b!"\n") :: memberToks mk ek nk tk ms)
  | .many n ps rs :: ms => (.tab, b!"\t") :: (mk, n) :: (.parenL, b!"(") :: (paramToks nk tk ps ++ (.parenR, b!")") :: (.space, b!" ") :: (.parenL, b!"(") ::
      (paramToks nk tk rs ++ (.parenR, b!")") :: (.newLine, b!"\n") :: memberToks mk ek nk tk ms))
  | .embedded n :: ms => (.tab, b!"\t") :: (ek, n) :: (.newLine, b!"\n") :: memberToks mk ek nk tk ms

theorem methods_toks (R : List Token) : ∀ (ms : List Member), Methods R (memberToks .raw .raw .raw .raw ms ++ R) (memberToks .funcName .typeName .paramName .paramType ms)
  | [] => .stop
  | .plain n ps :: ms => by
    have := Methods.skip (R := R) (t := (.tab, b!"\t")) (.inl (.inr (.inl rfl))) (.method (n := (.raw, n)) (t := (.parenL, b!"(")) (u := (.newLine, b!"\n")) rfl rfl rfl
      (.parens (u := (.parenR, b!")")) rfl rfl (params_named _ _ ps) .stop) (methods_toks R ms))
    simpa [memberToks] using this
  | .one n ps r :: ms => by
    have := Methods.skip (R := R) (t := (.tab, b!"\t")) (.inl (.inr (.inl rfl))) (.method (n := (.raw, n)) (t := (.parenL, b!"(")) (u := (.newLine, b!"\n")) rfl rfl rfl
      (.parens (u := (.parenR, b!")")) rfl rfl (params_named _ _ ps) (.result (b := (.space, b!" ")) (t := (.raw, r)) (us := []) rfl (by simp) (by simp) (by simp) .stop)) (methods_toks R ms))
    simpa [memberToks] using this
  | .many n ps rs :: ms => by
    have := Methods.skip (R := R) (t := (.tab, b!"\t")) (.inl (.inr (.inl rfl))) (.method (n := (.raw, n)) (t := (.parenL, b!"(")) (u := (.newLine, b!"\n")) rfl rfl rfl
      (.parens (u := (.parenR, b!")")) rfl rfl (params_named _ _ ps) (.results (b := (.space, b!" ")) (t := (.parenL, b!"(")) (u := (.parenR, b!")")) rfl rfl rfl (params_named _ _ rs) .stop))
      (methods_toks R ms))
    simpa [memberToks] using this
  | .embedded n :: ms => by
    have := Methods.skip (R := R) (t := (.tab, b!"\t")) (.inl (.inr (.inl rfl))) (.embedded (t := (.raw, n)) (u := (.newLine, b!"\n")) (us := []) (by simp [isBlank])
      (by simp) (by simp) rfl (methods_toks R ms))
    simpa [memberToks] using this

theorem tokens_members (rest : Bytes) : ∀ (ms : List Member), (∀ m ∈ ms, m.OK) → tokens (memberText ms ++ rest) = memberToks .raw .raw .raw .raw ms ++ tokens rest
  | [], _ => rfl
  | .plain n ps :: ms, hm => by
    obtain ⟨hn, hp⟩ := hm (.plain n ps) (by simp)
    rw [memberText, show b!"\t" ++ n ++ b!"(" ++ paramText ps ++ b!")\n" ++ memberText ms ++ rest = 9 :: (n ++ 40 :: (paramText ps ++ 41 :: 10 :: (memberText ms ++ rest))) by simp,
      tokens_sep (by decide), tokens_word hn.bytes hn.ne_nil (by decide), tokens_params _ _ hp, tokens_sep (by decide), tokens_members rest ms (fun f h => hm f (by simp [h])), hn.raw]
    simp only [memberToks, List.append_assoc, List.cons_append]
    rfl
  | .one n ps r :: ms, hm => by
    obtain ⟨hn, hp, hr⟩ := hm (.one n ps r) (by simp)
    rw [memberText, show b!"\t" ++ n ++ b!"(" ++ paramText ps ++ b!") " ++ r ++ b!"\n" ++ memberText ms ++ rest =
        9 :: (n ++ 40 :: (paramText ps ++ 41 :: 32 :: (r ++ 10 :: (memberText ms ++ rest)))) by simp,
      tokens_sep (by decide), tokens_word hn.bytes hn.ne_nil (by decide), tokens_params _ _ hp, tokens_sep (by decide), tokens_word hr.bytes hr.ne_nil (by decide),
      tokens_members rest ms (fun f h => hm f (by simp [h])), hn.raw, hr.raw]
    simp only [memberToks, List.append_assoc, List.cons_append]
    rfl
  | .many n ps rs :: ms, hm => by
    obtain ⟨hn, hp, hr⟩ := hm (.many n ps rs) (by simp)
    rw [memberText, show b!"\t" ++ n ++ b!"(" ++ paramText ps ++ b!") (" ++ paramText rs ++ b!")\n" ++ memberText ms ++ rest =
        9 :: (n ++ 40 :: (paramText ps ++ 41 :: 32 :: 40 :: (paramText rs ++ 41 :: 10 :: (memberText ms ++ rest)))) by simp,
      tokens_sep (by decide), tokens_word hn.bytes hn.ne_nil (by decide), tokens_params _ _ hp, tokens_sep (by decide), tokens_sep (by decide), tokens_params _ _ hr, tokens_sep (by decide),
      tokens_members rest ms (fun f h => hm f (by simp [h])), hn.raw]
    simp only [memberToks, List.append_assoc, List.cons_append]
    rfl
  | .embedded n :: ms, hm => by
    have hn : Word n := hm (.embedded n) (by simp)
    rw [memberText, show b!"\t" ++ n ++ b!"\n" ++ memberText ms ++ rest = 9 :: (n ++ 10 :: (memberText ms ++ rest)) by simp,
      tokens_sep (by decide), tokens_word hn.bytes hn.ne_nil (by decide), tokens_members rest ms (fun f h => hm f (by simp [h])), hn.raw]
    rfl

theorem lexEnd_members (rest : Bytes) : ∀ (ms : List Member), (∀ m ∈ ms, m.OK) → lexEnd .code [] (memberText ms ++ rest) = lexEnd .code [] rest
  | [], _ => rfl
  | .plain n ps :: ms, hm => by
    obtain ⟨hn, hp⟩ := hm (.plain n ps) (by simp)
    rw [memberText, show b!"\t" ++ n ++ b!"(" ++ paramText ps ++ b!")\n" ++ memberText ms ++ rest = 9 :: (n ++ 40 :: (paramText ps ++ 41 :: 10 :: (memberText ms ++ rest))) by simp,
      lexEnd_sep (by decide), lexEnd_word _ _ _ hn.bytes, lexEnd_sep (by decide), lexEnd_params _ _ hp, lexEnd_sep (by decide), lexEnd_members rest ms (fun f h => hm f (by simp [h]))]
  | .one n ps r :: ms, hm => by
    obtain ⟨hn, hp, hr⟩ := hm (.one n ps r) (by simp)
    rw [memberText, show b!"\t" ++ n ++ b!"(" ++ paramText ps ++ b!") " ++ r ++ b!"\n" ++ memberText ms ++ rest =
        9 :: (n ++ 40 :: (paramText ps ++ 41 :: 32 :: (r ++ 10 :: (memberText ms ++ rest)))) by simp,
      lexEnd_sep (by decide), lexEnd_word _ _ _ hn.bytes, lexEnd_sep (by decide), lexEnd_params _ _ hp, lexEnd_sep (by decide), lexEnd_word _ _ _ hr.bytes, lexEnd_sep (by decide),
      lexEnd_members rest ms (fun f h => hm f (by simp [h]))]
  | .many n ps rs :: ms, hm => by
    obtain ⟨hn, hp, hr⟩ := hm (.many n ps rs) (by simp)
    rw [memberText, show b!"\t" ++ n ++ b!"(" ++ paramText ps ++ b!") (" ++ paramText rs ++ b!")\n" ++ memberText ms ++ rest =
        9 :: (n ++ 40 :: (paramText ps ++ 41 :: 32 :: 40 :: (paramText rs ++ 41 :: 10 :: (memberText ms ++ rest)))) by simp,
      lexEnd_sep (by decide), lexEnd_word _ _ _ hn.bytes, lexEnd_sep (by decide), lexEnd_params _ _ hp, lexEnd_sep (by decide), lexEnd_sep (by decide), lexEnd_params _ _ hr, lexEnd_sep (by decide),
      lexEnd_members rest ms (fun f h => hm f (by simp [h]))]
  | .embedded n :: ms, hm => by
    have hn : Word n := hm (.embedded n) (by simp)
    rw [memberText, show b!"\t" ++ n ++ b!"\n" ++ memberText ms ++ rest = 9 :: (n ++ 10 :: (memberText ms ++ rest)) by simp,
      lexEnd_sep (by decide), lexEnd_word _ _ _ hn.bytes, lexEnd_sep (by decide), lexEnd_members rest ms (fun f h => hm f (by simp [h]))]

/-- **C57** In a scope `type NAME interface {`, lines of methods and embedded interfaces, `}` and anything behind it,
every method name becomes a node of kind `FuncName`, parameters and results are labelled as in a function declaration
and every embedded name becomes a node of kind `TypeName`. -/
theorem C57_members (ho : MapOrder ord) (w : WF h) (ac : Acyclic h) {startLine : Int} {text : Bytes} {h' : Heap} {scs : List ScopeRec}
    (e : parseScopeOrd ord h startLine text = some (h', scs)) {i : Nat} {sc : ScopeRec} (hsc : scs[i]? = some sc)
    {name rest : Bytes} {ms : List Member} (hn : Word name) (hm : ∀ m ∈ ms, m.OK) (hr : Complete rest)
    {g : List Token} (hg : (sectionsOf startLine text).2[i]? = some g)
    (ht : tokText g = b!"type " ++ name ++ b!" interface {\n" ++ memberText ms ++ b!"}" ++ rest) :
    ∃ rest', chainTokens h' sc.node = some ((.type_, b!"type") :: (.space, b!" ") :: (.typeName, name) :: (.space, b!" ") :: (.interface_, b!"interface") ::
      (.space, b!" ") :: (.curlyL, b!"{") :: (.newLine, b!"\n") :: (memberToks .funcName .typeName .paramName .paramType ms ++ (.curlyR, b!"}") :: rest')) := by
  have e0 : b!"type " ++ name ++ b!" interface {\n" ++ memberText ms ++ b!"}" ++ rest =
      b!"type" ++ 32 :: (name ++ 32 :: (b!"interface" ++ 32 :: 123 :: 10 :: (memberText ms ++ 125 :: rest))) := by simp
  rw [e0] at ht
  have hk : tokens (b!"type" ++ 32 :: (name ++ 32 :: (b!"interface" ++ 32 :: 123 :: 10 :: (memberText ms ++ 125 :: rest)))) =
      (.type_, b!"type") :: (.space, b!" ") :: (.raw, name) :: ([] ++ (.space, b!" ") :: (.interface_, b!"interface") :: (.space, b!" ") :: (.curlyL, b!"{") ::
        ((.newLine, b!"\n") :: (memberToks .raw .raw .raw .raw ms ++ (.curlyR, b!"}") :: tokens rest))) := by
    rw [tokens_word (by decide) (by decide) (by decide), tokens_word hn.bytes hn.ne_nil (by decide), tokens_word (by decide) (by decide) (by decide),
      tokens_sep (by decide), tokens_sep (by decide), tokens_members _ _ hm, tokens_sep (by decide), hn.raw]
    rfl
  have hc : Complete (b!"type" ++ 32 :: (name ++ 32 :: (b!"interface" ++ 32 :: 123 :: 10 :: (memberText ms ++ 125 :: rest)))) := by
    rw [Complete, lexEnd_word _ _ _ (by decide), lexEnd_sep (by decide), lexEnd_word _ _ _ hn.bytes, lexEnd_sep (by decide),
      lexEnd_word _ _ _ (by decide), lexEnd_sep (by decide), lexEnd_sep (by decide), lexEnd_sep (by decide), lexEnd_members _ _ hm, lexEnd_sep (by decide)]
    exact hr
  rw [section_tokens_text ho w ac hg ht hc, hk] at hg
  obtain ⟨rest', h2⟩ := C57_interface ho w ac e hsc hg .none (.skip (.inl (.inr (.inr (.inl rfl)))) (methods_toks ((.curlyR, b!"}") :: tokens rest) ms))
  exact ⟨rest', by simpa using h2⟩

/-! ## Cases that meet the hypotheses, and quirks -/

set_option maxRecDepth 100000

example : Word b!"pkg.T" ∧ Word b!"*T" ∧ Word b!"Name" := by
  refine ⟨⟨by decide, by decide, by decide +kernel⟩, ⟨by decide, by decide, by decide +kernel⟩, ⟨by decide, by decide, by decide +kernel⟩⟩

/-- A struct with a field, two fields of one line, and an embedded type. -/
example : fieldText [.named b!"a" [] b!"T", .named b!"b" [b!"c"] b!"*U", .embedded b!"pkg.E", .func b!"f" [] [], .funcOne b!"g" [] [(b!"x", b!"X")] b!"error",
      .funcMany b!"p" [b!"q"] [(b!"x", b!"X"), (b!"y", b!"Y")] b!"Z" [b!"error"]] =
    b!"\ta T\n\tb, c *U\n\tpkg.E\n\tf func()\n\tg func(x X) error\n\tp, q func(x X, y Y) (Z, error)\n" := by decide

example : labels b!"type S struct {\n\ta T\n\tb, c *U\n\tpkg.E\n}\n" 0 = some ([(.type_, b!"type"), (.space, b!" "), (.typeName, b!"S"), (.space, b!" "), (.struct_, b!"struct"),
    (.space, b!" "), (.curlyL, b!"{"), (.newLine, b!"\n")] ++ fieldToks .paramName .paramType [.named b!"a" [] b!"T", .named b!"b" [b!"c"] b!"*U", .embedded b!"pkg.E"] ++
    [(.curlyR, b!"}"), (.newLine, b!"\n")]) := by cbv

/-- Fields of function type. -/
example : labels b!"type S struct {\n\tf func()\n\tg func(x X) R\n\tp, q func(x X, y Y) (Z, W)\n}\n" 0 = some ([(.type_, b!"type"), (.space, b!" "), (.typeName, b!"S"), (.space, b!" "), (.struct_, b!"struct"),
    (.space, b!" "), (.curlyL, b!"{"), (.newLine, b!"\n")] ++ fieldToks .paramName .paramType [.func b!"f" [] [], .funcOne b!"g" [] [(b!"x", b!"X")] b!"R",
      .funcMany b!"p" [b!"q"] [(b!"x", b!"X"), (b!"y", b!"Y")] b!"Z" [b!"W"]] ++
    [(.curlyR, b!"}"), (.newLine, b!"\n")]) := by decide +kernel

/-- The grammar also reads tags, comments, types of several tokens and basic types. -/
example : Fields [(.curlyR, b!"}")] (tokens b!"\n\ta map[K]V `json:\"a\"` // c\n\n\tb []int\n}")
    ((.newLine, b!"\n") :: ([(.tab, b!"\t"), (.paramName, b!"a"), (.space, b!" "), (.map_, b!"map"), (.squareL, b!"["), (.paramType, b!"K"), (.squareR, b!"]"), (.paramType, b!"V"), (.space, b!" "),
      (.string, b!"`json:\"a\"`"), (.space, b!" "), (.comment, b!"// c")] ++ (.newLine, b!"\n") :: (.newLine, b!"\n") :: ([(.tab, b!"\t"), (.paramName, b!"b"), (.space, b!" "), (.squareL, b!"["),
      (.squareR, b!"]"), (.basic, b!"int")] ++ (.newLine, b!"\n") :: []))) := by
  have e : tokens b!"\n\ta map[K]V `json:\"a\"` // c\n\n\tb []int\n}" = (.newLine, b!"\n") :: ((.tab, b!"\t") :: [(.raw, b!"a"), (.space, b!" "), (.map_, b!"map"), (.squareL, b!"["), (.raw, b!"K"),
      (.squareR, b!"]"), (.raw, b!"V"), (.space, b!" "), (.string, b!"`json:\"a\"`"), (.space, b!" "), (.comment, b!"// c")] ++ (.newLine, b!"\n") :: (.newLine, b!"\n") ::
      ((.tab, b!"\t") :: [(.raw, b!"b"), (.space, b!" "), (.squareL, b!"["), (.squareR, b!"]"), (.basic, b!"int")] ++ (.newLine, b!"\n") :: [(.curlyR, b!"}")])) := by decide +kernel
  rw [e]
  refine .skip (.inl rfl) (.line (n := 1) (t := (.tab, b!"\t")) (by decide) ?_ ?_ rfl (.skip (.inl rfl) (.line (n := 1) (t := (.tab, b!"\t")) (by decide) ?_ ?_ rfl .stop)))
  · exact .named (bs := [(Kind.tab, b!"\t")]) (ns := [(Kind.raw, b!"a")]) (t := (Kind.space, b!" ")) (by simp [isGap]) (.one rfl) rfl (by simp [commaFree, isGap])
  · exact .keep (by decide) (.word (n := 1) rfl (.keep (by decide) (.keep (by decide) (.keep (by decide) (.word (n := 0) rfl (.keep (by decide) (.word (n := 0) rfl
      (.keep (by decide) (.keep (by decide) (.keep (by decide) (.keep (by decide) .nil)))))))))))
  · exact .named (bs := [(Kind.tab, b!"\t")]) (ns := [(Kind.raw, b!"b")]) (t := (Kind.space, b!" ")) (by simp [isGap]) (.one rfl) rfl (by simp [commaFree, isGap])
  · exact .keep (by decide) (.word (n := 1) rfl (.keep (by decide) (.keep (by decide) (.keep (by decide) (.keep (by decide) .nil)))))

/-- A field whose function type runs over two lines and contains square brackets: `K` becomes a type, too. -/
example : Fields [(.curlyR, b!"}")] (tokens b!"\tf func(\n\t\tm map[K]V) R\n}")
    ([(.tab, b!"\t"), (.paramName, b!"f"), (.space, b!" "), (.func_, b!"func"), (.parenL, b!"("), (.newLine, b!"\n"), (.tab, b!"\t"), (.tab, b!"\t"), (.paramName, b!"m"), (.space, b!" "),
      (.map_, b!"map"), (.squareL, b!"["), (.paramType, b!"K"), (.squareR, b!"]"), (.paramType, b!"V"), (.parenR, b!")"), (.space, b!" "), (.paramType, b!"R")] ++ [(.newLine, b!"\n")]) := by
  have e : tokens b!"\tf func(\n\t\tm map[K]V) R\n}" = (.tab, b!"\t") :: [(.raw, b!"f"), (.space, b!" "), (.func_, b!"func"), (.parenL, b!"("), (.newLine, b!"\n"), (.tab, b!"\t"), (.tab, b!"\t"),
      (.raw, b!"m"), (.space, b!" "), (.map_, b!"map"), (.squareL, b!"["), (.raw, b!"K"), (.squareR, b!"]"), (.raw, b!"V"), (.parenR, b!")"), (.space, b!" "), (.raw, b!"R")] ++
      (.newLine, b!"\n") :: [(.curlyR, b!"}")] := by decide +kernel
  rw [e]
  refine .line (n := 1) (by simp) ?_ ?_ rfl .stop
  · exact .named (bs := [(Kind.tab, b!"\t")]) (ns := [(Kind.raw, b!"f")]) (t := (Kind.space, b!" ")) (by simp [isGap]) (.one rfl) rfl (by simp [commaFree, isGap])
  · refine .keep (by decide) (.word (n := 1) rfl (.keep (by decide) (.func (ps := [(.newLine, b!"\n"), (.tab, b!"\t"), (.tab, b!"\t"), (.raw, b!"m"), (.space, b!" "), (.map_, b!"map"), (.squareL, b!"["),
      (.raw, b!"K"), (.squareR, b!"]"), (.raw, b!"V")]) (ps' := [(.newLine, b!"\n"), (.tab, b!"\t"), (.tab, b!"\t"), (.paramName, b!"m"), (.space, b!" "), (.map_, b!"map"), (.squareL, b!"["),
      (.raw, b!"K"), (.squareR, b!"]"), (.paramType, b!"V")]) rfl rfl rfl ?_ (.keep (by decide) (.word (n := 0) rfl .nil)))))
    refine .sep (.inl (by decide)) (.sep (.inl (by decide)) (.sep (.inl (by decide)) ?_))
    refine (Params.param (nk := .paramName) (tk := .paramType) (t := (.raw, b!"m")) (ty := [(.space, b!" "), (.map_, b!"map"), (.squareL, b!"["), (.raw, b!"K"), (.squareR, b!"]"), (.raw, b!"V")])
      (ty' := [(.paramName, b!"m"), (.space, b!" "), (.map_, b!"map"), (.squareL, b!"["), (.raw, b!"K"), (.squareR, b!"]"), (.paramType, b!"V")])
      (rest := []) (rest' := []) (by decide) ?_ (by simp) .nil :)
    exact .word (pending := true) rfl (.plain (by decide) (.plain (by decide) (.square (inner := [(.raw, b!"K")]) (u := (.squareR, b!"]")) rfl rfl (.word (pending := false) rfl .nil))))

/-- An interface with all four kinds of lines. -/
example : memberText [.embedded b!"E", .plain b!"F" [], .one b!"G" [(b!"a", b!"T")] b!"error", .many b!"H" [(b!"a", b!"T"), (b!"b", b!"U")] [(b!"x", b!"V"), (b!"err", b!"error")]] =
    b!"\tE\n\tF()\n\tG(a T) error\n\tH(a T, b U) (x V, err error)\n" := by decide

example : labels b!"type I interface {\n\tE\n\tF()\n\tG(a T) error\n\tH(a T) (x V, err error)\n}\n" 0 = some ([(.type_, b!"type"), (.space, b!" "), (.typeName, b!"I"), (.space, b!" "),
    (.interface_, b!"interface"), (.space, b!" "), (.curlyL, b!"{"), (.newLine, b!"\n")] ++ memberToks .funcName .typeName .paramName .paramType
      [.embedded b!"E", .plain b!"F" [], .one b!"G" [(b!"a", b!"T")] b!"error", .many b!"H" [(b!"a", b!"T")] [(b!"x", b!"V"), (b!"err", b!"error")]] ++
    [(.curlyR, b!"}"), (.newLine, b!"\n")]) := by cbv

/-- Type parameters, square brackets, a map. -/
example : TypeParams (((tokens b!"type A[K comparable, V []B] map[K]V\n").drop 3).take 12) ∧
    Def [] ((tokens b!"type A[K comparable, V []B] map[K]V\n").drop 16) [(.map_, b!"map"), (.squareL, b!"["), (.raw, b!"K"), (.squareR, b!"]"), (.paramType, b!"V"), (.newLine, b!"\n")] := by
  have e1 : ((tokens b!"type A[K comparable, V []B] map[K]V\n").drop 3).take 12 = (.squareL, b!"[") :: [(.raw, b!"K"), (.space, b!" "), (.raw, b!"comparable"), (.comma, b!","), (.space, b!" "),
      (.raw, b!"V"), (.space, b!" "), (.squareL, b!"["), (.squareR, b!"]"), (.raw, b!"B"), (.squareR, b!"]")] := by decide +kernel
  have e2 : (tokens b!"type A[K comparable, V []B] map[K]V\n").drop 16 = (.map_, b!"map") :: (.squareL, b!"[") :: [(.raw, b!"K"), (.squareR, b!"]"), (.raw, b!"V"), (.newLine, b!"\n")] := by decide +kernel
  rw [e1, e2]
  exact ⟨.some rfl rfl, .pass (by decide) (.square (inner := [(.raw, b!"K")]) (u := (.squareR, b!"]")) rfl rfl
    (.word (t := (.raw, b!"V")) (us := []) (cs := []) rfl (by simp) (by simp) (by simp) (.pass (by decide) .stop)))⟩

example : labels b!"type A[K comparable, V []B] map[K]V\n" 0 = some [(.type_, b!"type"), (.space, b!" "), (.typeName, b!"A"), (.squareL, b!"["), (.raw, b!"K"), (.space, b!" "),
    (.raw, b!"comparable"), (.comma, b!","), (.space, b!" "), (.raw, b!"V"), (.space, b!" "), (.squareL, b!"["), (.squareR, b!"]"), (.raw, b!"B"), (.squareR, b!"]"), (.space, b!" "),
    (.map_, b!"map"), (.squareL, b!"["), (.raw, b!"K"), (.squareR, b!"]"), (.paramType, b!"V"), (.newLine, b!"\n")] := by cbv

example : labels b!"type A = B\n" 0 = some [(.type_, b!"type"), (.space, b!" "), (.typeName, b!"A"), (.space, b!" "), (.symbol, b!"="), (.space, b!" "), (.paramType, b!"B"), (.newLine, b!"\n")] := by cbv

/-- **C56** Quirk: an embedded type with a tag is labelled as a field name. -/
theorem C56_embedded_tag : labels b!"type S struct {\n\tT `json`\n}\n" 0 = some [(.type_, b!"type"), (.space, b!" "), (.typeName, b!"S"), (.space, b!" "), (.struct_, b!"struct"), (.space, b!" "),
    (.curlyL, b!"{"), (.newLine, b!"\n"), (.tab, b!"\t"), (.paramName, b!"T"), (.space, b!" "), (.string, b!"`json`"), (.newLine, b!"\n"), (.curlyR, b!"}"), (.newLine, b!"\n")] := by cbv

/-- **C57** Quirk: in an interface on one line the closing bracket is labelled as a result type. -/
theorem C57_one_line : labels b!"type I interface { M() }\n" 0 = some [(.type_, b!"type"), (.space, b!" "), (.typeName, b!"I"), (.space, b!" "), (.interface_, b!"interface"), (.space, b!" "),
    (.curlyL, b!"{"), (.space, b!" "), (.funcName, b!"M"), (.parenL, b!"("), (.parenR, b!")"), (.space, b!" "), (.paramType, b!"}"), (.newLine, b!"\n")] := by cbv

/-- **C58** Quirk: the result of a function type is labelled as the name of a function. -/
theorem C58_func_type : labels b!"type F func(a T) error\n" 0 = some [(.type_, b!"type"), (.space, b!" "), (.typeName, b!"F"), (.space, b!" "), (.func_, b!"func"), (.parenL, b!"("),
    (.paramName, b!"a"), (.space, b!" "), (.paramType, b!"T"), (.parenR, b!")"), (.space, b!" "), (.funcName, b!"error"), (.newLine, b!"\n")] := by cbv

/-- **C58** Quirk: a comment behind the type puts the space in front of it into the node of the type. -/
theorem C58_comment : labels b!"type A B // c\n" 0 = some [(.type_, b!"type"), (.space, b!" "), (.typeName, b!"A"), (.space, b!" "), (.paramType, b!"B "), (.comment, b!"// c"),
    (.newLine, b!"\n")] := by cbv

/-- **C58** Quirk: a group of type declarations gets no labels at all. -/
theorem C58_group : labels b!"type (\n\tA B\n)\n" 0 = some [(.type_, b!"type"), (.space, b!" "), (.parenL, b!"("), (.newLine, b!"\n"), (.tab, b!"\t"), (.raw, b!"A"), (.space, b!" "), (.raw, b!"B"),
    (.newLine, b!"\n"), (.parenR, b!")"), (.newLine, b!"\n")] := by cbv

end Goast
