import Verif.Proofs.ExtractHeap
import Verif.Proofs.Lines
import Verif.Props.Kinds

/-!
# The extractor loop computes the flat scanner
-/

namespace Goast
open Heap

/-- The flat scanner's mode inside an extractor. -/
def Ext.mode : Ext → Mode
  | .common | .paren | .curly => .code
  | .comment => .lineComment | .innerComment => .blockComment
  | .string => .str | .multiline => .rawStr

/-- Kind and text of a piece. -/
def Lexeme.kt (l : Lexeme) : Kind × Bytes := (if l.comment then .comment else Kind.new l.text, l.text)

def Tok.kt (t : Tok) : Kind × Bytes := (t.kind, t.text)

/-- The texts of some nodes, concatenated. -/
def texts (ts : List Tok) : Bytes := (ts.map Tok.text).flatten

@[simp] theorem texts_nil : texts [] = [] := rfl
@[simp] theorem texts_cons (t ts) : texts (t :: ts) = t.text ++ texts ts := rfl
@[simp] theorem texts_append (ts us) : texts (ts ++ us) = texts ts ++ texts us := by simp [texts]

/-- The line of each node is the number of newlines before it, up to the two exceptions. -/
def LinesOK (text : Bytes) : Bytes → List Tok → Prop
  | _, [] => True
  | pre, t :: ts =>
    (t.line = countNL pre ∨ ((t.text = [40] ∨ t.text = [123]) ∧ 0 ≤ t.line ∧ t.line ≤ countNL pre) ∨
      (pre ++ t.text = text ∧ t.line = countNL text)) ∧ LinesOK text (pre ++ t.text) ts

theorem linesOK_append (text : Bytes) (us : List Tok) : ∀ (pre : Bytes) (vs : List Tok),
    LinesOK text pre us → LinesOK text (pre ++ texts us) vs → LinesOK text pre (us ++ vs) := by
  induction us with
  | nil => intro pre vs _ h; simpa using h
  | cons u us ih =>
    intro pre vs h1 h2
    exact ⟨h1.1, ih _ _ h1.2 (by simpa using h2)⟩

@[simp] theorem countNL_append' (a b : Bytes) : countNL (a ++ b) = countNL a + countNL b := by
  simp [countNL]

theorem countNL_single {c : UInt8} (h : c ≠ 10) : countNL [c] = 0 := by
  simp [countNL, h]

theorem sep_iff (c : UInt8) : separatorCharset.contain c = decide (c ∈ separatorBytes) := by
  revert c; decide +kernel

theorem head_prefix {rest : Bytes} {y : UInt8} (h : rest.head? = some y) : [y] <+: rest := by
  rcases rest with _ | ⟨x, rest⟩
  · simp at h
  · simp at h; simp [h]

theorem opener (c : UInt8) (rest : Bytes) (ee : Ext) (h : prefixFit commonDeeperExtract (c :: rest) = some ee) :
    (ee.includeOpen = true ∧ ee.hasDeeper = false ∧ c ≠ 10 ∧ ((ee = .string → c = 34) ∧ (ee = .multiline → c = 96)) ∧
      BufInv ee.mode [c] rest ∧ Unclosed ee [c] ∧
      ∀ buf, lex .code buf (c :: rest) = word buf ++ lex ee.mode [c] rest) ∨
    (ee.includeOpen = false ∧ ee.hasDeeper = true ∧ ee.mode = .code ∧ (c = 40 ∨ c = 123) ∧ (ee = .paren ∧ c = 40 ∨ ee = .curly ∧ c = 123) ∧
      ∀ buf, lex .code buf (c :: rest) = word buf ++ ⟨[c], false⟩ :: lex .code [] rest) := by
  have ha : ∀ kv ∈ commonDeeperExtract, Ascii kv.1 := by
    intro kv hkv
    simp [commonDeeperExtract] at hkv
    rcases hkv with rfl | rfl | rfl | rfl | rfl | rfl <;> intro b hb <;> revert b <;> decide
  simp only [prefixFit, commonDeeperExtract, List.find?_cons] at h
  have p1 : ∀ x : UInt8, x < 128 → hasPrefix (c :: rest) [x] = decide (c = x) := by
    intro x hx
    rw [Bool.eq_iff_iff, hasPrefix_ascii (by intro b hb; simp at hb; subst hb; exact hx)]
    simp; exact eq_comm
  have p2 : ∀ x y : UInt8, x < 128 → y < 128 → hasPrefix (c :: rest) [x, y] = decide (c = x ∧ rest.head? = some y) := by
    intro x y hx hy
    rw [Bool.eq_iff_iff, hasPrefix_ascii (by intro b hb; simp at hb; rcases hb with rfl | rfl <;> assumption)]
    rcases rest with _ | ⟨r, rest⟩
    · simp
    · simp only [List.cons_prefix_cons, List.nil_prefix, and_true, List.head?_cons, Option.some.injEq, decide_eq_true_eq]
      exact ⟨fun ⟨a, b⟩ => ⟨a.symm, b.symm⟩, fun ⟨a, b⟩ => ⟨a.symm, b.symm⟩⟩
  rw [p1 40 (by decide), p1 123 (by decide), p2 47 47 (by decide) (by decide), p2 47 42 (by decide) (by decide),
    p1 34 (by decide), p1 96 (by decide)] at h
  by_cases h1 : c = 40
  · simp [h1] at h; subst h; subst h1; right; simp [Ext.includeOpen, Ext.hasDeeper, Ext.mode, lex, separatorBytes]
  by_cases h2 : c = 123
  · simp [h2] at h; subst h; subst h2; right; simp [Ext.includeOpen, Ext.hasDeeper, Ext.mode, lex, separatorBytes]
  by_cases h3 : c = 47 ∧ rest.head? = some 47
  · simp [h3] at h; subst h; left; simp [Ext.includeOpen, Ext.hasDeeper, Ext.mode, lex, h3, BufInv, Unclosed, head_prefix h3.2]
  by_cases h4 : c = 47 ∧ rest.head? = some 42
  · simp [h4] at h; subst h; left; simp [Ext.includeOpen, Ext.hasDeeper, Ext.mode, lex, h4, BufInv, Unclosed, head_prefix h4.2, List.suffix_cons_iff]
  by_cases h5 : c = 34
  · simp [h5] at h; subst h; left; subst h5; simp [Ext.includeOpen, Ext.hasDeeper, Ext.mode, lex, BufInv, Unclosed]
  by_cases h6 : c = 96
  · simp [h6] at h; subst h; left; subst h6; simp [Ext.includeOpen, Ext.hasDeeper, Ext.mode, lex, BufInv, Unclosed]
  simp [h1, h2, h3, h4, h5, h6] at h

theorem no_opener' (c : UInt8) (rest : Bytes) (h : prefixFit commonDeeperExtract (c :: rest) = none) :
    ¬ (c = 47 ∧ rest.head? = some 47) ∧ ¬ (c = 47 ∧ rest.head? = some 42) ∧ c ≠ 34 ∧ c ≠ 96 ∧ c ≠ 40 ∧ c ≠ 123 := by
  simp only [prefixFit, commonDeeperExtract, List.find?_cons] at h
  have p1 : ∀ x : UInt8, hasPrefix (c :: rest) [x] = false → c ≠ x := by
    intro x hx hc
    have := hasPrefix_of_prefix (s := c :: rest) (pre := [x]) (by simp [hc])
    rw [hx] at this; cases this
  have p2 : ∀ x y : UInt8, hasPrefix (c :: rest) [x, y] = false → ¬ (c = x ∧ rest.head? = some y) := by
    rintro x y hx ⟨hc, hr⟩
    have : [x, y] <+: c :: rest := by
      rcases rest with _ | ⟨r, rest⟩
      · simp at hr
      · simp at hr; simp [hc, hr]
    have := hasPrefix_of_prefix this
    rw [hx] at this; cases this
  have b : ∀ s : Bytes, hasPrefix (c :: rest) s = true ∨ hasPrefix (c :: rest) s = false := fun s => by
    cases hasPrefix (c :: rest) s <;> simp
  rcases b [40] with q1 | q1
  · simp [q1] at h
  rcases b [123] with q2 | q2
  · simp [q1, q2] at h
  rcases b [47, 47] with q3 | q3
  · simp [q1, q2, q3] at h
  rcases b [47, 42] with q4 | q4
  · simp [q1, q2, q3, q4] at h
  rcases b [34] with q5 | q5
  · simp [q1, q2, q3, q4, q5] at h
  rcases b [96] with q6 | q6
  · simp [q1, q2, q3, q4, q5, q6] at h
  exact ⟨p2 _ _ q3, p2 _ _ q4, p1 _ q5, p1 _ q6, p1 _ q1, p1 _ q2⟩

theorem no_opener (c : UInt8) (rest : Bytes) (h : prefixFit commonDeeperExtract (c :: rest) = none) (buf : Bytes) :
    lex .code buf (c :: rest) =
      if c ∈ separatorBytes then word buf ++ ⟨[c], false⟩ :: lex .code [] rest else lex .code (buf ++ [c]) rest := by
  obtain ⟨h1, h2, h3, h4, _⟩ := no_opener' c rest h
  rw [lex, if_neg h1, if_neg h2, if_neg h3, if_neg h4]

theorem kind_quote (q : UInt8) (hq : q = 34 ∨ q = 96) (t : Bytes) (h : t.head? = some q) : Kind.new t = .string := by
  apply C43_table_deterministic
  rcases t with _ | ⟨b, t⟩
  · simp at h
  simp only [List.head?_cons, Option.some.injEq] at h
  subst h
  exact .string hq

theorem byteToString_lt {c : UInt8} (h : c < 128) : byteToString c = [c] := by simp [byteToString, h]

theorem sep_lt {c : UInt8} (h : c ∈ separatorBytes) : c < 128 := by revert c; decide +kernel

/-- What a `Run` call guarantees. -/
structure RunPost (text : Bytes) (h : Heap) (m : Mode) (pre buf : Bytes) (i : Nat) (ts : List Tok)
    (s' : Shared) (p' : Ptr) (us : List Tok) : Prop where
  heap : s'.heap = h.extend (recs h.size (ts ++ us))
  ptr : p' = headPtr h.size (ts ++ us)
  empty : s'.buf = []
  le : i ≤ s'.i + 1
  line : s'.line = countNL (text.take (s'.i + 1))
  toks : (lex m buf (text.drop i)).map Lexeme.kt =
    us.map Tok.kt ++ (lex .code [] (text.drop (s'.i + 1))).map Lexeme.kt
  lines : LinesOK text pre us
  flat : pre ++ texts us = text.take (s'.i + 1)

/-- What a `Run` call needs. -/
structure RunPre (text : Bytes) (h : Heap) (e : Ext) (pre : Bytes) (ts : List Tok) (bl : Int) (s : Shared) : Prop where
  heap : s.heap = h.extend (recs h.size ts)
  line : s.line = countNL (text.take s.i)
  take : text.take s.i = pre ++ s.buf
  bl0 : 0 ≤ bl
  bl1 : bl ≤ s.line
  lit : e.hasDeeper = false → ts = [] ∧ s.buf ≠ [] ∧ bl = countNL pre ∧ s.i ≤ text.length
  nl : e.hasDeeper = true ∨ e = .comment → countNL s.buf = 0
  quote : (e = .string → s.buf.head? = some 34) ∧ (e = .multiline → s.buf.head? = some 96)
  inv : BufInv e.mode s.buf (text.drop s.i)
  unclosed : Unclosed e s.buf

theorem kt_pend (line : Int) (buf : Bytes) : (pend line [] buf).map Tok.kt = (word buf).map Lexeme.kt := by
  unfold pend word
  split <;> simp [mkTok, Tok.kt, Lexeme.kt]

theorem texts_pend (line : Int) (kinds : List Kind) (buf : Bytes) : texts (pend line kinds buf) = buf := by
  unfold pend
  split <;> simp_all [mkTok]

theorem linesOK_pend (text pre buf : Bytes) (line : Int) (kinds : List Kind) (hl : line = countNL pre) :
    LinesOK text pre (pend line kinds buf) := by
  unfold pend
  split
  · trivial
  · exact ⟨.inl hl, trivial⟩

/-- Emitting the pending word and one more byte as a node of its own, then going on. -/
theorem RunPost.sep {text : Bytes} {h : Heap} {e : Ext} {pre : Bytes} {ts : List Tok} {bl : Int} {s : Shared}
    (he : e.mode = .code)
    (P : RunPre text h e pre ts bl s) (hnl : countNL s.buf = 0) {c : UInt8} {l : Int}
    (hl : l = countNL (pre ++ s.buf) ∨ ((c = 40 ∨ c = 123) ∧ 0 ≤ l ∧ l ≤ countNL (pre ++ s.buf)))
    (hc : text[s.i]? = some c) (hlex : ∀ buf, Goast.lex .code buf (c :: text.drop (s.i + 1)) =
      word buf ++ ⟨[c], false⟩ :: Goast.lex .code [] (text.drop (s.i + 1)))
    {s' : Shared} {p' : Ptr} {us : List Tok}
    (R : RunPost text h .code (pre ++ s.buf ++ [c]) [] (s.i + 1) (ts ++ pend s.line [] s.buf ++ [mkTok l [] [c]]) s' p' us) :
    RunPost text h e.mode pre s.buf s.i ts s' p' (pend s.line [] s.buf ++ mkTok l [] [c] :: us) := by
  have hd : text.drop s.i = c :: text.drop (s.i + 1) := by
    obtain ⟨hi, hv⟩ := List.getElem?_eq_some_iff.1 hc
    rw [List.drop_eq_getElem_cons hi, hv]
  have hline : s.line = countNL pre := by rw [P.line, P.take]; simp [hnl]
  refine ⟨by simpa using R.heap, by simpa using R.ptr, R.empty, by have := R.le; omega, R.line, ?_, ?_, ?_⟩
  · rw [he, hd, hlex]
    simp only [List.map_append, List.map_cons, kt_pend, List.append_assoc, List.cons_append]
    rw [R.toks]
    simp [Tok.kt, mkTok, Lexeme.kt]
  · apply linesOK_append
    · exact linesOK_pend _ _ _ _ _ hline
    · refine ⟨?_, ?_⟩
      · rw [texts_pend]
        rcases hl with hl | ⟨h1, h2, h3⟩
        · exact .inl hl
        · exact .inr (.inl ⟨by simpa [mkTok] using h1, h2, h3⟩)
      · simpa [texts_pend, mkTok] using R.lines
  · simpa [texts_pend, mkTok] using R.flat

theorem hasSuffix_single (a : Bytes) (c x : UInt8) : hasSuffix (a ++ [c]) [x] = decide (c = x) := by
  rw [Bool.eq_iff_iff, hasSuffix_iff]
  constructor
  · rintro ⟨t, ht⟩
    have := congrArg List.getLast? ht
    simp at this
    simpa using this.symm
  · intro hc
    simp at hc
    exact ⟨a, by simp [hc]⟩

theorem hasSuffix_pair (a : Bytes) (c x y : UInt8) :
    hasSuffix (a ++ [c]) [x, y] = decide (c = y ∧ a.getLast? = some x) := by
  rw [Bool.eq_iff_iff, hasSuffix_iff]
  constructor
  · rintro ⟨t, ht⟩
    have e : t ++ [x, y] = (t ++ [x]) ++ [y] := by simp
    rw [e] at ht
    have := List.append_inj' ht rfl
    simp at this
    simp [← this.1, this.2]
  · intro hc
    simp at hc
    obtain ⟨h1, h2⟩ := hc
    obtain ⟨t, ht⟩ := List.getLast?_eq_some_iff.1 h2
    exact ⟨t, by simp [ht, h1]⟩

/-- Ending a piece here. -/
theorem RunPost.eof {text : Bytes} {h : Heap} {e : Ext} {pre : Bytes} {ts : List Tok} {bl : Int} {s : Shared}
    (P : RunPre text h e pre ts bl s) (hc : text[s.i]? = none) :
    RunPost text h e.mode pre s.buf s.i ts
      { s with heap := h.extend (recs h.size (ts ++ pend s.line [] s.buf)), buf := [] }
      (headPtr h.size (ts ++ pend s.line [] s.buf)) (pend s.line [] s.buf) := by
  have hi : text.length ≤ s.i := List.getElem?_eq_none_iff.1 hc
  have ht : text.take s.i = text := List.take_of_length_le hi
  have ht' : text.take (s.i + 1) = text := List.take_of_length_le (by omega)
  have hd : text.drop s.i = [] := List.drop_of_length_le hi
  have hd' : text.drop (s.i + 1) = [] := List.drop_of_length_le (by omega)
  refine ⟨rfl, rfl, rfl, Nat.le_succ _, by simp [P.line, ht, ht'], ?_, ?_, ?_⟩
  · simp only [hd, hd']
    have : Goast.lex e.mode s.buf [] = word s.buf := by cases e <;> simp [Ext.mode, Goast.lex]
    rw [this, kt_pend]
    simp [Goast.lex, word]
  · unfold pend
    split
    · trivial
    · refine ⟨.inr (.inr ⟨?_, ?_⟩), trivial⟩
      · simp [mkTok, ← P.take, ht]
      · simp [mkTok, P.line, ht]
  · simp [texts_pend, ← P.take, ht, ht']

/-- One more byte joins the pending piece. -/
theorem RunPost.keep {text : Bytes} {h : Heap} {m : Mode} {pre buf : Bytes} {i : Nat} {ts : List Tok}
    {c : UInt8} (hc : text[i]? = some c)
    (hlex : Goast.lex m buf (c :: text.drop (i + 1)) = Goast.lex m (buf ++ [c]) (text.drop (i + 1)))
    {s' : Shared} {p' : Ptr} {us : List Tok}
    (R : RunPost text h m pre (buf ++ [c]) (i + 1) ts s' p' us) :
    RunPost text h m pre buf i ts s' p' us := by
  have hd : text.drop i = c :: text.drop (i + 1) := by
    obtain ⟨hi, hv⟩ := List.getElem?_eq_some_iff.1 hc
    rw [List.drop_eq_getElem_cons hi, hv]
  refine ⟨R.heap, R.ptr, R.empty, by have := R.le; omega, R.line, ?_, R.lines, R.flat⟩
  rw [hd, hlex, R.toks]

theorem lineStep_line (c : UInt8) (s : Shared) (text : Bytes) (i : Nat) (hc : text[i]? = some c)
    (hl : s.line = countNL (text.take i)) :
    lineStep c s = { s with line := countNL (text.take (i + 1)) } := by
  obtain ⟨hi, hv⟩ := List.getElem?_eq_some_iff.1 hc
  have : text.take (i + 1) = text.take i ++ [c] := by
    rw [List.take_succ_eq_append_getElem hi, hv]
  rw [this]
  unfold lineStep
  split
  · rename_i h10; subst h10; simp [hl, countNL]
  · rename_i h10; simp [countNL_single h10, ← hl]

theorem unclosed_code {e : Ext} (h : e.hasDeeper = true) (buf : Bytes) : Unclosed e buf := by
  cases e <;> simp_all [Ext.hasDeeper, Unclosed]

theorem unclosed_nil {e : Ext} (h : e.hasDeeper = true) : Unclosed e [] := unclosed_code h []

theorem not_ret {e : Ext} {text : Bytes} {i : Nat} {c : UInt8}
    (h : ¬ (decide (¬ e.returnKeyword.length = 0) && hasSuffix (text.take (i + 1)) e.returnKeyword) = true)
    (ht : text.take (i + 1) = text.take i ++ [c]) : e.returnKeyword ≠ [c] := by
  intro hc
  apply h
  rw [hc, ht, hasSuffix_single]
  simp

/-! ## Lines -/

/-- The open brackets before and after a `Run` call: inside a bracket the call ends with the bracket that closes it,
a literal leaves everything as it was. -/
def Frame (e : Ext) (bl last : Int) (up : List (Bytes × Int)) (saved : Int) (out : List (Bytes × Int)) (vs : List Bytes)
    (ok : Prop) : Prop :=
  UpOK up ∧ match e with
  | .common => last = bl ∧ up = [] ∧ vs = []
  | .paren => last = bl ∧ up = ([41], saved) :: out ∧ (ok ∨ vs = [])
  | .curly => last = bl ∧ up = ([125], saved) :: out ∧ (ok ∨ vs = [])
  | _ => saved = last ∧ out = up ∧ (ok ∨ vs = [])

theorem Frame.done {e : Ext} {bl last : Int} {up : List (Bytes × Int)} {saved : Int} {out : List (Bytes × Int)} {vs : List Bytes}
    {ok : Prop} (F : Frame e bl last up saved out vs ok) (h : ¬ ok) : vs = [] := by
  obtain ⟨_, F⟩ := F
  cases e <;> simp_all

theorem Frame.last {e : Ext} (he : e.hasDeeper = true) {bl last : Int} {up : List (Bytes × Int)} {saved : Int}
    {out : List (Bytes × Int)} {vs : List Bytes} {ok : Prop} (F : Frame e bl last up saved out vs ok) : last = bl := by
  obtain ⟨_, F⟩ := F
  cases e <;> simp_all [Ext.hasDeeper]

theorem Frame.step {e : Ext} (he : e.hasDeeper = true) {bl last : Int} {up : List (Bytes × Int)} {saved : Int}
    {out : List (Bytes × Int)} {vs : List Bytes} {ok : Prop} (F : Frame e bl last up saved out vs ok) (bl' : Int) :
    Frame e bl' bl' up saved out vs ok := by
  obtain ⟨U, F⟩ := F
  cases e <;> simp_all [Ext.hasDeeper, Frame]

/-- The lines of the nodes `us` of a `Run` call, in terms of the specification, whatever comes behind them. -/
def LinePost (text : Bytes) (e : Ext) (pre : Bytes) (bl : Int) (i' : Nat) (us : List Tok) : Prop :=
  ∀ last up saved out vs, Frame e bl last up saved out vs (i' < text.length) →
    lineList (countNL pre) last up (us.map Tok.text ++ vs) =
      us.map Tok.line ++ lineList (countNL (text.take (i' + 1))) saved out vs

theorem LinePost.eof {text : Bytes} {h : Heap} {e : Ext} {pre : Bytes} {ts : List Tok} {bl : Int} {s : Shared}
    (P : RunPre text h e pre ts bl s) (hc : text[s.i]? = none) :
    LinePost text e pre bl s.i (pend s.line [] s.buf) := by
  have hi : text.length ≤ s.i := List.getElem?_eq_none_iff.1 hc
  have hd : text.drop s.i = [] := List.drop_of_length_le hi
  have hline : s.line = countNL pre + countNL s.buf := by rw [P.line, P.take]; simp
  intro last up saved out vs F
  obtain rfl := F.done (by omega)
  by_cases he : e.hasDeeper = true
  · have hcode : e.mode = .code := by cases e <;> simp_all [Ext.hasDeeper, Ext.mode]
    have I := P.inv
    rw [hcode] at I
    have : s.line = countNL pre := by rw [hline, P.nl (.inl he)]; simp
    rw [this, lineList_pend I.word F.1]
    simp [lineList]
  · have he' : e.hasDeeper = false := by simpa using he
    obtain ⟨b1, b2, b3, b4⟩ := P.lit he'
    have I := P.inv
    have Un := P.unclosed
    rw [hd] at I
    have key : ¬ IsWord s.buf ∧ (s.buf.head? = some 34 ∨ s.buf.head? = some 96 ∨ s.buf.head? = some 47) ∧
        (cutOff s.buf = true ∨ countNL s.buf = 0) := by
      cases e
      case common => simp [Ext.hasDeeper] at he'
      case paren => simp [Ext.hasDeeper] at he'
      case curly => simp [Ext.hasDeeper] at he'
      case comment =>
        have I2 : [47, 47] <+: s.buf := by simpa using I.2.1
        exact ⟨fun w => w.2.2.1 I2, .inr (.inr (head_slash I2)), .inr (P.nl (.inr rfl))⟩
      case innerComment =>
        have I2 : [47, 42] <+: s.buf := by simpa using I.2
        refine ⟨fun w => w.2.2.2 I2, .inr (.inr (head_slash I2)), .inl ?_⟩
        rw [cutOff_block I2]
        simp only [Unclosed] at Un
        simpa using Un
      case string =>
        have I2 : s.buf.head? = some 34 := I
        refine ⟨not_word_quote (.inl rfl) I2, .inl I2, .inl ?_⟩
        rw [cutOff_quote34 I2]
        simp only [Unclosed] at Un
        rw [Bool.not_eq_true', Bool.eq_false_iff]
        simpa [and_assoc] using Un
      case multiline =>
        have I2 : s.buf.head? = some 96 := I
        refine ⟨not_word_quote (.inr rfl) I2, .inr (.inl I2), .inl ?_⟩
        rw [cutOff_quote96 I2]
        simp only [Unclosed] at Un
        rw [Bool.not_eq_true', Bool.eq_false_iff]
        simpa [and_assoc] using Un
    simp only [pend, b2, if_false, List.map_cons, List.map_nil, List.cons_append, List.nil_append, mkTok]
    rw [lineList_lit key.1 key.2.1 F.1, hline]
    rcases key.2.2 with h1 | h1
    · simp [h1, lineList]
    · simp [h1, lineList]

theorem LinePost.sep {text : Bytes} {e : Ext} {pre buf : Bytes} {bl line : Int} {c : UInt8} (he : e.hasDeeper = true)
    (w : buf = [] ∨ IsWord buf) (hline : line = countNL pre) (hnl : countNL buf = 0)
    (hc : c ∈ separatorBytes) (h1 : c ≠ 40) (h2 : c ≠ 123) (h3 : e.returnKeyword ≠ [c]) {i' : Nat} {us : List Tok}
    (R : LinePost text e (pre ++ buf ++ [c]) (if buf = [] then bl else line) i' us) :
    LinePost text e pre bl i' (pend line [] buf ++ mkTok line [] [c] :: us) := by
  intro last up saved out vs F
  obtain rfl := F.last he
  subst hline
  rw [List.map_append, List.append_assoc, lineList_pend w F.1]
  have h4 : up.head?.map (·.1) ≠ some [c] := by
    obtain ⟨_, F⟩ := F
    cases e <;> simp_all [Ext.hasDeeper, Ext.returnKeyword] <;> exact fun h => h3 h
  rw [List.map_cons, List.cons_append]
  have e1 : (mkTok (countNL pre) [] [c]).text = [c] := rfl
  rw [e1, lineList_sep hc h1 h2 h4]
  have := R _ up saved out vs (F.step he _)
  simp only [countNL_append', hnl, Nat.add_zero, Int.natCast_add] at this
  rw [this]
  simp [mkTok]

theorem LinePost.close {text : Bytes} {e : Ext} {pre buf : Bytes} {bl line : Int} {c : UInt8} (he : e.hasDeeper = true)
    (w : buf = [] ∨ IsWord buf) (hline : line = countNL pre) (hnl : countNL buf = 0)
    (h3 : e.returnKeyword = [c]) {i : Nat} (ht : text.take (i + 1) = pre ++ buf ++ [c]) (hi : i < text.length) :
    LinePost text e pre bl i (pend line [] buf ++ [mkTok line [] [c]]) := by
  intro last up saved out vs F
  obtain rfl := F.last he
  subst hline
  rw [List.map_append, List.append_assoc, lineList_pend w F.1, ht]
  have e1 : (mkTok (countNL pre) [] [c]).text = [c] := rfl
  rw [List.map_cons, List.cons_append, e1]
  have hup : (c = 41 ∨ c = 125) ∧ up = ([c], saved) :: out := by
    obtain ⟨_, F⟩ := F
    cases e <;> simp_all [Ext.hasDeeper, Ext.returnKeyword]
  obtain ⟨hc, rfl⟩ := hup
  rw [lineList_close hc]
  have : countNL [c] = 0 := by rcases hc with rfl | rfl <;> decide
  simp [mkTok, hnl, this]

theorem LinePost.lit {text : Bytes} {e : Ext} {pre t : Bytes} {bl : Int} (he : e.hasDeeper = false) {k : List Kind}
    (h1 : ¬ IsWord t) (h2 : t.head? = some 34 ∨ t.head? = some 96 ∨ t.head? = some 47) (h3 : cutOff t = false)
    (hb : bl = countNL pre) (hne : t ≠ []) {i : Nat} (ht : text.take (i + 1) = pre ++ t) :
    LinePost text e pre bl i (pend bl k t) := by
  intro last up saved out vs F
  have hF : saved = last ∧ out = up := by
    obtain ⟨_, F⟩ := F
    cases e <;> simp_all [Ext.hasDeeper]
  obtain ⟨rfl, rfl⟩ := hF
  simp only [pend, hne, if_false, List.map_cons, List.map_nil, List.cons_append, List.nil_append, mkTok]
  rw [lineList_lit h1 h2 F.1, h3, ht, hb]
  simp

theorem LinePost.line {text : Bytes} {pre buf : Bytes} {bl line : Int} (h1 : [47, 47] <+: buf) (hnl : countNL buf = 0)
    (hl : line = countNL pre) {i : Nat} (ht : text.take (i + 1) = pre ++ buf ++ [10]) {k : List Kind} :
    LinePost text .comment pre bl i (pend line k buf ++ [mkTok line [] [10]]) := by
  intro last up saved out vs F
  obtain ⟨U, rfl, rfl, _⟩ := F
  have hne : buf ≠ [] := by rintro rfl; simp at h1
  have h10 : (10 : UInt8) ∈ separatorBytes := by decide
  have hu : out.head?.map (·.1) ≠ some [10] := by
    intro h
    rcases U.head h with h | h <;> simp at h
  simp only [pend, hne, if_false, List.map_cons, List.map_nil, List.cons_append, List.nil_append, mkTok]
  rw [lineList_lit (fun w => w.2.2.1 h1) (.inr (.inr (head_slash h1))) U,
    lineList_sep h10 (by decide) (by decide) hu, ht, hl]
  simp [hnl]

/-- A comment or literal, and what follows it. -/
theorem LinePost.openLit {text : Bytes} {e ee : Ext} {pre buf : Bytes} {bl line : Int} (he : e.hasDeeper = true)
    (hee : ee.hasDeeper = false) (w : buf = [] ∨ IsWord buf) (hline : line = countNL pre) (hnl : countNL buf = 0)
    {i2 i3 : Nat} {us2 us3 : List Tok} {bl2 : Int} (R2 : LinePost text ee (pre ++ buf) bl2 i2 us2)
    (R3 : LinePost text e (text.take (i2 + 1)) (if buf = [] then bl else line) i3 us3)
    (hdone : ¬ i2 < text.length → us3 = [] ∧ ¬ i3 < text.length) :
    LinePost text e pre bl i3 (pend line [] buf ++ us2 ++ us3) := by
  intro last up saved out vs F
  obtain rfl := F.last he
  subst hline
  simp only [List.map_append, List.append_assoc]
  rw [lineList_pend w F.1]
  have h2 := R2 (if buf = [] then last else countNL pre) up (if buf = [] then last else countNL pre) up (us3.map Tok.text ++ vs) (by
    refine ⟨F.1, ?_⟩
    have : i2 < text.length ∨ us3.map Tok.text ++ vs = [] := by
      by_cases h : i2 < text.length
      · exact .inl h
      · obtain ⟨a, b⟩ := hdone h
        exact .inr (by simp [a, F.done b])
    cases ee <;> simp_all [Ext.hasDeeper])
  simp only [countNL_append', hnl, Nat.add_zero] at h2
  rw [h2, R3 _ up saved out vs (F.step he _)]

/-- A bracket, what is inside, and what follows it. -/
theorem LinePost.openBr {text : Bytes} {e ee : Ext} {pre buf : Bytes} {bl line : Int} {c : UInt8} (he : e.hasDeeper = true)
    (hee : ee = .paren ∧ c = 40 ∨ ee = .curly ∧ c = 123) (w : buf = [] ∨ IsWord buf) (hline : line = countNL pre) (hnl : countNL buf = 0)
    {i2 i3 : Nat} {us2 us3 : List Tok} (R2 : LinePost text ee (pre ++ buf ++ [c]) line i2 us2)
    (R3 : LinePost text e (text.take (i2 + 1)) (if buf = [] then bl else line) i3 us3)
    (hdone : ¬ i2 < text.length → us3 = [] ∧ ¬ i3 < text.length) :
    LinePost text e pre bl i3 (pend line [] buf ++ mkTok (if buf = [] then bl else line) [] [c] :: (us2 ++ us3)) := by
  intro last up saved out vs F
  obtain rfl := F.last he
  subst hline
  simp only [List.map_append, List.append_assoc, List.map_cons, List.cons_append]
  rw [lineList_pend w F.1]
  have e1 : ∀ l, (mkTok l [] [c]).text = [c] := fun _ => rfl
  rw [e1, lineList_open (by rcases hee with h | h <;> simp [h.2])]
  have hcn : countNL [c] = 0 := by rcases hee with ⟨_, rfl⟩ | ⟨_, rfl⟩ <;> decide
  have h2 := R2 (countNL pre) (([if c = 40 then 41 else 125], if buf = [] then last else countNL pre) :: up)
    (if buf = [] then last else countNL pre) up (us3.map Tok.text ++ vs) (by
    refine ⟨?_, ?_⟩
    · intro x hx
      rcases List.mem_cons.1 hx with rfl | hx
      · rcases hee with ⟨_, rfl⟩ | ⟨_, rfl⟩ <;> simp
      · exact F.1 x hx
    have : i2 < text.length ∨ us3.map Tok.text ++ vs = [] := by
      by_cases h : i2 < text.length
      · exact .inl h
      · obtain ⟨a, b⟩ := hdone h
        exact .inr (by simp [a, F.done b])
    rcases hee with ⟨rfl, rfl⟩ | ⟨rfl, rfl⟩ <;> simp_all)
  simp only [countNL_append', hnl, hcn, Nat.add_zero] at h2
  rw [h2, R3 _ up saved out vs (F.step he _)]
  simp [mkTok]

end Goast
