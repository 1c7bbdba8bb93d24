import Verif.Proofs.ExtractRun

/-!
# Every run of the extractor loop meets its postcondition
-/

namespace Goast
open Heap

theorem insertNested (h : Heap) (s : Shared) (ts us : List Tok) (bl : Int)
    (hs : s.heap = (h.extend (recs h.size ts)).extend (recs (h.extend (recs h.size ts)).size us)) :
    insertNode s (loc h.size ts bl) (headPtr (h.extend (recs h.size ts)).size us) =
      some ({ s with heap := h.extend (recs h.size (ts ++ us)) }, loc h.size (ts ++ us) bl) := by
  by_cases hu : us = []
  · subst hu
    simp only [headPtr, if_true, insertNode, List.append_nil]
    simp only [recs_nil, extend_nil'] at hs
    rw [← hs]
  · have e : (h.extend (recs h.size ts)).size = h.size + ts.length := by simp
    rw [e] at hs ⊢
    simp only [headPtr, hu, if_false]
    exact insertNode_spec h s ts us bl hu hs

theorem countNL_take_le (text : Bytes) {i j : Nat} (h : i ≤ j) : countNL (text.take i) ≤ countNL (text.take j) := by
  have : text.take j = text.take i ++ (text.drop i).take (j - i) := by
    have : j = i + (j - i) := by omega
    conv => lhs; rw [this, List.take_add]
  rw [this]
  simp

/-- Nothing follows a `Run` call that met the end of the text. -/
theorem run_done {text : Bytes} {h : Heap} {e : Ext} {pre : Bytes} {ts : List Tok} {s2 s' : Shared} {p' : Ptr} {us : List Tok}
    (hb : s2.buf = []) (he : e.mode = .code)
    (R : RunPost text h e.mode pre s2.buf (s2.i + 1) ts s' p' us) : ¬ s2.i < text.length → us = [] ∧ ¬ s'.i < text.length := by
  intro hlt
  have hle := R.le
  refine ⟨?_, by omega⟩
  have := R.toks
  rw [List.drop_of_length_le (by omega), hb, he] at this
  have := congrArg List.length this
  simp [lex, word] at this
  exact List.length_eq_zero_iff.1 (by omega)

theorem runLoop_post (text : Bytes) : ∀ (fuel : Nat) (e : Ext) (h : Heap) (pre : Bytes) (ts : List Tok) (bl : Int)
    (s : Shared), 1 ≤ fuel → text.length + 1 ≤ fuel + s.i → RunPre text h e pre ts bl s →
    ∃ s' p' us, runLoop (fun _ => commonDeeperExtract) text fuel e s (loc h.size ts bl) = some (s', p') ∧
      RunPost text h e.mode pre s.buf s.i ts s' p' us ∧ LinePost text e pre bl s'.i us := by
  intro fuel
  induction fuel with
  | zero => intro e h pre ts bl s h1; omega
  | succ fuel ih =>
    intro e h pre ts bl s _ hf P
    rw [runLoop]
    rcases hc : text[s.i]? with _ | c
    · -- end of the text
      refine ⟨_, _, _, ?_, RunPost.eof P hc, LinePost.eof P hc⟩
      simp only [pushNode_spec h s ts bl true [] P.heap]
      rfl
    obtain ⟨hi, hv⟩ := List.getElem?_eq_some_iff.1 hc
    have hd : text.drop s.i = c :: text.drop (s.i + 1) := by rw [List.drop_eq_getElem_cons hi, hv]
    have htk : text.take (s.i + 1) = text.take s.i ++ [c] := by
      rw [List.take_succ_eq_append_getElem hi, hv]
    have htk' : text.take (s.i + 1) = pre ++ s.buf ++ [c] := by rw [htk, P.take]
    have hbl' : (0 : Int) ≤ (if s.buf = [] then bl else s.line) ∧ (if s.buf = [] then bl else s.line) ≤ s.line := by
      have := P.bl0; have := P.bl1; have := P.line
      split <;> constructor <;> omega
    dsimp only
    rcases ho : (if e.hasDeeper then prefixFit commonDeeperExtract (text.drop s.i) else none) with _ | ee
    · -- no opener
      dsimp only
      have hkeep : ∀ s1 : Shared, s1.heap = s.heap → s1.buf = s.buf ++ [c] → s1.i = s.i + 1 →
          s1.line = countNL (text.take (s.i + 1)) → (e.hasDeeper = true ∨ e = .comment → c ≠ 10) →
          BufInv e.mode (s.buf ++ [c]) (text.drop (s.i + 1)) → Unclosed e (s.buf ++ [c]) →
          RunPre text h e pre ts bl s1 := by
        intro s1 a1 a2 a3 a4 a5 a6 a7
        refine ⟨by rw [a1, P.heap], by rw [a4, a3], by rw [a3, a2, htk', List.append_assoc], P.bl0, ?_, ?_, ?_, ?_,
          by rw [a2, a3]; exact a6, by rw [a2]; exact a7⟩
        · have := P.bl1; have := P.line; have := countNL_take_le text (i := s.i) (j := s.i + 1) (by omega)
          omega
        · intro hx
          obtain ⟨b1, b2, b3, b4⟩ := P.lit hx
          exact ⟨b1, by simp [a2], b3, by omega⟩
        · intro hx
          rw [a2]
          simp [P.nl hx, countNL_single (a5 hx)]
        · rw [a2]
          constructor
          · intro hx; simp [List.head?_append, P.quote.1 hx]
          · intro hx; simp [List.head?_append, P.quote.2 hx]
      by_cases hdeep : e.hasDeeper = true
      · -- code
        have hcode : e.mode = .code := by cases e <;> simp_all [Ext.hasDeeper, Ext.mode]
        have hsk : e.skipReturnKeyword = [] := by cases e <;> simp_all [Ext.hasDeeper, Ext.skipReturnKeyword]
        have hseps : e.separators = separatorCharset := by cases e <;> simp_all [Ext.hasDeeper, Ext.separators]
        have hic : e.includeClose = false := by cases e <;> simp_all [Ext.hasDeeper, Ext.includeClose]
        have hks : e.returnKeyword = [] ∨ ∃ x ∈ separatorBytes, e.returnKeyword = [x] ∧ e.kinds = [] := by
          cases e <;> simp_all [Ext.hasDeeper, Ext.kinds, Ext.kind, Ext.returnKeyword, separatorBytes]
        rw [if_pos hdeep, hd] at ho
        have hnl := P.nl (.inl hdeep)
        have hlex := no_opener c _ ho
        obtain ⟨n1, n2, n3, n4, n5, n6⟩ := no_opener' c _ ho
        have hI : BufInv .code s.buf (c :: text.drop (s.i + 1)) := by have := P.inv; rwa [hcode, hd] at this
        have hlp : s.line = countNL pre := by rw [P.line, P.take]; simp [hnl]
        simp only [hsk, List.length_nil, ne_eq, not_true_eq_false, decide_false, Bool.false_and, Bool.false_eq_true,
          if_false, hic, hseps, sep_iff]
        have hline : s.line = countNL (pre ++ s.buf) := by rw [P.line, P.take]
        have ein := insertNew h { heap := h.extend (recs h.size (ts ++ pend s.line [] s.buf)), buf := [], i := s.i, line := s.line }
          (ts ++ pend s.line [] s.buf) (if s.buf = [] then bl else s.line) s.line [c] [] rfl
        dsimp only at ein
        by_cases hret : (decide (¬ e.returnKeyword.length = 0) && hasSuffix (text.take (s.i + 1)) e.returnKeyword) = true
        · -- the closing bracket
          obtain ⟨x, hx, hrk, hkk⟩ : ∃ x ∈ separatorBytes, e.returnKeyword = [x] ∧ e.kinds = [] := by
            rcases hks with hks | hks
            · simp [hks] at hret
            · exact hks
          have hcx : c = x := by
            rw [hrk, htk, hasSuffix_single] at hret
            simpa using hret
          subst hcx
          rw [if_pos hret, hkk, byteToString_lt (sep_lt hx)]
          simp only [pushNode_spec h s ts bl true [] P.heap, if_true]
          rw [ein]
          dsimp only
          rw [lineStep_line c _ text s.i hc (by simp [P.line])]
          refine ⟨_, _, pend s.line [] s.buf ++ mkTok s.line [] [c] :: [], rfl, ?_⟩
          refine ⟨RunPost.sep hcode P hnl (.inl hline) hc (by simpa [hx] using hlex) ?_,
            LinePost.close hdeep hI.word hlp hnl hrk htk' hi⟩
          refine ⟨by simp, by simp [loc], rfl, Nat.le_refl _, rfl, by simp, trivial, by simp [htk']⟩
        · rw [if_neg hret]
          by_cases hsep : c ∈ separatorBytes
          · simp only [hsep, decide_true, if_true, byteToString_lt (sep_lt hsep)]
            simp only [pushNode_spec h s ts bl true [] P.heap, if_true]
            rw [ein]
            dsimp only
            rw [lineStep_line c _ text s.i hc (by simp [P.line])]
            dsimp only
            obtain ⟨s3, p3, us3, r3, R3, L3⟩ := ih e h (pre ++ s.buf ++ [c]) (ts ++ pend s.line [] s.buf ++ [mkTok s.line [] [c]])
              (if s.buf = [] then bl else s.line)
              { heap := h.extend (recs h.size (ts ++ pend s.line [] s.buf ++ [mkTok s.line [] [c]])), buf := [], i := s.i + 1,
                line := countNL (text.take (s.i + 1)) } (by omega) (by simp; omega)
              ⟨rfl, rfl, by simp [htk'], hbl'.1, by
                have := hbl'.2; have := P.line
                have := countNL_take_le text (i := s.i) (j := s.i + 1) (by omega)
                simp only; omega, by simp [hdeep], by simp [countNL], by constructor <;> rintro rfl <;> simp [Ext.hasDeeper] at hdeep,
                by rw [hcode]; exact bufInv_nil _, unclosed_nil hdeep⟩
            refine ⟨s3, p3, pend s.line [] s.buf ++ mkTok s.line [] [c] :: us3, r3, ?_,
              LinePost.sep hdeep hI.word hlp hnl hsep n5 n6 (not_ret hret htk) L3⟩
            refine RunPost.sep hcode P hnl (.inl hline) hc (by simpa [hsep] using hlex) ?_
            rw [hcode] at R3
            exact R3
          · simp only [hsep, decide_false, Bool.false_eq_true, if_false]
            have hc10 : c ≠ 10 := by rintro rfl; exact hsep (by decide)
            rw [lineStep_line c _ text s.i hc (by simp [P.line])]
            dsimp only
            obtain ⟨s3, p3, us3, r3, R3, L3⟩ := ih e h pre ts bl
              { heap := s.heap, buf := s.buf ++ [c], i := s.i + 1, line := countNL (text.take (s.i + 1)) }
              (by omega) (by simp; omega) (hkeep _ rfl rfl rfl rfl (fun _ => hc10)
                (by rw [hcode]; exact hI.code_keep n1 n2 n3 n4 hsep) (unclosed_code hdeep _))
            refine ⟨s3, p3, us3, r3, RunPost.keep hc ?_ R3, L3⟩
            rw [hcode]
            simpa [hsep] using hlex s.buf
      · -- inside a comment or literal
        have hdeep' : e.hasDeeper = false := by simpa using hdeep
        obtain ⟨b1, b2, b3, b4⟩ := P.lit hdeep'
        subst b1
        have hI : BufInv e.mode s.buf (c :: text.drop (s.i + 1)) := by have := P.inv; rwa [hd] at this
        have hseps : e.separators = none := by cases e <;> simp_all [Ext.hasDeeper, Ext.separators]
        have hgl : (text.take s.i).getLast? = s.buf.getLast? := by
          rw [P.take, List.getLast?_append]
          rcases hb : s.buf.getLast? with _ | y
          · exact absurd (List.getLast?_eq_none_iff.1 hb) b2
          · rfl
        have go : ∀ (_ : e = .comment → c ≠ 10)
            (_ : Goast.lex e.mode s.buf (c :: text.drop (s.i + 1)) = Goast.lex e.mode (s.buf ++ [c]) (text.drop (s.i + 1)))
            (_ : BufInv e.mode (s.buf ++ [c]) (text.drop (s.i + 1))) (_ : Unclosed e (s.buf ++ [c])),
            ∃ s' p' us, runLoop (fun _ => commonDeeperExtract) text fuel e
                { heap := s.heap, buf := s.buf ++ [c], i := s.i + 1, line := countNL (text.take (s.i + 1)) }
                (loc h.size [] bl) = some (s', p') ∧
              RunPost text h e.mode pre s.buf s.i [] s' p' us ∧ LinePost text e pre bl s'.i us := by
          intro hc10 hlex hinv hun
          obtain ⟨s3, p3, us3, r3, R3, L3⟩ := ih e h pre [] bl
            { heap := s.heap, buf := s.buf ++ [c], i := s.i + 1, line := countNL (text.take (s.i + 1)) }
            (by omega) (by simp; omega) (hkeep _ rfl rfl rfl rfl (by simpa [hdeep'] using hc10) hinv hun)
          exact ⟨s3, p3, us3, r3, RunPost.keep hc hlex R3, L3⟩
        have fin : ∀ (k : Kind) (lx : Lexeme) (_ : lx.kt = (k, s.buf ++ [c]))
            (_ : Goast.lex e.mode s.buf (c :: text.drop (s.i + 1)) = lx :: Goast.lex .code [] (text.drop (s.i + 1))),
            ¬ IsWord (s.buf ++ [c]) →
            ((s.buf ++ [c]).head? = some 34 ∨ (s.buf ++ [c]).head? = some 96 ∨ (s.buf ++ [c]).head? = some 47) →
            cutOff (s.buf ++ [c]) = false →
            RunPost text h e.mode pre s.buf s.i []
              { heap := h.extend (recs h.size ([] ++ pend bl [k] (s.buf ++ [c]))), buf := [], i := s.i,
                line := countNL (text.take (s.i + 1)) }
              (headPtr h.size ([] ++ pend bl [k] (s.buf ++ [c]))) (pend bl [k] (s.buf ++ [c])) ∧
            LinePost text e pre bl s.i (pend bl [k] (s.buf ++ [c])) := by
          intro k lx hk hlex w1 w2 w3
          refine ⟨?_, LinePost.lit hdeep' w1 w2 w3 b3 (by simp) (by rw [htk', List.append_assoc])⟩
          refine ⟨rfl, rfl, rfl, Nat.le_succ _, rfl, ?_, linesOK_pend _ _ _ _ _ b3, ?_⟩
          · rw [hd, hlex]
            simp [pend, mkTok, Tok.kt, hk]
          · simp [texts_pend, htk']
        simp only [hseps, CharSet.contain, Bool.false_eq_true, if_false]
        rw [htk]
        cases e
        case common => simp [Ext.hasDeeper] at hdeep'
        case paren => simp [Ext.hasDeeper] at hdeep'
        case curly => simp [Ext.hasDeeper] at hdeep'
        case comment =>
          have k1 : Ext.comment.skipReturnKeyword = [] := rfl
          have k2 : Ext.comment.returnKeyword = [10] := rfl
          have k3 : Ext.comment.includeClose = false := rfl
          have k4 : Ext.comment.kinds = [.comment] := rfl
          simp only [k1, k2, k3, k4, hasSuffix_single, List.length_nil, List.length_singleton, ne_eq, not_true_eq_false,
            decide_false, Bool.false_and, Bool.false_eq_true, if_false, Nat.succ_ne_self, not_false_eq_true, decide_true,
            Bool.true_and, decide_eq_true_eq, Nat.one_ne_zero]
          by_cases h10 : c = 10
          · subst h10
            simp only [if_true, byteToString_lt (c := 10) (by decide)]
            simp only [pushNode_spec h s [] bl true _ P.heap, if_true]
            have ein := insertNew h { heap := h.extend (recs h.size ([] ++ pend s.line [.comment] s.buf)), buf := [], i := s.i, line := s.line }
              ([] ++ pend s.line [.comment] s.buf) (if s.buf = [] then bl else s.line) s.line [10] [] rfl
            dsimp only at ein
            rw [ein]
            dsimp only
            rw [lineStep_line 10 _ text s.i hc (by simp [P.line])]
            have hnl := P.nl (.inr rfl)
            have hline : s.line = countNL pre := by rw [P.line, P.take]; simp [hnl]
            refine ⟨_, _, pend s.line [.comment] s.buf ++ [mkTok s.line [] [10]], rfl,
              ⟨rfl, by simp [loc], rfl, Nat.le_succ _, rfl, ?_, ?_, ?_⟩, LinePost.line hI.line_prefix hnl hline htk'⟩
            · rw [hd]
              simp [Ext.mode, Goast.lex, pend, b2, mkTok, Tok.kt, Lexeme.kt]
            · apply linesOK_append _ _ _ _ (linesOK_pend _ _ _ _ _ hline)
              refine ⟨.inl ?_, trivial⟩
              rw [texts_pend]
              simp [mkTok, hnl, hline]
            · simp [texts_pend, mkTok, htk']
          · simp only [h10, if_false]
            rw [lineStep_line c _ text s.i hc (by simp [P.line])]
            exact go (fun _ => h10) (by simp [Ext.mode, Goast.lex, h10]) (hI.line_keep h10) trivial
        case innerComment =>
          have k1 : Ext.innerComment.skipReturnKeyword = [] := rfl
          have k2 : Ext.innerComment.returnKeyword = [42, 47] := rfl
          have k3 : Ext.innerComment.includeClose = true := rfl
          have k4 : Ext.innerComment.kinds = [.comment] := rfl
          simp only [k1, k2, k3, k4, hasSuffix_pair, List.length_nil, List.length_cons, ne_eq, not_true_eq_false,
            decide_false, Bool.false_and, Bool.false_eq_true, if_false, Nat.succ_ne_self, not_false_eq_true, decide_true,
            Bool.true_and, decide_eq_true_eq, Nat.one_ne_zero, hgl]
          simp only [Nat.reduceAdd, Nat.reduceEqDiff, not_false_eq_true, decide_true, Bool.true_and, decide_eq_true_eq]
          by_cases h10 : c = 47 ∧ s.buf.getLast? = some 42
          · simp only [h10, and_self, if_true]
            simp only [pushNode_spec h { heap := s.heap, buf := s.buf ++ [47], i := s.i, line := s.line } [] bl false [.comment] P.heap]
            rw [lineStep_line 47 _ text s.i (by rw [hc, h10.1]) (by simp [P.line])]
            have hp : [47, 42] <+: s.buf ++ [c] := by
              have h2 := hI
              rw [h10.1] at h2 ⊢
              exact BufInv.block_prefix h2
            have hs : [42, 47] <:+ s.buf ++ [c] := by
              obtain ⟨u, hu⟩ := getLast?_split h10.2
              exact ⟨u, by simp [hu, h10.1]⟩
            have := fin .comment ⟨s.buf ++ [c], true⟩ (by simp [Lexeme.kt]) (by simp [Ext.mode, Goast.lex, h10])
              (fun w => w.2.2.2 hp) (.inr (.inr (head_slash hp))) (by rw [cutOff_block hp]; simp [hs])
            rw [h10.1] at this
            exact ⟨_, _, _, rfl, this⟩
          · simp only [h10, if_false]
            rw [lineStep_line c _ text s.i hc (by simp [P.line])]
            exact go (by simp) (by rw [Ext.mode, Goast.lex, if_neg h10]) hI.block_keep (fun hs => h10 (suffix_pair hs))
        case string =>
          have k1 : Ext.string.skipReturnKeyword = [92, 34] := rfl
          have k2 : Ext.string.returnKeyword = [34] := rfl
          have k3 : Ext.string.includeClose = true := rfl
          have k4 : Ext.string.kinds = [.string] := rfl
          simp only [k1, k2, k3, k4, hasSuffix_pair, hasSuffix_single, List.length_nil, List.length_cons, ne_eq, not_true_eq_false,
            decide_false, Bool.false_and, Bool.false_eq_true, if_false, Nat.succ_ne_self, not_false_eq_true, decide_true,
            Bool.true_and, decide_eq_true_eq, Nat.one_ne_zero, hgl]
          simp only [Nat.reduceAdd, Nat.reduceEqDiff, not_false_eq_true, decide_true, Bool.true_and, decide_eq_true_eq]
          by_cases h11 : c = 34 ∧ s.buf.getLast? = some 92
          · rw [if_pos h11]
            rw [lineStep_line c _ text s.i hc (by simp [P.line])]
            refine go (by simp) ?_ (BufInv.quote_keep (.inl rfl) hI) (by simp [Unclosed, h11])
            rw [Ext.mode, Goast.lex, if_neg (by simp [h11])]
          · rw [if_neg h11]
            by_cases h10 : c = 34
            · subst h10
              simp only [if_true]
              simp only [pushNode_spec h { heap := s.heap, buf := s.buf ++ [34], i := s.i, line := s.line } [] bl false [.string] P.heap]
              rw [lineStep_line 34 _ text s.i hc (by simp [P.line])]
              have hne : s.buf.getLast? ≠ some 92 := fun hx => h11 ⟨rfl, hx⟩
              have := P.quote.1 rfl
              have hq : (s.buf ++ [34]).head? = some 34 := by simp [List.head?_append, this]
              have hlen : 1 ≤ s.buf.length := List.length_pos_iff.2 b2
              refine ⟨_, _, _, rfl, fin .string ⟨s.buf ++ [34], false⟩ ?_ (by simp [Ext.mode, Goast.lex, hne])
                (not_word_quote (.inl rfl) hq) (.inl hq) (by rw [cutOff_quote34 hq]; simp [hne]; omega)⟩
              rw [Lexeme.kt, kind_quote 34 (.inl rfl) _ (by simp [List.head?_append, this])]
              simp
            · simp only [h10, if_false]
              rw [lineStep_line c _ text s.i hc (by simp [P.line])]
              exact go (by simp) (by rw [Ext.mode, Goast.lex, if_neg (by simp [h10])])
                (BufInv.quote_keep (.inl rfl) hI) (by simp [Unclosed, h10])
        case multiline =>
          have k1 : Ext.multiline.skipReturnKeyword = [] := rfl
          have k2 : Ext.multiline.returnKeyword = [96] := rfl
          have k3 : Ext.multiline.includeClose = true := rfl
          have k4 : Ext.multiline.kinds = [.string] := rfl
          simp only [k1, k2, k3, k4, hasSuffix_single, List.length_nil, List.length_cons, ne_eq, not_true_eq_false,
            decide_false, Bool.false_and, Bool.false_eq_true, if_false, Nat.succ_ne_self, not_false_eq_true, decide_true,
            Bool.true_and, decide_eq_true_eq, Nat.one_ne_zero]
          by_cases h10 : c = 96
          · subst h10
            simp only [if_true]
            simp only [pushNode_spec h { heap := s.heap, buf := s.buf ++ [96], i := s.i, line := s.line } [] bl false [.string] P.heap]
            rw [lineStep_line 96 _ text s.i hc (by simp [P.line])]
            have := P.quote.2 rfl
            have hq : (s.buf ++ [96]).head? = some 96 := by simp [List.head?_append, this]
            have hlen : 1 ≤ s.buf.length := List.length_pos_iff.2 b2
            refine ⟨_, _, _, rfl, fin .string ⟨s.buf ++ [96], false⟩ ?_ (by simp [Ext.mode, Goast.lex])
              (not_word_quote (.inr rfl) hq) (.inr (.inl hq)) (by rw [cutOff_quote96 hq]; simp; omega)⟩
            rw [Lexeme.kt, kind_quote 96 (.inr rfl) _ (by simp [List.head?_append, this])]
            simp
          · simp only [h10, if_false]
            rw [lineStep_line c _ text s.i hc (by simp [P.line])]
            exact go (by simp) (by rw [Ext.mode, Goast.lex, if_neg h10])
              (BufInv.quote_keep (.inr rfl) hI) (by simp [Unclosed, h10])
    · -- an opener
      have hdeep : e.hasDeeper = true := by
        by_cases hx : e.hasDeeper = true
        · exact hx
        · simp [hx] at ho
      have hcode : e.mode = .code := by cases e <;> simp_all [Ext.hasDeeper, Ext.mode]
      rw [if_pos hdeep, hd] at ho
      have hI : BufInv .code s.buf (c :: text.drop (s.i + 1)) := by have := P.inv; rwa [hcode, hd] at this
      have hnl := P.nl (.inl hdeep)
      have hline : s.line = countNL pre := by rw [P.line, P.take]; simp [hnl]
      dsimp only
      simp only [pushNode_spec h s ts bl true [] P.heap, if_true]
      generalize hbl1 : (if s.buf = [] then bl else s.line) = bl1 at hbl'
      rcases opener c _ ee ho with ⟨o1, o2, o3, oq, oI, oU, o4⟩ | ⟨o1, o2, o3, o4, oe, o5⟩
      · -- a comment or literal
        simp only [o1, if_true]
        generalize hts1 : ts ++ pend s.line [] s.buf = ts1
        obtain ⟨s2, p2, us2, r2, R2, L2⟩ := ih ee (h.extend (recs h.size ts1)) (pre ++ s.buf) [] s.line
          { heap := h.extend (recs h.size ts1), buf := [] ++ [c], i := s.i + 1, line := s.line }
          (by omega) (by simp; omega)
          ⟨by simp [extend_nil'], by simp [htk, P.line, countNL_single o3], by simp [htk'], by have := P.line; simp; omega,
            Int.le_refl _, fun _ => ⟨rfl, by simp, by simp [P.line, P.take], by simp; omega⟩, fun _ => by simp [countNL_single o3], by simpa using oq, by simpa using oI, by simpa using oU⟩
        have e0 : (⟨none, none, s.line⟩ : Local) = loc (h.extend (recs h.size ts1)).size [] s.line := rfl
        rw [e0, r2]
        have hp2 := R2.ptr
        rw [List.nil_append] at hp2
        have hh2 := R2.heap
        rw [List.nil_append] at hh2
        dsimp only
        rw [hp2, insertNested h s2 ts1 us2 bl1 hh2]
        dsimp only
        obtain ⟨s3, p3, us3, r3, R3, L3⟩ := ih e h (text.take (s2.i + 1)) (ts1 ++ us2) bl1
          { s2 with heap := h.extend (recs h.size (ts1 ++ us2)), i := s2.i + 1 }
          (by omega) (by have := R2.le; simp at this ⊢; omega)
          ⟨rfl, by simp [R2.line], by simp [R2.empty], hbl'.1, by
              have := hbl'.2; have := P.line; have := R2.line
              have := countNL_take_le text (i := s.i) (j := s2.i + 1) (by have := R2.le; simp at this; omega)
              simp; omega, by simp [hdeep], by simp [R2.empty, countNL], by constructor <;> rintro rfl <;> simp [Ext.hasDeeper] at hdeep,
              by simp only [R2.empty, hcode]; exact bufInv_nil _, by simp only [R2.empty]; exact unclosed_nil hdeep⟩
        have hdone := run_done R2.empty hcode R3
        refine ⟨s3, p3, pend s.line [] s.buf ++ us2 ++ us3, r3, ?_,
          LinePost.openLit hdeep o2 hI.word hline hnl L2 (by rw [hbl1]; exact L3) hdone⟩
        have t2 := R2.toks
        have t3 := R3.toks
        simp only [R2.empty, hcode, List.nil_append] at t2 t3
        refine ⟨by simpa [← hts1] using R3.heap, by simpa [← hts1] using R3.ptr, R3.empty, ?_, R3.line, ?_, ?_, ?_⟩
        · have := R2.le; have := R3.le; simp at *; omega
        · rw [hcode, hd, o4]
          simp only [List.map_append, kt_pend, List.append_assoc]
          rw [t2, t3]
        · have l2 := R2.lines
          have l3 := R3.lines
          have f2 := R2.flat
          apply linesOK_append _ _ _ _ _ (by rw [texts_append, texts_pend, ← List.append_assoc, f2]; exact l3)
          apply linesOK_append _ _ _ _ (linesOK_pend _ _ _ _ _ hline)
          rw [texts_pend]; exact l2
        · have f2 := R2.flat
          have f3 := R3.flat
          rw [texts_append, texts_append, texts_pend, ← List.append_assoc, ← List.append_assoc, f2]
          exact f3
      · have hlt : c < 128 := by rcases o4 with rfl | rfl <;> decide
        have hc10 : c ≠ 10 := by rcases o4 with rfl | rfl <;> decide
        simp only [o1, byteToString_lt hlt, Bool.false_eq_true, if_false]
        have ein := insertNew h { heap := h.extend (recs h.size (ts ++ pend s.line [] s.buf)), buf := [], i := s.i, line := s.line }
          (ts ++ pend s.line [] s.buf) bl1 bl1 [c] [] rfl
        dsimp only at ein
        have eb : (loc h.size (ts ++ pend s.line [] s.buf) bl1).bufLine = bl1 := rfl
        rw [eb, ein]
        dsimp only
        generalize hts1 : ts ++ pend s.line [] s.buf ++ [mkTok bl1 [] [c]] = ts1
        obtain ⟨s2, p2, us2, r2, R2, L2⟩ := ih ee (h.extend (recs h.size ts1)) (pre ++ s.buf ++ [c]) [] s.line
          { heap := h.extend (recs h.size ts1), buf := [], i := s.i + 1, line := s.line }
          (by omega) (by simp; omega)
          ⟨by simp [extend_nil'], by simp [htk, P.line, countNL_single hc10], by simp [htk'], by have := P.line; simp; omega,
            Int.le_refl _, by simp [o2], fun _ => by simp [countNL], by constructor <;> rintro rfl <;> simp [Ext.hasDeeper] at o2,
              by simp only [o3]; exact bufInv_nil _, unclosed_nil o2⟩
        have e0 : (⟨none, none, s.line⟩ : Local) = loc (h.extend (recs h.size ts1)).size [] s.line := rfl
        rw [e0, r2]
        have hp2 := R2.ptr
        rw [List.nil_append] at hp2
        have hh2 := R2.heap
        rw [List.nil_append] at hh2
        dsimp only
        rw [hp2, insertNested h s2 ts1 us2 bl1 hh2]
        dsimp only
        obtain ⟨s3, p3, us3, r3, R3, L3⟩ := ih e h (text.take (s2.i + 1)) (ts1 ++ us2) bl1
          { s2 with heap := h.extend (recs h.size (ts1 ++ us2)), i := s2.i + 1 }
          (by omega) (by have := R2.le; simp at this ⊢; omega)
          ⟨rfl, by simp [R2.line], by simp [R2.empty], hbl'.1, by
              have := hbl'.2; have := P.line; have := R2.line
              have := countNL_take_le text (i := s.i) (j := s2.i + 1) (by have := R2.le; simp at this; omega)
              simp; omega, by simp [hdeep], by simp [R2.empty, countNL], by constructor <;> rintro rfl <;> simp [Ext.hasDeeper] at hdeep,
              by simp only [R2.empty, hcode]; exact bufInv_nil _, by simp only [R2.empty]; exact unclosed_nil hdeep⟩
        have hdone := run_done R2.empty hcode R3
        refine ⟨s3, p3, pend s.line [] s.buf ++ mkTok bl1 [] [c] :: (us2 ++ us3), r3, ?_, by
          have := LinePost.openBr (bl := bl) hdeep oe hI.word hline hnl L2 (by rw [hbl1]; exact L3) hdone
          rwa [hbl1] at this⟩
        refine RunPost.sep hcode P hnl (l := bl1) (.inr ⟨o4, hbl'.1, by rw [← P.take, ← P.line]; exact hbl'.2⟩) hc o5 ?_
        have t2 := R2.toks
        have t3 := R3.toks
        simp only [R2.empty, hcode, o3] at t2 t3
        refine ⟨by simpa [← hts1] using R3.heap, by simpa [← hts1] using R3.ptr, R3.empty, ?_, R3.line, ?_, ?_, ?_⟩
        · have := R2.le; have := R3.le; simp at *; omega
        · rw [t2, t3]; simp
        · have f2 := R2.flat
          refine linesOK_append _ _ _ _ R2.lines ?_
          rw [f2]
          exact R3.lines
        · have f2 := R2.flat
          have f3 := R3.flat
          rw [texts_append, ← List.append_assoc, f2]
          exact f3

end Goast
