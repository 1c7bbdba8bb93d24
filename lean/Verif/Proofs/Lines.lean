import Verif.Proofs.ExtractHeap
import Verif.Proofs.Lexer
import Verif.Spec.Lines

/-!
# The line of every node: one step of the specification at a time
-/

namespace Goast

/-- The texts that close the open brackets are closing brackets. -/
def UpOK (up : List (Bytes × Int)) : Prop := ∀ x ∈ up, x.1 = b!")" ∨ x.1 = b!"}"

theorem UpOK.head {up : List (Bytes × Int)} (U : UpOK up) {t : Bytes} (h : up.head?.map (·.1) = some t) :
    t = [41] ∨ t = [125] := by
  rcases up with _ | ⟨x, up⟩
  · simp at h
  · simp at h
    have := U x (by simp)
    rw [h] at this
    exact this

theorem not_word_sep {c : UInt8} (hc : c ∈ separatorBytes) : ¬ IsWord [c] := by
  intro h
  exact (h.2.1 c (by simp)).1 hc

theorem lineList_word {buf : Bytes} (w : IsWord buf) {up : List (Bytes × Int)} (U : UpOK up) (n last : Int) (vs : List Bytes) :
    lineList n last up (buf :: vs) = n :: lineList n n up vs := by
  have ne : ∀ c ∈ separatorBytes, buf ≠ [c] := by
    rintro c hc rfl
    exact not_word_sep hc w
  have h3 : up.head?.map (·.1) ≠ some buf := by
    intro h
    rcases U.head h with h | h
    · exact ne 41 (by decide) h
    · exact ne 125 (by decide) h
  rw [lineList, if_neg (ne 40 (by decide)), if_neg (ne 123 (by decide)), if_neg h3, if_pos w]

theorem lineList_pend {buf : Bytes} (w : buf = [] ∨ IsWord buf) {up : List (Bytes × Int)} (U : UpOK up) (n last : Int)
    (ks : List Kind) (vs : List Bytes) :
    lineList n last up ((pend n ks buf).map Tok.text ++ vs) =
      (pend n ks buf).map Tok.line ++ lineList n (if buf = [] then last else n) up vs := by
  unfold pend
  split
  · simp
  · rename_i hb
    simp [mkTok, lineList_word (w.resolve_left hb) U]

theorem lineList_sep {c : UInt8} (hc : c ∈ separatorBytes) (h1 : c ≠ 40) (h2 : c ≠ 123) {up : List (Bytes × Int)}
    (h3 : up.head?.map (·.1) ≠ some [c]) (n last : Int) (vs : List Bytes) :
    lineList n last up ([c] :: vs) = n :: lineList (n + countNL [c]) last up vs := by
  have h4 : cutOff [c] = false := by
    have : c ≠ 34 ∧ c ≠ 96 := by
      clear h3
      revert c; decide
    simp [cutOff, List.isPrefixOf, this]
  rw [lineList, if_neg (by simpa using h1), if_neg (by simpa using h2), if_neg h3, if_neg (not_word_sep hc), h4]
  rfl

theorem lineList_close {c : UInt8} (hc : c = 41 ∨ c = 125) (saved : Int) (out : List (Bytes × Int)) (n last : Int) (vs : List Bytes) :
    lineList n last (([c], saved) :: out) ([c] :: vs) = n :: lineList n saved out vs := by
  rw [lineList, if_neg (by rcases hc with rfl | rfl <;> decide), if_neg (by rcases hc with rfl | rfl <;> decide)]
  simp

theorem lineList_open {c : UInt8} (hc : c = 40 ∨ c = 123) (up : List (Bytes × Int)) (n last : Int) (vs : List Bytes) :
    lineList n last up ([c] :: vs) = last :: lineList n n (([if c = 40 then 41 else 125], last) :: up) vs := by
  rcases hc with rfl | rfl <;> rw [lineList] <;> simp

theorem lineList_lit {t : Bytes} (h1 : ¬ IsWord t) (h2 : t.head? = some 34 ∨ t.head? = some 96 ∨ t.head? = some 47)
    {up : List (Bytes × Int)} (U : UpOK up) (n last : Int) (vs : List Bytes) :
    lineList n last up (t :: vs) =
      (if cutOff t then n + countNL t else n) :: lineList (n + countNL t) last up vs := by
  have ne : ∀ c, (c ≠ 34 ∧ c ≠ 96 ∧ c ≠ 47) → t ≠ [c] := by
    rintro c ⟨n1, n2, n3⟩ rfl
    simp [n1, n2, n3] at h2
  have h3 : up.head?.map (·.1) ≠ some t := by
    intro h
    rcases U.head h with h | h
    · exact ne 41 (by decide) h
    · exact ne 125 (by decide) h
  rw [lineList, if_neg (ne 40 (by decide)), if_neg (ne 123 (by decide)), if_neg h3, if_neg h1]
  split <;> rfl

/-- The state behind some pieces. -/
theorem lineList_append (ts us : List Bytes) : ∀ (n last : Int) (up : List (Bytes × Int)), UpOK up →
    ∃ last' up', UpOK up' ∧ ∃ xs, xs.length = ts.length ∧
      lineList n last up (ts ++ us) = xs ++ lineList (n + countNL ts.flatten) last' up' us := by
  induction ts with
  | nil => intro n last up U; exact ⟨last, up, U, [], rfl, by simp [countNL]⟩
  | cons t ts ih =>
    intro n last up U
    have hw : IsWord t → countNL t = 0 := by
      intro w
      rw [countNL, List.count_eq_zero]
      intro h
      exact (w.2.1 10 h).1 (by decide)
    have done : ∀ (x n' l' : Int) (up' : List (Bytes × Int)), UpOK up' → n' = n + countNL t →
        lineList n last up (t :: (ts ++ us)) = x :: lineList n' l' up' (ts ++ us) →
        ∃ last' up', UpOK up' ∧ ∃ xs, xs.length = (t :: ts).length ∧
          lineList n last up (t :: ts ++ us) = xs ++ lineList (n + countNL (t :: ts).flatten) last' up' us := by
      intro x n' l' up' U' hn e
      obtain ⟨l2, up2, U2, xs, hx, e2⟩ := ih n' l' up' U'
      refine ⟨l2, up2, U2, x :: xs, by simp [hx], ?_⟩
      rw [List.cons_append, e, e2, List.cons_append]
      congr 3
      rw [hn]
      simp [countNL]
      omega
    by_cases h1 : t = b!"("
    · refine done last n n ((b!")", last) :: up) ?_ (by rw [h1]; simp [countNL]) (by rw [lineList, if_pos h1])
      intro x hx
      rcases List.mem_cons.1 hx with rfl | hx
      · simp
      · exact U x hx
    by_cases h2 : t = b!"{"
    · refine done last n n ((b!"}", last) :: up) ?_ (by rw [h2]; simp [countNL]) (by rw [lineList, if_neg h1, if_pos h2])
      intro x hx
      rcases List.mem_cons.1 hx with rfl | hx
      · simp
      · exact U x hx
    by_cases h3 : (up.head?.map (·.1)) = some t
    · refine done n n _ up.tail (fun x hx => U x (List.mem_of_mem_tail hx)) ?_
        (by rw [lineList, if_neg h1, if_neg h2, if_pos h3])
      rcases U.head h3 with rfl | rfl <;> simp [countNL]
    by_cases h4 : IsWord t
    · exact done n n n up U (by simp [hw h4]) (by rw [lineList, if_neg h1, if_neg h2, if_neg h3, if_pos h4])
    by_cases h5 : cutOff t = true
    · exact done _ _ last up U rfl (by rw [lineList, if_neg h1, if_neg h2, if_neg h3, if_neg h4, if_pos h5]; rfl)
    · exact done n _ last up U rfl (by rw [lineList, if_neg h1, if_neg h2, if_neg h3, if_neg h4, if_neg h5]; rfl)

/-! ## The buffer -/

theorem BufInv.word {buf rest : Bytes} (I : BufInv .code buf rest) : buf = [] ∨ IsWord buf := by
  by_cases hb : buf = []
  · exact .inl hb
  · obtain ⟨i1, i2⟩ := I
    obtain ⟨i2, i3⟩ := i2 hb
    exact .inr ⟨hb, i1, fun hx => i2 (hx.trans (List.prefix_append _ _)), fun hx => i3 (hx.trans (List.prefix_append _ _))⟩

theorem BufInv.code_keep {buf rest : Bytes} {c : UInt8} (I : BufInv .code buf (c :: rest))
    (n1 : ¬ (c = 47 ∧ rest.head? = some 47)) (n2 : ¬ (c = 47 ∧ rest.head? = some 42)) (n3 : c ≠ 34) (n4 : c ≠ 96)
    (n5 : c ∉ separatorBytes) : BufInv .code (buf ++ [c]) rest := by
  refine ⟨?_, ?_⟩
  · intro b hb
    rcases List.mem_append.1 hb with hb | hb
    · exact I.1 b hb
    · simp at hb; subst hb; exact ⟨n5, n3, n4⟩
  · intro _
    rw [List.append_assoc, List.singleton_append]
    by_cases hb : buf = []
    · subst hb
      rcases rest with _ | ⟨r, rest⟩
      · simp
      · simp at n1 n2
        simp only [List.nil_append, List.cons_prefix_cons, List.nil_prefix, and_true]
        exact ⟨fun h => n1 h.1.symm h.2.symm, fun h => n2 h.1.symm h.2.symm⟩
    · exact I.2 hb

theorem getLast?_split {b : Bytes} {x : UInt8} (h : b.getLast? = some x) : ∃ u, b = u ++ [x] := by
  obtain ⟨u, hu⟩ := List.getLast?_eq_some_iff.1 h
  exact ⟨u, hu⟩

/-- A block comment as far as it has been read. -/
theorem block_shape {buf rest : Bytes} (I : BufInv .blockComment buf rest) (h : 2 ≤ buf.length) : [47, 42] <+: buf := by
  obtain ⟨h1, h2⟩ := I
  rcases buf with _ | ⟨x, _ | ⟨y, buf⟩⟩
  · simp at h
  · simp at h
  · simpa using h2

theorem BufInv.line_keep {buf rest : Bytes} {c : UInt8} (I : BufInv .lineComment buf (c :: rest)) (hc : c ≠ 10) :
    BufInv .lineComment (buf ++ [c]) rest := by
  obtain ⟨h1, h2, h3⟩ := I
  refine ⟨by simp, by simpa using h2, ?_⟩
  simp only [List.mem_append, List.mem_singleton, not_or]
  exact ⟨h3, fun h => hc h.symm⟩

theorem BufInv.line_prefix {buf rest : Bytes} (I : BufInv .lineComment buf (10 :: rest)) : [47, 47] <+: buf := by
  obtain ⟨h1, h2, h3⟩ := I
  rcases buf with _ | ⟨x, _ | ⟨y, buf⟩⟩
  · exact absurd rfl h1
  · simp at h2
  · simpa using h2

theorem BufInv.block_keep {buf rest : Bytes} {c : UInt8} (I : BufInv .blockComment buf (c :: rest)) :
    BufInv .blockComment (buf ++ [c]) rest := ⟨by simp, by simpa using I.2⟩

theorem BufInv.block_prefix {buf rest : Bytes} (I : BufInv .blockComment buf (47 :: rest)) :
    [47, 42] <+: buf ++ [47] := by
  obtain ⟨h1, h2⟩ := I
  rcases buf with _ | ⟨x, _ | ⟨y, buf⟩⟩
  · exact absurd rfl h1
  · simp at h2
  · simp at h2; simp [h2]

theorem BufInv.quote_keep {buf rest : Bytes} {c : UInt8} {m : Mode} (hm : m = .str ∨ m = .rawStr)
    (I : BufInv m buf (c :: rest)) : BufInv m (buf ++ [c]) rest := by
  rcases hm with rfl | rfl
  · have I' : buf.head? = some 34 := I
    simp [BufInv, List.head?_append, I']
  · have I' : buf.head? = some 96 := I
    simp [BufInv, List.head?_append, I']

/-- Not closed yet. -/
def Unclosed (e : Ext) (buf : Bytes) : Prop :=
  match e with
  | .innerComment => ¬ [42, 47] <:+ buf
  | .string => ¬ (2 ≤ buf.length ∧ buf.getLast? = some 34 ∧ buf.dropLast.getLast? ≠ some 92)
  | .multiline => ¬ (2 ≤ buf.length ∧ buf.getLast? = some 96)
  | _ => True

theorem suffix_pair {b : Bytes} {c x y : UInt8} (h : [x, y] <:+ b ++ [c]) : c = y ∧ b.getLast? = some x := by
  obtain ⟨t, ht⟩ := h
  have e : t ++ [x, y] = (t ++ [x]) ++ [y] := by simp
  rw [e] at ht
  have := List.append_inj' ht rfl
  simp at this
  simp [← this.1, this.2]

theorem cutOff_quote34 {t : Bytes} (h : t.head? = some 34) : cutOff t =
    !(decide (2 ≤ t.length) && t.getLast? = some 34 && t.dropLast.getLast? ≠ some 92) := by
  rcases t with _ | ⟨x, t⟩
  · simp at h
  · simp at h; subst h
    simp [cutOff, List.isPrefixOf]

theorem cutOff_quote96 {t : Bytes} (h : t.head? = some 96) : cutOff t =
    !(decide (2 ≤ t.length) && t.getLast? = some 96) := by
  rcases t with _ | ⟨x, t⟩
  · simp at h
  · simp at h; subst h
    simp [cutOff, List.isPrefixOf]

theorem cutOff_block {t : Bytes} (h : [47, 42] <+: t) : cutOff t = !decide ([42, 47] <:+ t) := by
  unfold cutOff
  rw [if_pos (by simpa using h)]
  congr 1
  rw [Bool.eq_iff_iff]; simp

theorem not_word_quote {t : Bytes} {q : UInt8} (hq : q = 34 ∨ q = 96) (h : t.head? = some q) : ¬ IsWord t := by
  intro w
  have : q ∈ t := by
    rcases t with _ | ⟨x, t⟩
    · simp at h
    · simp at h; simp [h]
  have := w.2.1 q this
  rcases hq with rfl | rfl <;> simp at this

theorem head_slash {t : Bytes} {y : UInt8} (h : [47, y] <+: t) : t.head? = some 47 := by
  obtain ⟨u, rfl⟩ := h; rfl

end Goast
