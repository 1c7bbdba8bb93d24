import Verif.Proofs.Text
import Verif.Proofs.Runes

/-!
# C46-C49: the pure helpers
-/

namespace Goast

/-! ## C46 -/

/-- `HasSuffix` is exact for every byte slice and every suffix. -/
theorem C46_hasSuffix_exact (s suf : Bytes) : hasSuffix s suf = true ↔ ∃ t, s = t ++ suf := by
  rw [hasSuffix_iff]
  exact ⟨fun ⟨t, h⟩ => ⟨t, h.symm⟩, fun ⟨t, h⟩ => ⟨t, h.symm⟩⟩

/-- `HasPrefix` is exact for every ASCII prefix. -/
theorem C46_hasPrefix_exact_of_ascii (s pre : Bytes) (h : Ascii pre) :
    hasPrefix s pre = true ↔ ∃ t, s = pre ++ t := by
  rw [hasPrefix_ascii h]
  exact ⟨fun ⟨t, h⟩ => ⟨t, h.symm⟩, fun ⟨t, h⟩ => ⟨t, h.symm⟩⟩

example : Ascii b!"/*" ∧ hasPrefix b!"/* x */" b!"/*" = true ∧ hasPrefix b!"/x" b!"/*" = false := by
  refine ⟨?_, ?_, ?_⟩
  · intro b hb; simp at hb; rcases hb with rfl | rfl <;> decide
  · decide
  · decide

/-- `HasPrefix` never misses a real prefix, whatever its bytes. -/
theorem C46_hasPrefix_complete (pre t : Bytes) : hasPrefix (pre ++ t) pre = true :=
  hasPrefix_of_prefix ⟨t, rfl⟩

/-- Exactness fails for multi-byte prefixes: only the first byte of each rune is compared. -/
theorem C46_hasPrefix_inexact :
    ∃ s pre : Bytes, hasPrefix s pre = true ∧ ¬ ∃ t, s = pre ++ t := by
  refine ⟨b!"è", b!"é", by decide, ?_⟩
  rintro ⟨t, h⟩
  simp at h

/-- What `HasPrefix` decides, for every prefix: the string is long enough and agrees with the prefix at the first byte of every rune
of the prefix. -/
theorem C46_hasPrefix_runes (s pre : Bytes) :
    hasPrefix s pre = true ↔ pre.length ≤ s.length ∧ ∀ i, RuneStart pre i → s[i]? = pre[i]? := by
  unfold hasPrefix
  split
  · rename_i h
    exact ⟨fun h => (Bool.false_ne_true h).elim, fun h' => by omega⟩
  · rename_i h
    rw [hasPrefixAux_iff _ s pre (Nat.le_refl _) (by omega)]
    exact ⟨fun h' => ⟨by omega, h'⟩, fun h' => h'.2⟩

/-- The prefix `世x` has runes at 0 and 3; `丗x` agrees there, `世y` and `xx` do not. -/
example : RuneStart b!"世x" 0 ∧ RuneStart b!"世x" 3 ∧ hasPrefix b!"丗x!" b!"世x" = true ∧ hasPrefix b!"世y" b!"世x" = false ∧
    hasPrefix b!"xxxx" b!"世x" = false := by
  refine ⟨.zero _ _, ?_, by decide, by decide, by decide⟩
  exact .step _ 3 0 (by simp) (.inl ⟨'世', ⟨[120], by decide⟩, by decide⟩) (.zero _ _)

/-- The bytes a Go loop `for i := range s` meets at its positions are the first bytes of the runes. -/
theorem C46_first_bytes (s t : Bytes) : FirstBytes s t ↔ rangeBytes s = t := firstBytes_iff _ s t (Nat.le_refl _)

/-- In a UTF-8 text these are the first bytes of the characters. -/
theorem C46_utf8 (cs : List Char) : FirstBytes (utf8Text cs) (cs.filterMap fun c => (String.utf8EncodeChar c).head?) := by
  induction cs with
  | nil => exact .nil
  | cons c cs ih =>
    have hne : String.utf8EncodeChar c ≠ [] := String.utf8EncodeChar_ne_nil
    have e : utf8Text (c :: cs) = String.utf8EncodeChar c ++ utf8Text cs := by simp [utf8Text]
    rw [e]
    have hd : (String.utf8EncodeChar c ++ utf8Text cs).drop (String.utf8EncodeChar c).length = utf8Text cs := by simp
    have hl : RuneLen (String.utf8EncodeChar c ++ utf8Text cs) (String.utf8EncodeChar c).length := .inl ⟨c, ⟨_, rfl⟩, rfl⟩
    cases h : String.utf8EncodeChar c with
    | nil => exact absurd h hne
    | cons b bs =>
      rw [h] at hl hd
      have := FirstBytes.cons b (bs ++ utf8Text cs) _ _ hl (hd ▸ ih)
      simpa [h] using this

example : FirstBytes b!"aé世" [0x61, 0xc3, 0xe4] := C46_utf8 ['a', 'é', '世']

/-! ## C47 -/

/-- What `TidyText` makes of one byte. -/
def tidyByte (c : UInt8) : Bytes :=
  if c = 10 then b!"\\n" else if c = 13 ∨ c = 32 then b!"·" else if c = 9 then b!" -> " else [c]

/-- `TidyText` rewrites byte by byte, for every text. -/
theorem C47_tidyText_eq (s : Bytes) : tidyText s = s.flatMap tidyByte := by
  unfold tidyText replaceByte
  simp only [List.flatMap_assoc]
  congr 1
  funext c
  unfold tidyByte
  by_cases h1 : c = 10
  · subst h1; decide
  · by_cases h2 : c = 13
    · subst h2; decide
    · by_cases h3 : c = 32
      · subst h3; decide
      · by_cases h4 : c = 9
        · subst h4; decide
        · simp [h1, h2, h3, h4]

/-- The output never contains a newline, carriage return or tab. -/
theorem C47_tidyText_no_control (s : Bytes) :
    10 ∉ tidyText s ∧ 13 ∉ tidyText s ∧ 9 ∉ tidyText s := by
  rw [C47_tidyText_eq]
  simp only [List.mem_flatMap, not_exists, not_and, tidyByte]
  refine ⟨?_, ?_, ?_⟩ <;>
    (intro x _; split
     · decide
     · split
       · decide
       · split
         · decide
         · simp only [List.mem_singleton]; rintro rfl; simp_all)

/-- Every space of the output belongs to the arrow of a tab: there are exactly two per tab. -/
theorem C47_tidyText_spaces (s : Bytes) : (tidyText s).count 32 = 2 * s.count 9 := by
  rw [C47_tidyText_eq]
  induction s with
  | nil => rfl
  | cons c s ih =>
    rw [List.flatMap_cons, List.count_append, ih, List.count_cons]
    unfold tidyByte
    by_cases h1 : c = 10
    · subst h1; simp
    · by_cases h2 : c = 13
      · subst h2; simp
      · by_cases h3 : c = 32
        · subst h3; simp
        · by_cases h4 : c = 9
          · subst h4; simp; omega
          · simp [h1, h2, h3, h4]

/-- Text without blanks is unchanged. -/
theorem C47_tidyText_id (s : Bytes) (h : ∀ c ∈ s, c ≠ 10 ∧ c ≠ 13 ∧ c ≠ 32 ∧ c ≠ 9) :
    tidyText s = s := by
  rw [C47_tidyText_eq]
  induction s with
  | nil => rfl
  | cons c s ih =>
    have hc := h c (by simp)
    rw [List.flatMap_cons, ih fun x hx => h x (by simp [hx])]
    simp [tidyByte, hc]

example : tidyText b!"a b\n\tc" = b!"a·b\\n -> c" := by decide +kernel
example : ∀ c ∈ b!"f(x)", c ≠ 10 ∧ c ≠ 13 ∧ c ≠ 32 ∧ c ≠ 9 := by decide

/-! ## C48 -/

/-- The first element is dropped exactly when it repeats the current last element. -/
theorem C48_appendUnrepeatable {α : Type} [DecidableEq α] (slice : List α) (e : α) (es : List α) :
    (slice.getLast? = some e → appendUnrepeatable slice (e :: es) = slice ++ es) ∧
    (slice.getLast? ≠ some e → appendUnrepeatable slice (e :: es) = slice ++ e :: es) ∧
    appendUnrepeatable slice ([] : List α) = slice := by
  refine ⟨?_, ?_, rfl⟩
  · intro h; simp [appendUnrepeatable, h]
  · intro h
    unfold appendUnrepeatable
    cases hl : slice.getLast? with
    | none => simp [List.getLast?_eq_none_iff.1 hl]
    | some l =>
      have : l ≠ e := fun hh => h (by rw [hl, hh])
      simp [this]

example : appendUnrepeatable [1, 2] [2, 2, 3] = [1, 2, 2, 3] := by decide
example : appendUnrepeatable [1, 2] [3, 3] = [1, 2, 3, 3] := by decide

/-! ## C49 -/

/-- `New(l...)` contains exactly the members of `l`. -/
theorem C49_new {α : Type} [DecidableEq α] (l : List α) (k : α) :
    (CharSet.new l).contain k = true ↔ k ∈ l := contain_new l k

/-- `NewSlice(ls...)` contains exactly the members of the union. -/
theorem C49_newSlice {α : Type} [DecidableEq α] (ls : List (List α)) (k : α) :
    (CharSet.newSlice ls).contain k = true ↔ ∃ l ∈ ls, k ∈ l := contain_newSlice ls k

/-- The nil set contains nothing. -/
theorem C49_nil {α : Type} [DecidableEq α] (k : α) :
    CharSet.contain (Option.none : CharSet α) k = false := rfl

example : (CharSet.new [3, 1, 3]).contain 3 = true ∧ (CharSet.new [3, 1, 3]).contain 2 = false := by
  decide

end Goast
