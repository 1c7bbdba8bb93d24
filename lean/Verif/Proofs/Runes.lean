import Verif.Proofs.Text

/-!
# The runes of a Go string

`runeWidth` of the model, read against the UTF-8 encodings of characters.
-/

namespace Goast

theorem encode_cases (c : Char) : (c.val.toNat ≤ 0x7f ∧ String.utf8EncodeChar c = [UInt8.ofNat c.val.toNat]) ∨
    (0x7f < c.val.toNat ∧ c.val.toNat ≤ 0x7ff ∧ String.utf8EncodeChar c = [UInt8.ofNat (c.val.toNat / 64 % 32 + 0xc0), UInt8.ofNat (c.val.toNat % 64 + 0x80)]) ∨
    (0x7ff < c.val.toNat ∧ c.val.toNat ≤ 0xffff ∧ (c.val.toNat < 0xd800 ∨ 0xdfff < c.val.toNat) ∧ String.utf8EncodeChar c =
      [UInt8.ofNat (c.val.toNat / 4096 % 16 + 0xe0), UInt8.ofNat (c.val.toNat / 64 % 64 + 0x80), UInt8.ofNat (c.val.toNat % 64 + 0x80)]) ∨
    (0xffff < c.val.toNat ∧ c.val.toNat < 0x110000 ∧ String.utf8EncodeChar c =
      [UInt8.ofNat (c.val.toNat / 262144 % 8 + 0xf0), UInt8.ofNat (c.val.toNat / 4096 % 64 + 0x80), UInt8.ofNat (c.val.toNat / 64 % 64 + 0x80),
        UInt8.ofNat (c.val.toNat % 64 + 0x80)]) := by
  have hv : c.val.toNat < 0xd800 ∨ 0xdfff < c.val.toNat ∧ c.val.toNat < 0x110000 := c.valid
  unfold String.utf8EncodeChar
  dsimp only
  repeat' split
  all_goals first
    | exact .inl ⟨by omega, rfl⟩
    | exact .inr (.inl ⟨by omega, by omega, rfl⟩)
    | exact .inr (.inr (.inl ⟨by omega, by omega, by omega, rfl⟩))
    | exact .inr (.inr (.inr ⟨by omega, by omega, rfl⟩))

theorem runeWidth_encode (c : Char) (t : Bytes) : runeWidth (String.utf8EncodeChar c ++ t) = (String.utf8EncodeChar c).length := by
  rcases encode_cases c with ⟨h, e⟩ | ⟨h, h', e⟩ | ⟨h, h', h2, e⟩ | ⟨h, h', e⟩ <;> rw [e]
  all_goals generalize c.val.toNat = v at *
  · simp [runeWidth, UInt8.lt_iff_toNat_lt]; omega
  · simp [runeWidth, UInt8.lt_iff_toNat_lt, UInt8.le_iff_toNat_le, isCont]
    rw [if_neg (by omega), if_pos (by omega), if_pos (by omega)]
  · simp [runeWidth, UInt8.lt_iff_toNat_lt, UInt8.le_iff_toNat_le, isCont, ← UInt8.toNat_inj]
    rw [if_neg (by omega), if_neg (by omega), if_pos (by omega), if_pos]
    constructor
    · constructor
      · split <;> simp <;> omega
      · split <;> simp <;> omega
    · omega
  · simp [runeWidth, UInt8.lt_iff_toNat_lt, UInt8.le_iff_toNat_le, isCont, ← UInt8.toNat_inj]
    rw [if_neg (by omega), if_neg (by omega), if_neg (by omega), if_pos (by omega), if_pos]
    refine ⟨⟨⟨?_, ?_⟩, ?_⟩, ?_⟩
    · split <;> simp <;> omega
    · split <;> simp <;> omega
    · omega
    · omega

/-- A wide rune is the encoding of a character. -/
theorem encode_of_runeWidth {s : Bytes} (h : s ≠ []) (hw : runeWidth s ≠ 1) : ∃ c : Char, String.utf8EncodeChar c <+: s := by
  have mk : ∀ v : Nat, (v < 0xd800 ∨ 0xdfff < v ∧ v < 0x110000) → ∃ c : Char, c.val.toNat = v := by
    intro v hv
    refine ⟨Char.ofNatAux v hv, ?_⟩
    simp [Char.ofNatAux]
  cases s with
  | nil => exact absurd rfl h
  | cons b0 s =>
    unfold runeWidth at hw
    dsimp only at hw
    have l0 := b0.toNat_lt
    split at hw
    · exact absurd rfl hw
    split at hw
    · rename_i h1 h2
      split at hw <;> try exact absurd rfl hw
      rename_i b1 s
      split at hw <;> try exact absurd rfl hw
      rename_i h3
      have l1 := b1.toNat_lt
      simp [isCont, UInt8.lt_iff_toNat_lt, UInt8.le_iff_toNat_le] at h1 h2 h3
      obtain ⟨c, hc⟩ := mk (b0.toNat % 32 * 64 + b1.toNat % 64) (by omega)
      refine ⟨c, s, ?_⟩
      rcases encode_cases c with ⟨k, e⟩ | ⟨k, k', e⟩ | ⟨k, k', k2, e⟩ | ⟨k, k', e⟩ <;> rw [hc] at k
      · omega
      · rw [e, hc]
        simp [← UInt8.toNat_inj]
        omega
      · omega
      · omega
    split at hw
    · rename_i h1 h1' h2
      split at hw <;> try exact absurd rfl hw
      rename_i b1 b2 s
      have h3 : (decide ((if b0 == 0xE0 then 0xA0 else 0x80 : UInt8) ≤ b1) && decide (b1 ≤ (if b0 == 0xED then 0x9F else 0xBF : UInt8)) && isCont b2) = true :=
        Classical.byContradiction fun hn => hw (if_neg hn)
      have l1 := b1.toNat_lt
      have l2 := b2.toNat_lt
      simp [isCont, UInt8.lt_iff_toNat_lt, UInt8.le_iff_toNat_le, ← UInt8.toNat_inj] at h1 h2 h3
      have h4 : b0.toNat = 224 → 160 ≤ b1.toNat := by
        intro e; have := h3.1.1; simpa [e] using this
      have h4' : b0.toNat ≠ 224 → 128 ≤ b1.toNat := by
        intro e; have := h3.1.1; simpa [e] using this
      have h5 : b0.toNat = 237 → b1.toNat ≤ 159 := by
        intro e; have := h3.1.2; simpa [e] using this
      have h5' : b0.toNat ≠ 237 → b1.toNat ≤ 191 := by
        intro e; have := h3.1.2; simpa [e] using this
      have h6 := h3.2
      clear h3
      obtain ⟨c, hc⟩ := mk (b0.toNat % 16 * 4096 + b1.toNat % 64 * 64 + b2.toNat % 64) (by omega)
      refine ⟨c, s, ?_⟩
      rcases encode_cases c with ⟨k, e⟩ | ⟨k, k', e⟩ | ⟨k, k', k2, e⟩ | ⟨k, k', e⟩ <;> rw [hc] at k
      · omega
      · omega
      · rw [e, hc]
        simp [← UInt8.toNat_inj]
        omega
      · omega
    split at hw
    · rename_i h1 h1' h1'' h2
      split at hw <;> try exact absurd rfl hw
      rename_i b1 b2 b3 s
      have h3 : (decide ((if b0 == 0xF0 then 0x90 else 0x80 : UInt8) ≤ b1) && decide (b1 ≤ (if b0 == 0xF4 then 0x8F else 0xBF : UInt8)) && isCont b2 && isCont b3) = true :=
        Classical.byContradiction fun hn => hw (if_neg hn)
      have l1 := b1.toNat_lt
      have l2 := b2.toNat_lt
      have l3 := b3.toNat_lt
      simp [isCont, UInt8.lt_iff_toNat_lt, UInt8.le_iff_toNat_le, ← UInt8.toNat_inj] at h1 h2 h3
      have h4 : b0.toNat = 240 → 144 ≤ b1.toNat := by
        intro e; have := h3.1.1.1; simpa [e] using this
      have h4' : b0.toNat ≠ 240 → 128 ≤ b1.toNat := by
        intro e; have := h3.1.1.1; simpa [e] using this
      have h5 : b0.toNat = 244 → b1.toNat ≤ 143 := by
        intro e; have := h3.1.1.2; simpa [e] using this
      have h5' : b0.toNat ≠ 244 → b1.toNat ≤ 191 := by
        intro e; have := h3.1.1.2; simpa [e] using this
      have h6 := h3.1.2
      have h7 := h3.2
      clear h3
      obtain ⟨c, hc⟩ := mk (b0.toNat % 8 * 262144 + b1.toNat % 64 * 4096 + b2.toNat % 64 * 64 + b3.toNat % 64) (by omega)
      refine ⟨c, s, ?_⟩
      rcases encode_cases c with ⟨k, e⟩ | ⟨k, k', e⟩ | ⟨k, k', k2, e⟩ | ⟨k, k', e⟩ <;> rw [hc] at k
      · omega
      · omega
      · omega
      · rw [e, hc]
        simp [← UInt8.toNat_inj]
        omega
    · exact absurd rfl hw

theorem runeLen_iff {s : Bytes} (h : s ≠ []) (k : Nat) : RuneLen s k ↔ k = runeWidth s := by
  constructor
  · rintro (⟨c, ⟨t, rfl⟩, rfl⟩ | ⟨hn, rfl⟩)
    · exact (runeWidth_encode c t).symm
    · by_cases hw : runeWidth s = 1
      · exact hw.symm
      · obtain ⟨c, hc⟩ := encode_of_runeWidth h hw
        exact absurd hc (hn c)
  · rintro rfl
    by_cases hc : ∃ c : Char, String.utf8EncodeChar c <+: s
    · obtain ⟨c, t, rfl⟩ := hc
      exact .inl ⟨c, ⟨t, rfl⟩, runeWidth_encode c t⟩
    · refine .inr ⟨fun c h => hc ⟨c, h⟩, ?_⟩
      exact Classical.byContradiction fun hw => hc (encode_of_runeWidth h hw)

theorem rangeBytesAux_drop (s : Bytes) : ∀ k, rangeBytesAux k s = rangeBytesAux 0 (s.drop k) := by
  induction s with
  | nil => intro k; cases k <;> simp [rangeBytesAux]
  | cons b s ih =>
    intro k
    cases k with
    | zero => simp
    | succ k => simp only [rangeBytesAux, List.drop_succ_cons]; exact ih k

theorem firstBytes_iff : ∀ (n : Nat) (s t : Bytes), s.length ≤ n → (FirstBytes s t ↔ rangeBytes s = t) := by
  intro n
  induction n with
  | zero =>
    intro s t hs
    have : s = [] := List.length_eq_zero_iff.1 (by omega)
    subst this
    constructor
    · rintro ⟨⟩; rfl
    · rintro rfl; exact .nil
  | succ n ih =>
    intro s t hs
    cases s with
    | nil =>
      constructor
      · rintro ⟨⟩; rfl
      · rintro rfl; exact .nil
    | cons b s =>
      have hw := runeWidth_pos (s := b :: s) (by simp)
      have hd : ((b :: s).drop (runeWidth (b :: s))).length ≤ n := by simp at hs ⊢; omega
      have e : rangeBytes (b :: s) = b :: rangeBytes ((b :: s).drop (runeWidth (b :: s))) := by
        show b :: rangeBytesAux _ s = b :: rangeBytesAux 0 _
        rw [rangeBytesAux_drop]
        obtain ⟨k, hk⟩ : ∃ k, runeWidth (b :: s) = k + 1 := ⟨_, (Nat.succ_pred_eq_of_pos hw).symm⟩
        rw [hk]; simp
      rw [e]
      constructor
      · rintro ⟨⟩
        rename_i k r hl hr
        rw [runeLen_iff (by simp)] at hl
        subst hl
        rw [(ih _ _ hd).1 hr]
      · rintro rfl
        exact .cons b s _ _ ((runeLen_iff (by simp) _).2 rfl) ((ih _ _ hd).2 rfl)

theorem hasPrefixAux_drop : ∀ (k : Nat) (s pre : Bytes), pre.length ≤ s.length → hasPrefixAux k s pre = hasPrefixAux 0 (s.drop k) (pre.drop k) := by
  intro k
  induction k with
  | zero => intro s pre _; simp
  | succ k ih =>
    intro s pre hl
    cases pre with
    | nil => simp [hasPrefixAux]
    | cons p pre => cases s with
      | nil => simp at hl
      | cons c s =>
        simp only [hasPrefixAux, List.drop_succ_cons]
        exact ih s pre (by simpa using hl)

theorem hasPrefixAux_iff : ∀ (n : Nat) (s pre : Bytes), pre.length ≤ n → pre.length ≤ s.length →
    (hasPrefixAux 0 s pre = true ↔ ∀ i, RuneStart pre i → s[i]? = pre[i]?) := by
  intro n
  induction n with
  | zero =>
    intro s pre hp _
    have : pre = [] := List.length_eq_zero_iff.1 (by omega)
    subst this
    simp only [hasPrefixAux, true_iff]
    intro i hi
    cases hi with
    | step _ _ _ h => exact absurd rfl h
  | succ n ih =>
    intro s pre hp hl
    cases pre with
    | nil =>
      simp only [hasPrefixAux, true_iff]
      intro i hi
      cases hi with
      | step _ _ _ h => exact absurd rfl h
    | cons p pre => cases s with
      | nil => simp at hl
      | cons c s =>
        have hw := runeWidth_pos (s := p :: pre) (by simp)
        obtain ⟨k, hk⟩ : ∃ k, runeWidth (p :: pre) = k + 1 := ⟨_, (Nat.succ_pred_eq_of_pos hw).symm⟩
        simp only [hasPrefixAux, hk, Nat.add_sub_cancel, Bool.and_eq_true, beq_iff_eq]
        rw [hasPrefixAux_drop k s pre (by simpa using hl),
          ih _ _ (by simp at hp ⊢; omega) (by simp at hl ⊢; omega)]
        constructor
        · rintro ⟨rfl, h⟩ i hi
          cases hi with
          | zero => simp
          | step _ k' i hne hlen hi =>
            rw [runeLen_iff (by simp), hk] at hlen
            subst hlen
            have := h i hi
            simp only [List.getElem?_drop] at this
            rw [show k + 1 + i = (k + i) + 1 by omega]
            simpa using this
        · intro h
          refine ⟨by simpa using h 0 (.zero _ _), fun i hi => ?_⟩
          have := h (k + 1 + i) (.step _ _ _ (by simp) ((runeLen_iff (by simp) _).2 hk.symm) hi)
          rw [show k + 1 + i = (k + i) + 1 by omega] at this
          simpa using this

end Goast
