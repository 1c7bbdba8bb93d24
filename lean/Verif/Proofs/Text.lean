import Verif.Model.Kind
import Verif.Spec.Text

namespace Goast

theorem runeWidth_pos {s : Bytes} (h : s ≠ []) : 0 < runeWidth s := by
  cases s with
  | nil => exact absurd rfl h
  | cons b t =>
    unfold runeWidth
    split
    · contradiction
    · repeat' (first | omega | split | (simp only []; split))

theorem runeWidth_ascii (b : UInt8) (t : Bytes) (h : b < 0x80) : runeWidth (b :: t) = 1 := by
  simp [runeWidth, h]

theorem rangeBytesAux_ascii (s : Bytes) (h : Ascii s) : rangeBytesAux 0 s = s := by
  induction s with
  | nil => rfl
  | cons b t ih =>
    have hb : b < 0x80 := h b (by simp)
    simp only [rangeBytesAux, runeWidth_ascii b t hb]
    rw [show (1 - 1 : Nat) = 0 from rfl, ih (fun x hx => h x (by simp [hx]))]

theorem rangeBytes_ascii (s : Bytes) (h : Ascii s) : rangeBytes s = s := rangeBytesAux_ascii s h

/-- Testing all rune starts against a set of ASCII bytes tests all bytes. -/
theorem rangeBytes_all (p : UInt8 → Bool) (hp : ∀ b, p b = true → b < 0x80) (s : Bytes) :
    (rangeBytes s).all p = true ↔ ∀ b ∈ s, p b = true := by
  unfold rangeBytes
  induction s with
  | nil => simp [rangeBytesAux]
  | cons b t ih =>
    simp only [rangeBytesAux, List.all_cons, Bool.and_eq_true, List.mem_cons, forall_eq_or_imp]
    constructor
    · rintro ⟨h1, h2⟩
      rw [runeWidth_ascii b t (hp b h1)] at h2
      exact ⟨h1, ih.1 h2⟩
    · rintro ⟨h1, h2⟩
      rw [runeWidth_ascii b t (hp b h1)]
      exact ⟨h1, ih.2 h2⟩

theorem hasPrefixAux_of_prefix (pre : Bytes) : ∀ (s : Bytes) (k : Nat), pre <+: s →
    hasPrefixAux k s pre = true := by
  induction pre with
  | nil => intro s k _; cases k <;> cases s <;> simp [hasPrefixAux]
  | cons p ps ih =>
    intro s k h
    obtain ⟨t, rfl⟩ := h
    cases k with
    | zero => simp [hasPrefixAux, ih (ps ++ t) _ ⟨t, rfl⟩]
    | succ k => simp [hasPrefixAux, ih (ps ++ t) _ ⟨t, rfl⟩]

theorem hasPrefix_of_prefix {s pre : Bytes} (h : pre <+: s) : hasPrefix s pre = true := by
  unfold hasPrefix
  rw [if_neg (by have := h.length_le; omega)]
  exact hasPrefixAux_of_prefix pre s 0 h

theorem hasPrefixAux_ascii (pre : Bytes) (hp : Ascii pre) : ∀ (s : Bytes),
    hasPrefixAux 0 s pre = true → pre <+: s := by
  induction pre with
  | nil => intro s _; exact List.nil_prefix
  | cons p ps ih =>
    intro s h
    cases s with
    | nil => simp [hasPrefixAux] at h
    | cons c s =>
      have hpb : p < 0x80 := hp p (by simp)
      simp only [hasPrefixAux, runeWidth_ascii p ps hpb, Bool.and_eq_true, beq_iff_eq] at h
      obtain ⟨rfl, h2⟩ := h
      exact List.cons_prefix_cons.2 ⟨rfl, ih (fun x hx => hp x (by simp [hx])) s h2⟩

theorem hasPrefix_ascii {s pre : Bytes} (hp : Ascii pre) :
    hasPrefix s pre = true ↔ pre <+: s := by
  constructor
  · intro h
    unfold hasPrefix at h
    split at h
    · cases h
    · exact hasPrefixAux_ascii pre hp s h
  · exact hasPrefix_of_prefix

theorem hasSuffix_iff (s suf : Bytes) : hasSuffix s suf = true ↔ suf <:+ s := by
  unfold hasSuffix
  split
  · rename_i h
    simp only [Bool.false_eq_true, false_iff]
    intro h'
    have := h'.length_le
    omega
  · rw [beq_iff_eq]
    exact ⟨fun h => ⟨s.take (s.length - suf.length), by
      conv => lhs; rhs; rw [← h]
      exact List.take_append_drop _ _⟩, fun h => by
        rw [List.suffix_iff_eq_drop] at h; exact h.symm⟩

theorem contain_new {α : Type} [DecidableEq α] (l : List α) (k : α) :
    (CharSet.new l).contain k = true ↔ k ∈ l := by
  have : ∀ (l acc : List α), k ∈ l.foldl (fun set c => if c ∈ set then set else set ++ [c]) acc ↔
      k ∈ acc ∨ k ∈ l := by
    intro l
    induction l with
    | nil => simp
    | cons c l ih =>
      intro acc
      simp only [List.foldl_cons, ih, List.mem_cons]
      split
      · rename_i h
        constructor
        · rintro (h' | h') <;> simp [*]
        · rintro (h' | rfl | h') <;> simp [*]
      · simp only [List.mem_append, List.mem_singleton, or_assoc]
  simp [CharSet.new, CharSet.contain, this]

theorem contain_newSlice {α : Type} [DecidableEq α] (ls : List (List α)) (k : α) :
    (CharSet.newSlice ls).contain k = true ↔ ∃ l ∈ ls, k ∈ l := by
  have h1 : ∀ (l acc : List α),
      k ∈ l.foldl (fun set c => if c ∈ set then set else set ++ [c]) acc ↔ k ∈ acc ∨ k ∈ l := by
    intro l
    induction l with
    | nil => simp
    | cons c l ih =>
      intro acc
      simp only [List.foldl_cons, ih, List.mem_cons]
      split
      · rename_i h
        constructor
        · rintro (h' | h') <;> simp [*]
        · rintro (h' | rfl | h') <;> simp [*]
      · simp only [List.mem_append, List.mem_singleton, or_assoc]
  have h2 : ∀ (ls : List (List α)) (acc : List α),
      k ∈ ls.foldl (fun set cs => cs.foldl
        (fun set c => if c ∈ set then set else set ++ [c]) set) acc ↔
      k ∈ acc ∨ ∃ l ∈ ls, k ∈ l := by
    intro ls
    induction ls with
    | nil => simp
    | cons l ls ih =>
      intro acc
      simp only [List.foldl_cons, ih, h1, List.mem_cons, exists_eq_or_imp, or_assoc]
  simp [CharSet.newSlice, CharSet.contain, h2]

end Goast
