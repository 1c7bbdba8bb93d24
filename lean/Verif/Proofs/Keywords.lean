import Verif.Props.Kinds
import Verif.Spec.Division

/-!
# Scope words and scope kinds
-/

namespace Goast

theorem startsScope_iff (s : Bytes) : startsScope s = true ↔ newScopeKind s ≠ .unknown := by
  rw [Ne, C45_newScopeKind_unknown, startsScope, List.any_eq_true]
  simp only [List.isPrefixOf_iff_prefix]
  constructor
  · rintro ⟨w, hw, t, rfl⟩ h
    have : ∀ w ∈ scopeWords, ∃ x ∈ scopeKeywords, x.1 = w := by decide +kernel
    obtain ⟨⟨w', k⟩, hk, rfl⟩ := this w hw
    exact h _ k hk ⟨t, rfl⟩
  · intro h
    simp only [Classical.not_forall, Classical.not_not] at h
    obtain ⟨w, k, hk, t, rfl⟩ := h
    refine ⟨w, ?_, t, rfl⟩
    have : ∀ x ∈ scopeKeywords, x.1 ∈ scopeWords := by decide +kernel
    exact this _ hk

theorem newScopeKind_func_iff (s : Bytes) : newScopeKind s = .func_ ↔ b!"func" <+: s := by
  rw [C45_newScopeKind_some _ _ (by decide)]
  constructor
  · rintro ⟨w, t, hw, rfl⟩
    have : ∀ x ∈ scopeKeywords, x.2 = .func_ → x.1 = b!"func" := by decide +kernel
    have := this _ hw rfl
    simp only at this
    rw [this]; exact ⟨t, rfl⟩
  · rintro ⟨t, rfl⟩
    exact ⟨_, t, by decide +kernel, rfl⟩

theorem newScopeKind_type_iff (s : Bytes) : newScopeKind s = .type_ ↔ b!"type" <+: s := by
  rw [C45_newScopeKind_some _ _ (by decide)]
  constructor
  · rintro ⟨w, t, hw, rfl⟩
    have : ∀ x ∈ scopeKeywords, x.2 = .type_ → x.1 = b!"type" := by decide +kernel
    have := this _ hw rfl
    simp only at this
    rw [this]; exact ⟨t, rfl⟩
  · rintro ⟨t, rfl⟩
    exact ⟨_, t, by decide +kernel, rfl⟩

end Goast
