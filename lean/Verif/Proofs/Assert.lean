import Verif.Spec.Assert

/-!
# Proofs about `reflect.Value.Equal`
-/

namespace Goast.Assert

mutual
theorem same_eq : ∀ (T U : GoType), T.same U = true ↔ T = U
  | .prim k, U => by cases U <;> simp [GoType.same]
  | .array n T, U => by cases U <;> simp [GoType.same, same_eq T]
  | .slice T, U => by cases U <;> simp [GoType.same, same_eq T]
  | .ptr T, U => by cases U <;> simp [GoType.same, same_eq T]
  | .chan t, U => by cases U <;> simp [GoType.same]
  | .func t, U => by cases U <;> simp [GoType.same]
  | .map t, U => by cases U <;> simp [GoType.same]
  | .interface t, U => by cases U <;> simp [GoType.same]
  | .struct Ts ns, U => by cases U <;> simp [GoType.same, sames_eq Ts, and_comm]
  | .named n T, U => by cases U <;> simp [GoType.same, same_eq T]
theorem sames_eq : ∀ (Ts Us : List GoType), GoType.sames Ts Us = true ↔ Ts = Us
  | [], Us => by cases Us <;> simp [GoType.sames]
  | T :: Ts, Us => by cases Us <;> simp [GoType.sames, same_eq T, sames_eq Ts]
end

mutual
theorem comparable_iff : ∀ T : GoType, T.comparable = true ↔ CanCompare T
  | .prim k => by simp [GoType.comparable]; exact .prim k
  | .array n T => by
    simp only [GoType.comparable, comparable_iff T]
    exact ⟨.array n T, fun h => by cases h; assumption⟩
  | .slice T => by
    simp only [GoType.comparable, Bool.false_eq_true, false_iff]
    exact fun h => by cases h
  | .ptr T => by simp [GoType.comparable]; exact .ptr T
  | .chan t => by simp [GoType.comparable]; exact .chan t
  | .func t => by
    simp only [GoType.comparable, Bool.false_eq_true, false_iff]
    exact fun h => by cases h
  | .map t => by
    simp only [GoType.comparable, Bool.false_eq_true, false_iff]
    exact fun h => by cases h
  | .interface t => by simp [GoType.comparable]; exact .interface t
  | .struct Ts ns => by
    simp only [GoType.comparable, comparables_iff Ts]
    exact ⟨.struct Ts ns, fun h => by cases h; assumption⟩
  | .named n T => by
    simp only [GoType.comparable, comparable_iff T]
    exact ⟨.named n T, fun h => by cases h; assumption⟩
theorem comparables_iff : ∀ Ts : List GoType, GoType.comparables Ts = true ↔ ∀ T ∈ Ts, CanCompare T
  | [] => by simp [GoType.comparables]
  | T :: Ts => by simp [GoType.comparables, comparable_iff T, comparables_iff Ts]
end

theorem floatEq_iff (x y : UInt64) : floatEq x y = true ↔ FloatSame x y := by
  have m : ∀ z : UInt64, (z &&& 0x7FFFFFFFFFFFFFFF).toNat = z.toNat % 2 ^ 63 := by
    intro z
    rw [UInt64.toNat_and]
    exact Nat.and_two_pow_sub_one_eq_mod z.toNat 63
  have nan : ∀ z : UInt64, 0x7FF0000000000000 < (z &&& 0x7FFFFFFFFFFFFFFF) ↔ IsNaN z := by
    intro z
    rw [UInt64.lt_iff_toNat_lt, m]
    unfold IsNaN
    have := z.toNat_lt
    simp only [show (0x7FF0000000000000 : UInt64).toNat = 0x7FF0000000000000 from rfl]
    omega
  have zero : ∀ z : UInt64, (z &&& 0x7FFFFFFFFFFFFFFF) = 0 ↔ IsZero z := by
    intro z
    rw [← UInt64.toNat_inj, m]
    rfl
  unfold floatEq FloatSame
  simp only [Bool.and_eq_true, Bool.or_eq_true, beq_iff_eq, Bool.not_eq_true', decide_eq_false_iff_not, nan, zero, and_assoc]

/-- The three ways a comparison can go. -/
def Tri (eq plain : Prop) (r : Option Bool) : Prop :=
  (eq ∧ plain ∧ r = some true) ∨ (eq ∧ ¬ plain ∧ r = none) ∨ (¬ eq ∧ (r = some false ∨ r = none ∧ ¬ plain))

theorem Tri.and {e₁ p₁ e₂ p₂ : Prop} {r₁ r₂ : Option Bool} (h₁ : Tri e₁ p₁ r₁) (h₂ : Tri e₂ p₂ r₂) :
    Tri (e₁ ∧ e₂) (p₁ ∧ p₂) (match (motive := Option Bool → Option Bool) r₁ with | some true => r₂ | r => r) := by
  unfold Tri at *
  by_cases e₁ <;> by_cases p₁ <;> by_cases e₂ <;> by_cases p₂ <;>
    rcases h₁ with ⟨_, _, rfl⟩ | ⟨_, _, rfl⟩ | ⟨_, rfl | ⟨rfl, _⟩⟩ <;> simp_all

theorem Tri.congr {e p e' p' : Prop} {r : Option Bool} (h : Tri e p r) (he : e ↔ e') (hp : p ↔ p') : Tri e' p' r := by
  rw [propext he, propext hp] at h; exact h

theorem Tri.bool (b : Bool) {e p : Prop} (he : e ↔ b = true) (hp : p) : Tri e p (some b) := by
  unfold Tri; cases b <;> simp_all

/-- The comparison of two parts of static type `T`. -/
def slotEqual (T : GoType) (v u : Val) : Option Bool := match v with
  | .nilIface => some (content T u).isNone
  | .iface T' v => equalValue T' v (content T u)
  | v => equalValue T v (content T u)

theorem equalFields_cons (T : GoType) (Ts : List GoType) (v u : Val) (vs us : List Val) :
    equalFields (T :: Ts) (v :: vs) (u :: us) = match (motive := Option Bool → Option Bool) slotEqual T v u with
      | some true => equalFields Ts vs us | r => r := by
  cases v <;> simp only [equalFields, slotEqual]
  all_goals cases content T u <;> first | rfl | simp

theorem equalElems_cons (T : GoType) (v u : Val) (vs us : List Val) :
    equalElems T (v :: vs) (u :: us) = match (motive := Option Bool → Option Bool) slotEqual T v u with
      | some true => equalElems T vs us | r => r := by
  cases v <;> simp only [equalElems, slotEqual]
  all_goals cases content T u <;> first | rfl | simp

theorem equalElems_eq (T : GoType) : ∀ (vs us : List Val), equalElems T vs us = equalFields (List.replicate vs.length T) vs us
  | [], us => by cases us <;> simp [equalElems, equalFields]
  | v :: vs, [] => by cases v <;> simp [equalElems, equalFields]
  | v :: vs, u :: us => by
    rw [List.length_cons, List.replicate_succ, equalElems_cons, equalFields_cons, equalElems_eq T vs us]

/-- The loop over the parts. -/
theorem equalFields_tri : ∀ (Ts : List GoType) (vs us : List Val), vs.length = Ts.length → us.length = vs.length →
    (∀ (i : Nat) (T : GoType) (v u : Val), Ts[i]? = some T → vs[i]? = some v → us[i]? = some u → Tri (Same v u) (Plain T v) (slotEqual T v u)) →
    Tri (∀ (i : Nat) (v u : Val), vs[i]? = some v → us[i]? = some u → Same v u)
      (∀ (i : Nat) (T : GoType) (v : Val), Ts[i]? = some T → vs[i]? = some v → Plain T v) (equalFields Ts vs us)
  | [], [], [], _, _, _ => .inl ⟨by simp, by simp, by simp [equalFields]⟩
  | T :: Ts, v :: vs, u :: us, h1, h2, h => by
    have ih := equalFields_tri Ts vs us (by simpa using h1) (by simpa using h2) (fun i => by simpa using h (i + 1))
    have h0 := h 0 T v u rfl rfl rfl
    rw [equalFields_cons]
    refine (h0.and ih).congr ?_ ?_
    · constructor
      · rintro ⟨a, b⟩ i v' u' hv hu
        cases i with
        | zero => simp at hv hu; subst hv hu; exact a
        | succ i => exact b i v' u' (by simpa using hv) (by simpa using hu)
      · intro a
        exact ⟨a 0 v u rfl rfl, fun i v' u' hv hu => a (i + 1) v' u' (by simpa using hv) (by simpa using hu)⟩
    · constructor
      · rintro ⟨a, b⟩ i T' v' hT hv
        cases i with
        | zero => simp at hv hT; subst hv hT; exact a
        | succ i => exact b i T' v' (by simpa using hT) (by simpa using hv)
      · intro a
        exact ⟨a 0 T v rfl rfl, fun i T' v' hT hv => a (i + 1) T' v' (by simpa using hT) (by simpa using hv)⟩
  | [], _ :: _, _, h, _, _ => by simp at h
  | _ :: _, [], _, h, _, _ => by simp at h
  | _, [], _ :: _, _, h, _ => by simp at h
  | _, _ :: _, [], _, h, _ => by simp at h

/-- Names taken off a type. -/
def base : GoType → GoType
  | .named _ T => base T
  | T => T

theorem base_kind : ∀ T : GoType, (base T).kind = T.kind
  | .named _ T => by simp [base, GoType.kind, base_kind T]
  | .prim _ | .array _ _ | .slice _ | .ptr _ | .chan _ | .func _ | .map _ | .interface _ | .struct _ _ => rfl
theorem base_elem : ∀ T : GoType, (base T).elem = T.elem
  | .named _ T => by simp [base, GoType.elem, base_elem T]
  | .prim _ | .array _ _ | .slice _ | .ptr _ | .chan _ | .func _ | .map _ | .interface _ | .struct _ _ => rfl
theorem base_fields : ∀ T : GoType, (base T).fields = T.fields
  | .named _ T => by simp [base, GoType.fields, base_fields T]
  | .prim _ | .array _ _ | .slice _ | .ptr _ | .chan _ | .func _ | .map _ | .interface _ | .struct _ _ => rfl
theorem base_not_named : ∀ (T : GoType) (n : Bytes) (U : GoType), base T ≠ .named n U
  | .named _ T, n, U => by simpa [base] using base_not_named T n U
  | .prim _, _, _ | .array _ _, _, _ | .slice _, _, _ | .ptr _, _, _ | .chan _, _, _ | .func _, _, _ | .map _, _, _
  | .interface _, _, _ | .struct _ _, _, _ => by simp [base]

theorem iface_forms {T : GoType} {v : Val} (h : HasType T v) : T.kind = .interface →
    v = .nilIface ∨ ∃ U x, v = .iface U x ∧ U.kind ≠ .interface ∧ HasType U x := by
  induction h with
  | named n T v _ ih => intro e; exact ih e
  | nilIface t => exact fun _ => .inl rfl
  | iface t T v h1 h2 _ => exact fun _ => .inr ⟨T, v, rfl, h1, h2⟩
  | int k i hk | float k i hk | complex k x y hk => intro e; simp only [GoType.kind] at e; subst e; simp at hk
  | _ => intro e; cases e
theorem base_typed {T : GoType} {v : Val} (h : HasType T v) : HasType (base T) v := by
  induction h with
  | named n T v _ ih => simpa [base] using ih
  | bool b => exact .bool b
  | int k i hk => exact .int k i hk
  | float k x hk => exact .float k x hk
  | complex k x y hk => exact .complex k x y hk
  | str s => exact .str s
  | unsafePointer a => exact .unsafePointer a
  | slice T a => exact .slice T a
  | ptr T a => exact .ptr T a
  | chan t a => exact .chan t a
  | func t a => exact .func t a
  | map t a => exact .map t a
  | array n T vs h1 h2 _ => exact .array n T vs h1 h2
  | struct Ts ns vs h1 h2 _ => exact .struct Ts ns vs h1 h2
  | nilIface t => exact .nilIface t
  | iface t T v h1 h2 _ => exact .iface t T v h1 h2

/-- What is compared of two parts of one type. -/
theorem slot_tri_of {T : GoType} {v u : Val} (hv : HasType T v) (hu : HasType T u)
    (core : ∀ {T : GoType} {w u : Val}, sizeOf w ≤ sizeOf v → T.kind ≠ .interface → HasType T w → HasType T u →
      Tri (Same w u) (Plain T w) (equalValue T w (some (T, u)))) :
    Tri (Same v u) (Plain T v) (slotEqual T v u) := by
  by_cases hk : T.kind = .interface
  · rcases iface_forms hv hk with rfl | ⟨T₁, v, rfl, h1, h2⟩
    · rcases iface_forms hu hk with rfl | ⟨U, u, rfl, h3, h4⟩
      · exact .inl ⟨.nilIface, .nilIface _, by simp [slotEqual, content]⟩
      · exact .inr (.inr ⟨fun h => (by cases h), .inl (by simp [slotEqual, content])⟩)
    · rcases iface_forms hu hk with rfl | ⟨U, u, rfl, h3, h4⟩
      · exact .inr (.inr ⟨fun h => (by cases h), .inl (by simp [slotEqual, content, equalValue])⟩)
      · by_cases hTU : T₁ = U
        · subst hTU
          have := core (w := v) (by simp) h1 h2 h4
          refine this.congr ⟨fun h => .iface _ _ _ h, fun h => by cases h; assumption⟩ ⟨fun h => .iface _ _ _ h, fun h => by cases h; assumption⟩
        · refine .inr (.inr ⟨fun h => (by cases h; exact hTU rfl), .inl ?_⟩)
          have : T₁.same U = false := by
            rw [← Bool.not_eq_true, same_eq]; exact hTU
          simp only [slotEqual, content]
          unfold equalValue
          simp [this]
  · have key : ∀ {w : Val}, HasType T w → w ≠ .nilIface ∧ ∀ U x, w ≠ .iface U x := by
      intro w hw
      have bw := base_typed hw
      have nn := base_not_named T
      rw [← base_kind] at hk
      generalize base T = B at bw nn hk
      cases bw <;> simp_all [GoType.kind]
    have hv' := key hv
    have hu' := key hu
    have e1 : content T u = some (T, u) := by
      cases u with
      | iface U x => exact absurd rfl (hu'.2 U x)
      | nilIface => exact absurd rfl hu'.1
      | _ => rfl
    have e2 : slotEqual T v u = equalValue T v (some (T, u)) := by
      cases v with
      | iface U x => exact absurd rfl (hv'.2 U x)
      | nilIface => exact absurd rfl hv'.1
      | _ => simp only [slotEqual, e1]
    rw [e2]
    exact core (Nat.le_refl _) hk hv hu

set_option hygiene false in
/-- Closes a case in which a type has two kinds. -/
macro "wrong_kind" : tactic => `(tactic| first
  | (exfalso; rename_i h; revert h; decide)
  | (exfalso; revert hk'; decide)
  | (exfalso; rename_i h; cases k <;> first | (revert h; decide) | (revert hk'; decide)))

theorem equalValue_tri (n : Nat) : ∀ {T : GoType} {v u : Val}, sizeOf v ≤ n → T.kind ≠ .interface → HasType T v → HasType T u →
    Tri (Same v u) (Plain T v) (equalValue T v (some (T, u))) := by
  induction n with
  | zero =>
    intro T v u hn
    cases v <;> simp at hn <;> omega
  | succ n ih =>
    intro T v u hn hk hv hu
    have hs : T.same T = true := (same_eq T T).2 rfl
    have bv := base_typed hv
    have bu := base_typed hu
    have nn := base_not_named T
    have bk := base_kind T
    have be := base_elem T
    have bf := base_fields T
    rw [← bk] at hk
    generalize base T = B at bv bu nn hk bk be bf
    have slot : ∀ {F : GoType} {x y : Val}, sizeOf x ≤ n → HasType F x → HasType F y → Tri (Same x y) (Plain F x) (slotEqual F x y) :=
      fun hx hF hG => slot_tri_of hF hG fun hw hk h1 h2 => ih (by omega) hk h1 h2
    have refCase : ∀ a b : Option Nat, Tri (Same (.ref a) (.ref b)) (Plain T (.ref a)) (equalValue T (.ref a) (some (T, .ref b))) := by
      intro a b
      have hsame : Same (.ref a) (.ref b) ↔ a = b := ⟨fun h => by cases h; rfl, fun h => h ▸ .ref _⟩
      have hplain : Plain T (.ref a) ↔ T.kind ∈ [.chan, .pointer, .unsafePointer] := ⟨fun h => by cases h; assumption, .ref _ _⟩
      refine Tri.congr ?_ hsame.symm hplain.symm
      simp only [equalValue, hs, bne_self_eq_false, Bool.not_true, Bool.or_self, Bool.false_eq_true, if_false]
      unfold Tri
      by_cases hab : a = b <;> cases T.kind <;> simp [hab]
    cases bv with
    | named => exact absurd rfl (nn _ _)
    | nilIface => simp [GoType.kind] at hk
    | iface => simp [GoType.kind] at hk
    | bool b =>
      obtain ⟨b', rfl⟩ : ∃ b', u = .bool b' := by cases bu <;> first | exact ⟨_, rfl⟩ | wrong_kind
      simp only [equalValue, hs, bne_self_eq_false, Bool.not_true, Bool.or_self, Bool.false_eq_true, if_false]
      exact Tri.bool _ ⟨fun h => by cases h; simp, fun h => by simp at h; subst h; exact .bool _⟩ (.bool _ _)
    | int k i hk' =>
      obtain ⟨b', rfl⟩ : ∃ b', u = .int b' := by cases bu <;> first | exact ⟨_, rfl⟩ | wrong_kind
      simp only [equalValue, hs, bne_self_eq_false, Bool.not_true, Bool.or_self, Bool.false_eq_true, if_false]
      exact Tri.bool _ ⟨fun h => by cases h; simp, fun h => by simp at h; subst h; exact .int _⟩ (.int _ _)
    | str s =>
      obtain ⟨b', rfl⟩ : ∃ b', u = .str b' := by cases bu <;> first | exact ⟨_, rfl⟩ | wrong_kind
      simp only [equalValue, hs, bne_self_eq_false, Bool.not_true, Bool.or_self, Bool.false_eq_true, if_false]
      exact Tri.bool _ ⟨fun h => by cases h; simp, fun h => by simp at h; subst h; exact .str _⟩ (.str _ _)
    | float k x hk' =>
      obtain ⟨b', rfl⟩ : ∃ b', u = .float b' := by cases bu <;> first | exact ⟨_, rfl⟩ | wrong_kind
      simp only [equalValue, hs, bne_self_eq_false, Bool.not_true, Bool.or_self, Bool.false_eq_true, if_false]
      exact Tri.bool _ ⟨fun h => by cases h; rw [floatEq_iff]; assumption, fun h => .float _ _ ((floatEq_iff _ _).1 h)⟩ (.float _ _)
    | complex k x y hk' =>
      obtain ⟨b', c', rfl⟩ : ∃ b' c', u = .complex b' c' := by cases bu <;> first | exact ⟨_, _, rfl⟩ | wrong_kind
      simp only [equalValue, hs, bne_self_eq_false, Bool.not_true, Bool.or_self, Bool.false_eq_true, if_false]
      exact Tri.bool _ ⟨fun h => by cases h; simp_all [floatEq_iff], fun h => by simp [floatEq_iff] at h; exact .complex _ _ _ _ h.1 h.2⟩ (.complex _ _ _)
    | array m E vs hl hall =>
      cases bu
      rename_i us hl' hall'
      simp only [equalValue, hs, bne_self_eq_false, Bool.not_true, Bool.or_self, Bool.false_eq_true, if_false]
      have be' : T.elem = E := be.symm
      rw [be']
      cases vs with
      | nil =>
        have : us = [] := List.length_eq_zero_iff.1 (by simp at hl; omega)
        subst this
        have hsame : Same (.array []) (.array []) := .array _ _ rfl (by simp)
        by_cases hc : E.comparable = true
        · exact .inl ⟨hsame, .array _ _ (fun _ => be' ▸ (comparable_iff E).1 hc) (by simp), by simp [hc]⟩
        · refine .inr (.inl ⟨hsame, fun h => ?_, by simp [hc]⟩)
          cases h with
          | array _ _ h1 _ => exact hc ((comparable_iff E).2 (be' ▸ h1 rfl))
      | cons v0 vs0 =>
        rw [if_neg (by simp), equalElems_eq]
        have hin : ∀ {x : Val}, x ∈ v0 :: vs0 → sizeOf x ≤ n := by
          intro x hx
          have h1 := List.sizeOf_lt_of_mem hx
          have : sizeOf (Val.array (v0 :: vs0)) = 1 + sizeOf (v0 :: vs0) := by simp
          omega
        refine (equalFields_tri (List.replicate (v0 :: vs0).length E) (v0 :: vs0) us (by simp) (by omega) ?_).congr ?_ ?_
        · intro i F x y hF hx hy
          have : F = E := by
            have := List.mem_of_getElem? hF
            exact List.eq_of_mem_replicate this
          subst this
          exact slot (hin (List.mem_of_getElem? hx)) (hall _ (List.mem_of_getElem? hx)) (hall' _ (List.mem_of_getElem? hy))
        · exact ⟨fun h => .array _ _ (by omega) h, fun h => by cases h; assumption⟩
        · constructor
          · intro h
            refine .array _ _ (by simp) (fun x hx => ?_)
            obtain ⟨i, hi⟩ := List.getElem?_of_mem hx
            rw [be']
            refine h i E x ?_ hi
            rw [List.getElem?_replicate, if_pos]
            exact (List.getElem?_eq_some_iff.1 hi).1
          · intro h i F x hF hx
            have : F = E := List.eq_of_mem_replicate (List.mem_of_getElem? hF)
            subst this
            cases h with
            | array _ _ _ h2 => exact be' ▸ h2 x (List.mem_of_getElem? hx)
    | struct Ts ns vs hl hall =>
      cases bu
      rename_i us hl' hall'
      simp only [equalValue, hs, bne_self_eq_false, Bool.not_true, Bool.or_self, Bool.false_eq_true, if_false]
      have bf' : T.fields = Ts := bf.symm
      rw [bf']
      have hin : ∀ {x : Val}, x ∈ vs → sizeOf x ≤ n := by
        intro x hx
        have h1 := List.sizeOf_lt_of_mem hx
        have : sizeOf (Val.struct vs) = 1 + sizeOf vs := by simp
        omega
      refine (equalFields_tri Ts vs us hl (by omega) ?_).congr ?_ ?_
      · intro i F x y hF hx hy
        exact slot (hin (List.mem_of_getElem? hx)) (hall i F x hF hx) (hall' i F y hF hy)
      · exact ⟨fun h => .struct _ _ (by omega) h, fun h => by cases h; assumption⟩
      · constructor
        · intro h
          exact .struct _ _ (by rw [bf']; exact h)
        · intro h
          cases h with
          | struct _ _ h => rw [bf'] at h; exact h
    | unsafePointer a => cases bu <;> first | exact refCase _ _ | wrong_kind
    | slice E a => cases bu <;> first | exact refCase _ _ | wrong_kind
    | ptr E a => cases bu <;> first | exact refCase _ _ | wrong_kind
    | chan t a => cases bu <;> first | exact refCase _ _ | wrong_kind
    | func t a => cases bu <;> first | exact refCase _ _ | wrong_kind
    | map t a => cases bu <;> first | exact refCase _ _ | wrong_kind

end Goast.Assert
