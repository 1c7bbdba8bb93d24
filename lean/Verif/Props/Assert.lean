import Verif.Proofs.Assert

/-!
# C70-C73: package assert
-/

set_option linter.unusedSimpArgs false

namespace Goast.Assert

theorem join_eq : ∀ ms : List Bytes, join ms = [32].intercalate ms
  | [] => rfl
  | [m] => by simp [join, List.intercalate]
  | m :: m' :: ms => by
    have := join_eq (m' :: ms)
    simp [List.intercalate] at this
    simp [join, List.intercalate, this]

/-- What `fail` comes to, for a test. -/
theorem fail_fails {σ} (name : Bytes) (msg : List Bytes) (withMsg : Bytes → Bytes → Bytes) (without : Bytes → Bytes) :
    Fails (fail (σ := σ) ⟨some name⟩ msg withMsg without) (if msg = [] then without name else withMsg name ([32].intercalate msg)) := by
  intro w
  unfold fail
  cases msg with
  | nil => simp [andThen, helper, fatal]
  | cons m ms => simp [andThen, helper, fatal, join_eq]

/-! ## C70 -/

/-- A text followed by the messages given to an assertion. -/
def withMessages (text : Bytes) (msg : List Bytes) : Bytes := if msg = [] then text else text ++ b!", " ++ [32].intercalate msg

theorem equal_tri {a b : Val} (ha : IsAny a) (hb : IsAny b) :
    Tri (Same a b) (Plain (.interface b!"any") a) (if valueKind a == valueKind b then valueEqual a b else some false) := by
  have h := slot_tri_of ha hb (fun {T w u} hs hk h1 h2 => equalValue_tri _ (Nat.le_refl _) hk h1 h2)
  have e : (if valueKind a == valueKind b then valueEqual a b else some false) = slotEqual (.interface b!"any") a b := by
    rcases iface_forms ha rfl with rfl | ⟨T, v, rfl, h1, h2⟩ <;> rcases iface_forms hb rfl with rfl | ⟨U, u, rfl, h3, h4⟩
    · simp [valueKind, valueEqual, slotEqual, content]
    · simp [valueKind, valueEqual, slotEqual, content]
    · simp [valueKind, valueEqual, slotEqual, content, equalValue]
    · have e1 : valueEqual (.iface T v) (.iface U u) = equalValue T v (some (U, u)) := rfl
      have e2 : slotEqual (.interface b!"any") (.iface T v) (.iface U u) = equalValue T v (some (U, u)) := rfl
      rw [e1, e2]
      by_cases hk : T.kind = U.kind
      · exact if_pos (by simpa [valueKind] using hk)
      · rw [if_neg (by simpa [valueKind] using hk)]
        unfold equalValue
        simp [bne, hk]
  rw [e]; exact h

/-- **C70** `Equal(value, expected)`: if the two are equal and Go can compare them, the test goes on; if they differ and Go can compare
them, the test fails with the text that shows both; whenever the test goes on, the two are equal and can be compared.  If they are equal but
hold something that cannot be compared (a function, map or slice) there is a panic; if they differ and hold such a thing, a failure or a
panic. -/
theorem C70_equal {σ} (f : Fmt) (name : Bytes) (msg : List Bytes) {a b : Val} (ha : IsAny a) (hb : IsAny b) :
    let text := withMessages (name ++ b!": should be equal, but got value: (" ++ f.plusV a ++ b!"), expected: (" ++ f.plusV b ++ b!")") msg
    let c : Comp σ Unit := (new (some name)).equal f a b msg
    (Same a b → Plain (.interface b!"any") a → GoesOn c) ∧
    (Same a b → ¬ Plain (.interface b!"any") a → Panics c) ∧
    (¬ Same a b → Plain (.interface b!"any") a → Fails c text) ∧
    (¬ Same a b → ¬ Plain (.interface b!"any") a → Fails c text ∨ Panics c) := by
  intro text c
  have h := equal_tri ha hb
  have hf : Fails (fail (σ := σ) ⟨some name⟩ msg
      (fun name m => name ++ b!": should be equal, but got value: (" ++ f.plusV a ++ b!"), expected: (" ++ f.plusV b ++ b!"), " ++ m)
      (fun name => name ++ b!": should be equal, but got value: (" ++ f.plusV a ++ b!"), expected: (" ++ f.plusV b ++ b!")")) text := by
    have := fail_fails (σ := σ) name msg
      (fun name m => name ++ b!": should be equal, but got value: (" ++ f.plusV a ++ b!"), expected: (" ++ f.plusV b ++ b!"), " ++ m)
      (fun name => name ++ b!": should be equal, but got value: (" ++ f.plusV a ++ b!"), expected: (" ++ f.plusV b ++ b!")")
    simpa [text, withMessages] using this
  have hc : c = match (if valueKind a == valueKind b then valueEqual a b else some false) with
      | none => fun w => (.panic notComparable, w)
      | some true => done
      | some false => fail ⟨some name⟩ msg
        (fun name m => name ++ b!": should be equal, but got value: (" ++ f.plusV a ++ b!"), expected: (" ++ f.plusV b ++ b!"), " ++ m)
        (fun name => name ++ b!": should be equal, but got value: (" ++ f.plusV a ++ b!"), expected: (" ++ f.plusV b ++ b!")") := rfl
  generalize (if valueKind a == valueKind b then valueEqual a b else some false) = r at h hc
  rw [hc]
  rcases h with ⟨h1, h2, rfl⟩ | ⟨h1, h2, rfl⟩ | ⟨h1, rfl | ⟨rfl, h2⟩⟩
  · exact ⟨fun _ _ _ => rfl, fun _ h => absurd h2 h, fun h => absurd h1 h, fun h => absurd h1 h⟩
  · exact ⟨fun _ h => absurd h h2, fun _ _ => ⟨_, fun _ => rfl⟩, fun h => absurd h1 h, fun h => absurd h1 h⟩
  · exact ⟨fun h => absurd h h1, fun h => absurd h h1, fun _ _ => hf, fun _ _ => .inl hf⟩
  · exact ⟨fun h => absurd h h1, fun h => absurd h h1, fun _ h => absurd h h2, fun _ _ => .inr ⟨_, fun _ => rfl⟩⟩

/-- **C70** `NotEqual` is the opposite: it goes on exactly when `Equal` fails, fails exactly when `Equal` goes on, panics exactly when
`Equal` panics. -/
theorem C70_notEqual {σ} (f : Fmt) (name : Bytes) (msg : List Bytes) (a b : Val) :
    let eq : Comp σ Unit := (new (some name)).equal f a b msg
    let ne : Comp σ Unit := (new (some name)).notEqual f a b msg
    (GoesOn ne ∧ Fails eq (withMessages (name ++ b!": should be equal, but got value: (" ++ f.plusV a ++ b!"), expected: (" ++ f.plusV b ++ b!")") msg)) ∨
    (GoesOn eq ∧ Fails ne (withMessages (name ++ b!": should be no equal, but got value: (" ++ f.plusV a ++ b!"), expected: (" ++ f.plusV b ++ b!")") msg)) ∨
    (Panics eq ∧ Panics ne) := by
  have h1 := fail_fails (σ := σ) name msg
    (fun name m => name ++ b!": should be equal, but got value: (" ++ f.plusV a ++ b!"), expected: (" ++ f.plusV b ++ b!"), " ++ m)
    (fun name => name ++ b!": should be equal, but got value: (" ++ f.plusV a ++ b!"), expected: (" ++ f.plusV b ++ b!")")
  have h2 := fail_fails (σ := σ) name msg
    (fun name m => name ++ b!": should be no equal, but got value: (" ++ f.plusV a ++ b!"), expected: (" ++ f.plusV b ++ b!"), " ++ m)
    (fun name => name ++ b!": should be no equal, but got value: (" ++ f.plusV a ++ b!"), expected: (" ++ f.plusV b ++ b!")")
  simp only [Assert.equal, Assert.notEqual, new]
  by_cases hk : valueKind a = valueKind b
  · simp only [hk, beq_self_eq_true, if_true, bne_self_eq_false, Bool.false_eq_true, if_false]
    cases valueEqual a b with
    | none => exact .inr (.inr ⟨⟨_, fun _ => rfl⟩, ⟨_, fun _ => rfl⟩⟩)
    | some r => cases r with
      | true => exact .inr (.inl ⟨fun _ => rfl, by simpa [withMessages] using h2⟩)
      | false => exact .inl ⟨fun _ => rfl, by simpa [withMessages] using h1⟩
  · have e : (valueKind a == valueKind b) = false := by simpa using hk
    simp only [e, bne, Bool.not_false, if_true, Bool.false_eq_true, if_false]
    exact .inl ⟨fun _ => rfl, by simpa [withMessages] using h1⟩

/-- A test cannot go on after both. -/
theorem goesOn_not_fails {σ} [Nonempty σ] {c : Comp σ Unit} {t : Bytes} (h1 : GoesOn c) (h2 : Fails c t) : False := by
  obtain ⟨s⟩ := ‹Nonempty σ›
  have a := h1 (s, ⟨false, []⟩)
  have b := h2 (s, ⟨false, []⟩)
  rw [a] at b
  simp at b

theorem goesOn_not_panics {σ} [Nonempty σ] {c : Comp σ Unit} (h1 : GoesOn c) (h2 : Panics c) : False := by
  obtain ⟨s⟩ := ‹Nonempty σ›
  obtain ⟨v, h2⟩ := h2
  have a := h1 (s, ⟨false, []⟩)
  rw [h2] at a
  simp at a

/-- **C70** `Equal` lets the test go on if and only if the two are equal and can be compared. -/
theorem C70_equal_iff {σ} [Nonempty σ] (f : Fmt) (name : Bytes) (msg : List Bytes) {a b : Val} (ha : IsAny a) (hb : IsAny b) :
    GoesOn (σ := σ) ((new (some name)).equal f a b msg) ↔ Same a b ∧ Plain (.interface b!"any") a := by
  obtain ⟨h1, h2, h3, h4⟩ := C70_equal (σ := σ) f name msg ha hb
  constructor
  · intro h
    by_cases hs : Same a b <;> by_cases hp : Plain (.interface b!"any") a
    · exact ⟨hs, hp⟩
    · exact (goesOn_not_panics h (h2 hs hp)).elim
    · exact (goesOn_not_fails h (h3 hs hp)).elim
    · rcases h4 hs hp with h' | h'
      · exact (goesOn_not_fails h h').elim
      · exact (goesOn_not_panics h h').elim
  · exact fun h => h1 h.1 h.2

theorem FloatSame.symm {x y : UInt64} (h : FloatSame x y) : FloatSame y x := ⟨h.2.1, h.1, h.2.2.imp Eq.symm And.symm⟩

theorem Same.symm {v u : Val} (h : Same v u) : Same u v := by
  induction h with
  | bool b => exact .bool b
  | int i => exact .int i
  | str s => exact .str s
  | float x y h => exact .float _ _ h.symm
  | complex x y x' y' h h' => exact .complex _ _ _ _ h.symm h'.symm
  | ref a => exact .ref a
  | array vs us hl _ ih => exact .array _ _ hl.symm fun i v u hv hu => ih i u v hu hv
  | struct vs us hl _ ih => exact .struct _ _ hl.symm fun i v u hv hu => ih i u v hu hv
  | nilIface => exact .nilIface
  | iface T v u _ ih => exact .iface _ _ _ ih

theorem Same.plain {v u : Val} (h : Same v u) : ∀ {T : GoType}, Plain T v → Plain T u := by
  induction h with
  | bool b => exact id
  | int i => exact id
  | str s => exact id
  | float x y h => exact fun _ => .float _ _
  | complex x y x' y' h h' => exact fun _ => .complex _ _ _
  | ref a => exact id
  | array vs us hl _ ih =>
    intro T hp
    cases hp with
    | array _ _ h1 h2 =>
      refine .array _ _ (fun e => h1 (by subst e; simpa using hl)) fun u hu => ?_
      obtain ⟨i, hi⟩ := List.getElem?_of_mem hu
      obtain ⟨v, hv⟩ : ∃ v, vs[i]? = some v := by
        have := (List.getElem?_eq_some_iff.1 hi).1
        exact ⟨_, List.getElem?_eq_getElem (by omega)⟩
      exact ih i v u hv hi (h2 v (List.mem_of_getElem? hv))
  | struct vs us hl _ ih =>
    intro T hp
    cases hp with
    | struct _ _ h2 =>
      refine .struct _ _ fun i F u hF hi => ?_
      obtain ⟨v, hv⟩ : ∃ v, vs[i]? = some v := by
        have := (List.getElem?_eq_some_iff.1 hi).1
        exact ⟨_, List.getElem?_eq_getElem (by omega)⟩
      exact ih i v u hv hi (h2 i F v hF hv)
  | nilIface => exact id
  | iface T v u _ ih =>
    intro T' hp
    cases hp with
    | iface _ _ _ h => exact .iface _ _ _ (ih h)

/-- **C70** It does not matter which of the two is the expected one. -/
theorem C70_symmetric {σ} [Nonempty σ] (f : Fmt) (name : Bytes) (msg : List Bytes) {a b : Val} (ha : IsAny a) (hb : IsAny b) :
    GoesOn (σ := σ) ((new (some name)).equal f a b msg) ↔ GoesOn (σ := σ) ((new (some name)).equal f b a msg) := by
  rw [C70_equal_iff f name msg ha hb, C70_equal_iff f name msg hb ha]
  exact ⟨fun h => ⟨h.1.symm, h.1.plain h.2⟩, fun h => ⟨h.1.symm, h.1.plain h.2⟩⟩

/-- **C70** Values of different dynamic types are never equal, and never make it panic: the test fails. -/
theorem C70_types {σ} (f : Fmt) (name : Bytes) (msg : List Bytes) {T U : GoType} (hTU : T ≠ U) (v u : Val) :
    Fails (σ := σ) ((new (some name)).equal f (.iface T v) (.iface U u) msg)
      (withMessages (name ++ b!": should be equal, but got value: (" ++ f.plusV (.iface T v) ++ b!"), expected: (" ++ f.plusV (.iface U u) ++ b!")") msg) := by
  have h := fail_fails (σ := σ) name msg
    (fun name m => name ++ b!": should be equal, but got value: (" ++ f.plusV (.iface T v) ++ b!"), expected: (" ++ f.plusV (.iface U u) ++ b!"), " ++ m)
    (fun name => name ++ b!": should be equal, but got value: (" ++ f.plusV (.iface T v) ++ b!"), expected: (" ++ f.plusV (.iface U u) ++ b!")")
  have hs : T.same U = false := by rw [← Bool.not_eq_true, same_eq]; exact hTU
  have e : (if valueKind (.iface T v) == valueKind (.iface U u) then valueEqual (.iface T v) (.iface U u) else some false) = some false := by
    split
    · simp only [valueEqual]
      unfold equalValue
      simp [hs]
    · rfl
  simp only [Assert.equal, new, e]
  simpa [withMessages] using h

/-- **C70** The trap: a slice, map or function is never `Equal` to itself, nor `NotEqual`: both panic. -/
theorem C70_slice {σ} (f : Fmt) (name : Bytes) (msg : List Bytes) {T : GoType} (hT : T.kind ∈ [.slice, .map, .func]) (x y : Option Nat) :
    Panics (σ := σ) ((new (some name)).equal f (.iface T (.ref x)) (.iface T (.ref y)) msg) ∧
    Panics (σ := σ) ((new (some name)).notEqual f (.iface T (.ref x)) (.iface T (.ref y)) msg) := by
  have hs : T.same T = true := (same_eq T T).2 rfl
  have e : valueEqual (.iface T (.ref x)) (.iface T (.ref y)) = none := by
    simp only [valueEqual, equalValue, hs, bne_self_eq_false, Bool.not_true, Bool.or_self, Bool.false_eq_true, if_false]
    simp at hT
    rcases hT with hT | hT | hT <;> simp [hT]
  refine ⟨⟨notComparable, fun w => ?_⟩, ⟨notComparable, fun w => ?_⟩⟩
  · simp [Assert.equal, new, e, valueKind]
  · simp [Assert.notEqual, new, e, valueKind]

/-- **C70, witnesses** `Equal(1, int64(1))` and `Equal(NaN, NaN)` fail, `Equal(0.0, -0.0)` goes on. -/
theorem C70_examples (f : Fmt) (name : Bytes) :
    (∃ t, Fails (σ := Unit) ((new (some name)).equal f (.iface (.prim .int) (.int 1)) (.iface (.prim .int64) (.int 1)) []) t) ∧
    (∃ t, Fails (σ := Unit) ((new (some name)).equal f (.iface (.prim .float64) (.float 0x7FF8000000000001)) (.iface (.prim .float64) (.float 0x7FF8000000000001)) []) t) ∧
    GoesOn (σ := Unit) ((new (some name)).equal f (.iface (.prim .float64) (.float 0)) (.iface (.prim .float64) (.float 0x8000000000000000)) []) :=
  ⟨⟨_, fun _ => rfl⟩, ⟨_, fun _ => rfl⟩, fun _ => rfl⟩

/-- The hypotheses of `C70_equal` are met by structs with an interface field: `struct{ A int; B any }{1, "x"}`. -/
def pair (s : Bytes) : Val :=
  .iface (.struct [.prim .int, .interface b!"any"] [b!"A", b!"B"]) (.struct [.int 1, .iface (.prim .string) (.str s)])

theorem pair_any (s : Bytes) : IsAny (pair s) := by
  refine .iface _ _ _ (by simp [GoType.kind]) (.struct _ _ _ rfl ?_)
  intro i T v hT hv
  match i with
  | 0 => simp at hT hv; subst hT hv; exact .int _ _ (by simp)
  | 1 => simp at hT hv; subst hT hv; exact .iface _ _ _ (by simp [GoType.kind]) (.str _)
  | i + 2 => simp at hT

example : IsAny (pair b!"x") ∧ IsAny (pair b!"y") ∧ Same (pair b!"x") (pair b!"x") ∧ ¬ Same (pair b!"x") (pair b!"y") ∧
    Plain (.interface b!"any") (pair b!"x") := by
  refine ⟨pair_any _, pair_any _, ?_, ?_, ?_⟩
  · refine .iface _ _ _ (.struct _ _ rfl ?_)
    intro i v u hv hu
    rw [hv] at hu; injection hu with e; subst e
    match i with
    | 0 => simp at hv; subst hv; exact .int _
    | 1 => simp at hv; subst hv; exact .iface _ _ _ (.str _)
    | i + 2 => simp at hv
  · intro h
    cases h with
    | iface _ _ _ h => cases h with
      | struct _ _ _ h =>
        have := h 1 _ _ rfl rfl
        cases this with
        | iface _ _ _ h => cases h
  · refine .iface _ _ _ (.struct _ _ ?_)
    intro i F v hF hv
    match i with
    | 0 => simp [GoType.fields] at hF hv; subst hF hv; exact .int _ _
    | 1 => simp [GoType.fields] at hF hv; subst hF hv; exact .iface _ _ _ (.str _ _)
    | i + 2 => simp [GoType.fields] at hF

/-! ## C71 -/

/-- The value is nil: the nil interface value, or a nil pointer, map, channel or slice in one. -/
def IsNil (v : Val) : Prop := v = .nilIface ∨ ∃ T, T.kind ∈ [.pointer, .map, .chan, .slice] ∧ v = .iface T (.ref none)

/-- The value is an array. -/
def IsArray (v : Val) : Prop := ∃ T x, T.kind = .array ∧ v = .iface T x

/-- **C71** `Nil` and `NotNil` are opposites, except that both panic on an array: on nil (also a nil pointer, map, channel or slice) `Nil`
goes on and `NotNil` fails; on all else `NotNil` goes on and `Nil` fails. -/
theorem C71_nil {σ} (f : Fmt) (name : Bytes) (msg : List Bytes) {v : Val} (hv : IsAny v) :
    let yes : Comp σ Unit := (new (some name)).nil f v msg
    let no : Comp σ Unit := (new (some name)).notNil f v msg
    (IsNil v → GoesOn yes ∧ Fails no (withMessages (name ++ b!": should be not nil, but got (" ++ f.plusV v ++ b!")") msg)) ∧
    (IsArray v → Panics yes ∧ Panics no) ∧
    (¬ IsNil v → ¬ IsArray v → GoesOn no ∧ Fails yes (withMessages (name ++ b!": should be nil, but got (" ++ f.plusV v ++ b!")") msg)) := by
  have h1 := fail_fails (σ := σ) name msg
    (fun name m => name ++ b!": should be nil, but got (" ++ f.plusV v ++ b!"), " ++ m)
    (fun name => name ++ b!": should be nil, but got (" ++ f.plusV v ++ b!")")
  have h2 := fail_fails (σ := σ) name msg
    (fun name m => name ++ b!": should be not nil, but got (" ++ f.plusV v ++ b!"), " ++ m)
    (fun name => name ++ b!": should be not nil, but got (" ++ f.plusV v ++ b!")")
  have key : (IsNil v → isNil v = some true) ∧ (IsArray v → isNil v = none) ∧ (¬ IsNil v → ¬ IsArray v → isNil v = some false) := by
    refine ⟨?_, ?_, ?_⟩
    · rintro (rfl | ⟨T, hT, rfl⟩)
      · rfl
      · simp at hT
        rcases hT with hT | hT | hT | hT <;> simp [isNil, hT]
    · rintro ⟨T, x, hT, rfl⟩
      simp [isNil, hT]
    · intro hn ha
      rcases iface_forms hv rfl with rfl | ⟨T, x, rfl, _, _⟩
      · exact absurd (.inl rfl) hn
      · have hk : T.kind ≠ .array := fun e => ha ⟨T, x, e, rfl⟩
        have hx : T.kind ∈ [.pointer, .map, .chan, .slice] → x ≠ .ref none := fun e e' => hn (.inr ⟨T, e, e' ▸ rfl⟩)
        unfold isNil
        cases e : T.kind <;> simp_all
        all_goals
          cases x with
          | ref a => cases a <;> simp_all
          | _ => rfl
  simp only [Assert.nil, Assert.notNil, new]
  refine ⟨fun h => ?_, fun h => ?_, fun h h' => ?_⟩
  · rw [key.1 h]
    exact ⟨fun _ => rfl, by simpa [withMessages] using h2⟩
  · rw [key.2.1 h]
    exact ⟨⟨_, fun _ => rfl⟩, ⟨_, fun _ => rfl⟩⟩
  · rw [key.2.2 h h']
    exact ⟨fun _ => rfl, by simpa [withMessages] using h1⟩

/-- **C71, witnesses** A nil pointer is nil; a nil function is not nil for `Nil` (the test fails); an array makes both panic. -/
theorem C71_examples (f : Fmt) (name : Bytes) :
    GoesOn (σ := Unit) ((new (some name)).nil f (.iface (.ptr (.prim .int)) (.ref none)) []) ∧
    (∃ t, Fails (σ := Unit) ((new (some name)).nil f (.iface (.func b!"func()") (.ref none)) []) t) ∧
    Panics (σ := Unit) ((new (some name)).nil f (.iface (.array 1 (.prim .int)) (.array [.int 3])) []) ∧
    IsAny (.iface (.array 1 (.prim .int)) (.array [.int 3])) := by
  refine ⟨fun _ => rfl, ⟨_, fun _ => rfl⟩, ⟨_, fun _ => rfl⟩, .iface _ _ _ (by simp [GoType.kind]) (.array _ _ _ rfl ?_)⟩
  intro v hv
  simp at hv
  subst hv
  exact .int _ _ (by simp)

/-- **C71** `Error` and `NoError` are opposites: a nil error lets `NoError` go on and `Error` fail, any other error (also a nil pointer in an
error) the other way round. -/
theorem C71_error {σ} (f : Fmt) (name : Bytes) (msg : List Bytes) (err : Val) :
    let yes : Comp σ Unit := (new (some name)).error err msg
    let no : Comp σ Unit := (new (some name)).noError f err msg
    (err = .nilIface → GoesOn no ∧ Fails yes (withMessages (name ++ b!": should be error") msg)) ∧
    (err ≠ .nilIface → GoesOn yes ∧ Fails no (if msg = [] then name ++ b!":should be no error, err: " ++ f.plusV err
      else name ++ b!": should be no error, " ++ [32].intercalate msg ++ b!", err: " ++ f.plusV err)) := by
  have h1 := fail_fails (σ := σ) name msg (fun name m => name ++ b!": should be error, " ++ m) (fun name => name ++ b!": should be error")
  have h2 := fail_fails (σ := σ) name msg
    (fun name m => name ++ b!": should be no error, " ++ m ++ b!", err: " ++ f.plusV err)
    (fun name => name ++ b!":should be no error, err: " ++ f.plusV err)
  refine ⟨?_, fun h => ?_⟩
  · rintro rfl
    exact ⟨fun _ => rfl, by simpa [Assert.error, new, nonNil, withMessages] using h1⟩
  · have e : nonNil err = true := by cases err <;> simp_all [nonNil]
    simp only [Assert.error, Assert.noError, new, e, if_true, Bool.true_eq_false, if_false]
    exact ⟨fun _ => rfl, h2⟩

/-- **C71** `Require(ok)` goes on if `ok` is true, and fails otherwise. -/
theorem C71_require {σ} (name : Bytes) (msg : List Bytes) :
    GoesOn (σ := σ) ((new (some name)).require true msg) ∧
    Fails (σ := σ) ((new (some name)).require false msg) (withMessages (b!"require: " ++ name) msg) := by
  have h := fail_fails (σ := σ) name msg (fun name m => b!"require: " ++ name ++ b!", " ++ m) (fun name => b!"require: " ++ name)
  exact ⟨fun _ => rfl, by simpa [Assert.require, new, withMessages] using h⟩

/-- **C71** Without a test (`New(nil)`) an assertion that would go on goes on, and one that would fail panics: nothing goes unnoticed. -/
theorem C71_no_test {σ} (f : Fmt) (msg : List Bytes) (name : Bytes) (c : Assert → Comp σ Unit)
    (hc : (∃ v, c = fun a => a.nil f v msg) ∨ (∃ v, c = fun a => a.notNil f v msg) ∨ (∃ v u, c = fun a => a.equal f v u msg) ∨
      (∃ v u, c = fun a => a.notEqual f v u msg) ∨ (∃ v, c = fun a => a.error v msg) ∨ (∃ v, c = fun a => a.noError f v msg) ∨
      (∃ ok, c = fun a => a.require ok msg)) :
    (GoesOn (c (new (some name))) → GoesOn (c (new none))) ∧ ((∃ t, Fails (c (new (some name))) t) → Panics (c (new none))) := by
  have key : ∀ (r : Option Bool) (v : Val) (x : Bytes → Bytes → Bytes) (y : Bytes → Bytes) (c : Assert → Comp σ Unit),
      (∀ a, c a = match r with | none => (fun w => (.panic v, w)) | some true => done | some false => fail a msg x y) →
      (GoesOn (c (new (some name))) → GoesOn (c (new none))) ∧ ((∃ t, Fails (c (new (some name))) t) → Panics (c (new none))) := by
    intro r v x y c h
    have hp : Panics (fail (σ := σ) (new none) msg x y) := ⟨_, fun w => rfl⟩
    rw [h, h]
    cases r with
    | none => exact ⟨id, fun _ => ⟨_, fun _ => rfl⟩⟩
    | some r => cases r with
      | true => exact ⟨id, fun ⟨t, ht⟩ => (by
          by_cases hσ : Nonempty σ
          · exact (goesOn_not_fails (c := done) (fun _ => rfl) ht).elim
          · exact ⟨nilDereference, fun w => (hσ ⟨w.1⟩).elim⟩)⟩
      | false =>
        refine ⟨fun hg => ?_, fun _ => hp⟩
        by_cases hσ : Nonempty σ
        · exact (goesOn_not_fails hg (fail_fails name msg x y)).elim
        · exact fun w => (hσ ⟨w.1⟩).elim
  rcases hc with ⟨v, rfl⟩ | ⟨v, rfl⟩ | ⟨v, u, rfl⟩ | ⟨v, u, rfl⟩ | ⟨v, rfl⟩ | ⟨v, rfl⟩ | ⟨ok, rfl⟩
  · exact key (isNil v) _ _ _ _ (fun a => rfl)
  · refine key ((isNil v).map (!·)) notNillable
      (fun name m => name ++ b!": should be not nil, but got (" ++ f.plusV v ++ b!"), " ++ m)
      (fun name => name ++ b!": should be not nil, but got (" ++ f.plusV v ++ b!")") (fun a => a.notNil f v msg) (fun a => ?_)
    simp only [Assert.notNil]
    cases isNil v with
    | none => rfl
    | some b => cases b <;> rfl
  · exact key _ _ _ _ _ (fun a => rfl)
  · exact key _ _ _ _ _ (fun a => rfl)
  · refine key (some (nonNil v)) notNillable (fun name m => name ++ b!": should be error, " ++ m) (fun name => name ++ b!": should be error")
      (fun a => a.error v msg) (fun a => ?_)
    simp only [Assert.error]
    cases nonNil v <;> rfl
  · refine key (some (!nonNil v)) notNillable (fun name m => name ++ b!": should be no error, " ++ m ++ b!", err: " ++ f.plusV v)
      (fun name => name ++ b!":should be no error, err: " ++ f.plusV v) (fun a => a.noError f v msg) (fun a => ?_)
    simp only [Assert.noError]
    cases nonNil v <;> rfl
  · refine key (some ok) notNillable (fun name m => b!"require: " ++ name ++ b!", " ++ m) (fun name => b!"require: " ++ name)
      (fun a => a.require ok msg) (fun a => ?_)
    simp only [Assert.require]
    cases ok <;> rfl

/-! ## C72 -/

/-- **C72** `NoPanic(fn)` and `Panic(fn)` call `fn` once and keep all it did.  If it returns, `NoPanic` goes on and `Panic` fails; if it
panics, the panic stops there, `Panic` goes on and `NoPanic` fails with its value in the text; if it ends the goroutine (a failing assertion
in it does), both end with it and log nothing more. -/
theorem C72_panic {σ} (f : Fmt) (name : Bytes) (fn : Comp σ Unit) (w w' : σ × TestState) :
    (fn w = (.ret (), w') → (new (some name)).noPanic f fn w = (.ret (), w') ∧
      (new (some name)).panic f fn w = (.goexit, w'.1, ⟨true, w'.2.log ++ [name ++ b!": should be panic, err: " ++ f.s .nilIface]⟩)) ∧
    (∀ v, fn w = (.panic v, w') → (new (some name)).panic f fn w = (.ret (), w') ∧
      (new (some name)).noPanic f fn w = (.goexit, w'.1, ⟨true, w'.2.log ++ [name ++ b!": should be no panic, err: " ++ f.s v]⟩)) ∧
    (fn w = (.goexit, w') → (new (some name)).noPanic f fn w = (.goexit, w') ∧ (new (some name)).panic f fn w = (.goexit, w')) := by
  refine ⟨fun h => ?_, fun v h => ?_, fun h => ?_⟩ <;>
    simp [Assert.noPanic, Assert.panic, new, andThen, helper, call, h, fatal, done]

/-- The three cases occur: a call that counts up, one that counts up and panics, one with a failing assertion. -/
example (f : Fmt) : (new (some b!"T")).noPanic f (fun w => (.ret (), w.1 + 1, w.2)) (0, ⟨false, []⟩) = (.ret (), 1, ⟨false, []⟩) ∧
    (new (some b!"T")).panic f (fun w => (.panic .nilIface, w.1 + 1, w.2)) (0, ⟨false, []⟩) = (.ret (), 1, ⟨false, []⟩) ∧
    (new (some b!"T")).panic f ((new (some b!"T")).require false [b!"a", b!"b"]) (0, ⟨false, []⟩) = (.goexit, 0, ⟨true, [b!"require: T, a b"]⟩) :=
  ⟨rfl, rfl, rfl⟩

/-! ## C73 -/

/-- **C73** A test that makes assertions one after another: if all go on it returns and is not marked as failed by them; otherwise the first
that does not go on decides, whatever stands behind it: a failing one ends the test, marked as failed, with its text as the only one logged,
a panicking one panics with nothing logged. -/
theorem C73_in_order {σ} (cs : List (Comp σ Unit)) (w : σ × TestState) :
    ((∀ c ∈ cs, GoesOn c) → inOrder cs w = (.ret (), w)) ∧
    (∀ pre c post, cs = pre ++ c :: post → (∀ c ∈ pre, GoesOn c) →
      (∀ t, Fails c t → inOrder cs w = (.goexit, w.1, ⟨true, w.2.log ++ [t]⟩)) ∧
      (Panics c → ∃ v, inOrder cs w = (.panic v, w))) := by
  have skip : ∀ (pre rest : List (Comp σ Unit)), (∀ c ∈ pre, GoesOn c) → inOrder (pre ++ rest) w = inOrder rest w := by
    intro pre rest h
    induction pre with
    | nil => rfl
    | cons c pre ih =>
      rw [List.cons_append, inOrder]
      simp only [h c (by simp) w]
      exact ih fun c hc => h c (by simp [hc])
  refine ⟨fun h => ?_, ?_⟩
  · have := skip cs [] h
    rw [List.append_nil] at this
    rw [this]; rfl
  · rintro pre c post rfl hpre
    rw [skip pre _ hpre]
    refine ⟨fun t ht => ?_, fun ⟨v, hv⟩ => ⟨v, ?_⟩⟩
    · rw [inOrder]; simp only [ht w]
    · rw [inOrder]; simp only [hv w]

example (f : Fmt) : inOrder [(new (some b!"T")).require true [], (new (some b!"T")).noError f .nilIface [], (new (some b!"T")).require false [b!"x"],
    fun w => (.ret (), w.1 + 1, w.2)] (0, ⟨false, []⟩) = (.goexit, 0, ⟨true, [b!"require: T, x"]⟩) := rfl

end Goast.Assert
