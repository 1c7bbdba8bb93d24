import Verif.Model.Assert

/-!
# What Go values have which type, and when two values are equal

After the Go specification ("Comparison operators"), said without an order of evaluation.
-/

namespace Goast.Assert

/-- The value is one of the type. -/
inductive HasType : GoType → Val → Prop
  | bool (b : Bool) : HasType (.prim .bool) (.bool b)
  | int (k : RKind) (i : Int) : k ∈ [.int, .int8, .int16, .int32, .int64, .uint, .uint8, .uint16, .uint32, .uint64, .uintptr] → HasType (.prim k) (.int i)
  | float (k : RKind) (x : UInt64) : k ∈ [.float32, .float64] → HasType (.prim k) (.float x)
  | complex (k : RKind) (x y : UInt64) : k ∈ [.complex64, .complex128] → HasType (.prim k) (.complex x y)
  | str (s : Bytes) : HasType (.prim .string) (.str s)
  | unsafePointer (a : Option Nat) : HasType (.prim .unsafePointer) (.ref a)
  | slice (T : GoType) (a : Option Nat) : HasType (.slice T) (.ref a)
  | ptr (T : GoType) (a : Option Nat) : HasType (.ptr T) (.ref a)
  | chan (t : Bytes) (a : Option Nat) : HasType (.chan t) (.ref a)
  | func (t : Bytes) (a : Option Nat) : HasType (.func t) (.ref a)
  | map (t : Bytes) (a : Option Nat) : HasType (.map t) (.ref a)
  | array (n : Nat) (T : GoType) (vs : List Val) : vs.length = n → (∀ v ∈ vs, HasType T v) → HasType (.array n T) (.array vs)
  | struct (Ts : List GoType) (ns : List Bytes) (vs : List Val) : vs.length = Ts.length →
      (∀ (i : Nat) (T : GoType) (v : Val), Ts[i]? = some T → vs[i]? = some v → HasType T v) → HasType (.struct Ts ns) (.struct vs)
  | nilIface (t : Bytes) : HasType (.interface t) .nilIface
  | iface (t : Bytes) (T : GoType) (v : Val) : T.kind ≠ .interface → HasType T v → HasType (.interface t) (.iface T v)
  | named (n : Bytes) (T : GoType) (v : Val) : HasType T v → HasType (.named n T) v

/-- A value of type `any`. -/
def IsAny (v : Val) : Prop := HasType (.interface b!"any") v

/-- IEEE 754 double: not a number (all exponent bits set, some bit of the mantissa set). -/
def IsNaN (x : UInt64) : Prop := x.toNat / 2 ^ 52 % 2 ^ 11 = 2 ^ 11 - 1 ∧ x.toNat % 2 ^ 52 ≠ 0

/-- IEEE 754 double: zero of either sign. -/
def IsZero (x : UInt64) : Prop := x.toNat % 2 ^ 63 = 0

/-- Two IEEE 754 doubles are equal. -/
def FloatSame (x y : UInt64) : Prop := ¬ IsNaN x ∧ ¬ IsNaN y ∧ (x = y ∨ IsZero x ∧ IsZero y)

/-- Go specification: "Slice, map, and function types are not comparable"; arrays and structs are if their parts are. -/
inductive CanCompare : GoType → Prop
  | prim (k : RKind) : CanCompare (.prim k)
  | ptr (T : GoType) : CanCompare (.ptr T)
  | chan (t : Bytes) : CanCompare (.chan t)
  | interface (t : Bytes) : CanCompare (.interface t)
  | array (n : Nat) (T : GoType) : CanCompare T → CanCompare (.array n T)
  | struct (Ts : List GoType) (ns : List Bytes) : (∀ T ∈ Ts, CanCompare T) → CanCompare (.struct Ts ns)
  | named (n : Bytes) (T : GoType) : CanCompare T → CanCompare (.named n T)

/-- The two values are equal.  Interface values are equal if both are nil, or they have identical dynamic types and equal dynamic values;
pointers, channels, functions, maps and slices, if they are the same one; arrays and structs, if they are so part by part. -/
inductive Same : Val → Val → Prop
  | bool (b : Bool) : Same (.bool b) (.bool b)
  | int (i : Int) : Same (.int i) (.int i)
  | str (s : Bytes) : Same (.str s) (.str s)
  | float (x y : UInt64) : FloatSame x y → Same (.float x) (.float y)
  | complex (x y x' y' : UInt64) : FloatSame x x' → FloatSame y y' → Same (.complex x y) (.complex x' y')
  | ref (a : Option Nat) : Same (.ref a) (.ref a)
  | array (vs us : List Val) : vs.length = us.length → (∀ (i : Nat) (v u : Val), vs[i]? = some v → us[i]? = some u → Same v u) → Same (.array vs) (.array us)
  | struct (vs us : List Val) : vs.length = us.length → (∀ (i : Nat) (v u : Val), vs[i]? = some v → us[i]? = some u → Same v u) → Same (.struct vs) (.struct us)
  | nilIface : Same .nilIface .nilIface
  | iface (T : GoType) (v u : Val) : Same v u → Same (.iface T v) (.iface T u)

/-- Go can compare the value: no function, map or slice is found in it (looking into arrays, structs and interface values, but not behind
pointers), nor an empty array of an incomparable type. -/
inductive Plain : GoType → Val → Prop
  | bool (T : GoType) (b : Bool) : Plain T (.bool b)
  | int (T : GoType) (i : Int) : Plain T (.int i)
  | str (T : GoType) (s : Bytes) : Plain T (.str s)
  | float (T : GoType) (x : UInt64) : Plain T (.float x)
  | complex (T : GoType) (x y : UInt64) : Plain T (.complex x y)
  | ref (T : GoType) (a : Option Nat) : T.kind ∈ [.chan, .pointer, .unsafePointer] → Plain T (.ref a)
  | array (T : GoType) (vs : List Val) : (vs = [] → CanCompare T.elem) → (∀ v ∈ vs, Plain T.elem v) → Plain T (.array vs)
  | struct (T : GoType) (vs : List Val) : (∀ (i : Nat) (F : GoType) (v : Val), T.fields[i]? = some F → vs[i]? = some v → Plain F v) → Plain T (.struct vs)
  | nilIface (T : GoType) : Plain T .nilIface
  | iface (T T' : GoType) (v : Val) : Plain T' v → Plain T (.iface T' v)

/-- The `testing.T` of an assertion and what it comes to: the test goes on, unchanged. -/
def GoesOn {σ} (c : Comp σ Unit) : Prop := ∀ w, c w = (.ret (), w)

/-- The test called `name` is marked as failed, `text` is logged, and its goroutine ends; the rest of the program is as before. -/
def Fails {σ} (c : Comp σ Unit) (text : Bytes) : Prop := ∀ w, c w = (.goexit, w.1, { failed := true, log := w.2.log ++ [text] })

/-- There is a panic, with nothing changed. -/
def Panics {σ} (c : Comp σ Unit) : Prop := ∃ v, ∀ w, c w = (.panic v, w)

/-- Some assertions, or other calls, one after another. -/
def inOrder {σ} : List (Comp σ Unit) → Comp σ Unit
  | [] => fun w => (.ret (), w)
  | c :: cs => fun w => match c w with
    | (.ret _, w) => inOrder cs w
    | r => r

end Goast.Assert
