import Verif.Model.Basic

/-!
# Model of `/repo/assert/assert.go`

Go values as package `reflect` shows them, the outcomes of a call in a test goroutine, and the assertions.  `reflect.Value.Equal` and
`reflect.Value.IsNil` are modelled after the Go 1.23 standard library (`reflect/value.go`).
-/

namespace Goast.Assert

/-- `reflect.Kind`. -/
inductive RKind
  | invalid | bool | int | int8 | int16 | int32 | int64 | uint | uint8 | uint16 | uint32 | uint64 | uintptr | float32 | float64
  | complex64 | complex128 | array | chan | func | interface | map | pointer | slice | string | struct | unsafePointer
deriving DecidableEq, Repr

/-- Go types.  A defined type has a name (with its package) and an underlying type.  Simplified: the parts of channel, function,
interface and map types are a text; methods play no part. -/
inductive GoType
  /-- bool, the numeric types, string, unsafe.Pointer -/
  | prim (k : RKind)
  | array (n : Nat) (elem : GoType)
  | slice (elem : GoType)
  | ptr (elem : GoType)
  | chan (text : Bytes)
  | func (text : Bytes)
  | map (text : Bytes)
  | interface (text : Bytes)
  | struct (fields : List GoType) (names : List Bytes)
  | named (name : Bytes) (under : GoType)
deriving Repr

/-- Go values.  Pointers, channels, functions, maps and slices are nil or a reference (slices, maps and functions are never compared, so
that what is behind the reference does not matter here).  Floating-point numbers are their IEEE 754 double bits. -/
inductive Val
  | bool (b : Bool)
  | int (i : Int)
  | str (s : Bytes)
  | float (bits : UInt64)
  | complex (re im : UInt64)
  | ref (addr : Option Nat)
  | array (vs : List Val)
  | struct (vs : List Val)
  /-- the nil interface value -/
  | nilIface
  /-- an interface value holding a value of a (non-interface) dynamic type -/
  | iface (T : GoType) (v : Val)
deriving Repr

/-- `reflect.Type.Kind()`. -/
def GoType.kind : GoType → RKind
  | .prim k => k
  | .array _ _ => .array
  | .slice _ => .slice
  | .ptr _ => .pointer
  | .chan _ => .chan
  | .func _ => .func
  | .map _ => .map
  | .interface _ => .interface
  | .struct _ _ => .struct
  | .named _ T => T.kind

mutual
/-- `reflect.Type.Comparable()`. -/
def GoType.comparable : GoType → Bool
  | .slice _ | .func _ | .map _ => false
  | .array _ T => T.comparable
  | .struct Ts _ => GoType.comparables Ts
  | .named _ T => T.comparable
  | _ => true
/-- All of some types are comparable. -/
def GoType.comparables : List GoType → Bool
  | [] => true
  | T :: Ts => T.comparable && GoType.comparables Ts
end

mutual
/-- Identity of types (`v.Type() != u.Type()`). -/
def GoType.same : GoType → GoType → Bool
  | .prim k, .prim k' => k == k'
  | .array n T, .array n' T' => n == n' && T.same T'
  | .slice T, .slice T' => T.same T'
  | .ptr T, .ptr T' => T.same T'
  | .chan t, .chan t' => t == t'
  | .func t, .func t' => t == t'
  | .map t, .map t' => t == t'
  | .interface t, .interface t' => t == t'
  | .struct Ts ns, .struct Ts' ns' => ns == ns' && GoType.sames Ts Ts'
  | .named n T, .named n' T' => n == n' && T.same T'
  | _, _ => false
/-- Identity of lists of types. -/
def GoType.sames : List GoType → List GoType → Bool
  | [], [] => true
  | T :: Ts, T' :: Ts' => T.same T' && GoType.sames Ts Ts'
  | _, _ => false
end

/-- The type of the elements of an array. -/
def GoType.elem : GoType → GoType
  | .array _ T => T
  | .named _ T => T.elem
  | T => T

/-- The types of the fields of a struct. -/
def GoType.fields : GoType → List GoType
  | .struct Ts _ => Ts
  | .named _ T => T.fields
  | _ => []

/-- `==` on float64. -/
def floatEq (a b : UInt64) : Bool :=
  let nan (x : UInt64) := 0x7FF0000000000000 < (x &&& 0x7FFFFFFFFFFFFFFF)
  !nan a && !nan b && (a == b || ((a &&& 0x7FFFFFFFFFFFFFFF) == 0 && (b &&& 0x7FFFFFFFFFFFFFFF) == 0))

/-- reflect/value.go `Value.Equal`, the interface content: what `if v.Kind() == Interface { v = v.Elem() }` makes of a value of static
type `T`; `none` is the invalid `Value`. -/
def content (T : GoType) : Val → Option (GoType × Val)
  | .nilIface => none
  | .iface T' v => some (T', v)
  | v => some (T, v)

mutual
/-- reflect/value.go `Value.Equal` of a valid value that is no interface, with another value; `none` is the panic "values of type … are not
comparable". -/
def equalValue (T : GoType) (v : Val) (u : Option (GoType × Val)) : Option Bool :=
  match u with
  | none => some false
  | some (U, u) =>
    if T.kind != U.kind || !T.same U then some false
    else match v, u with
      | .bool a, .bool b => some (a == b)
      | .int a, .int b => some (a == b)
      | .str a, .str b => some (a == b)
      | .float a, .float b => some (floatEq a b)
      | .complex a b, .complex a' b' => some (floatEq a a' && floatEq b b')
      | .ref a, .ref b => match T.kind with
        | .chan | .pointer | .unsafePointer => some (a == b)
        | _ => none
      | .array vs, .array us =>
        if vs.length = 0 then (if T.elem.comparable then some true else none) else equalElems T.elem vs us
      | .struct vs, .struct us => equalFields T.fields vs us
      | _, _ => none
/-- The loop over the elements of an array. -/
def equalElems (T : GoType) : List Val → List Val → Option Bool
  | .nilIface :: vs, u :: us => match (content T u).isNone with
    | true => equalElems T vs us
    | false => some false
  | .iface T' v :: vs, u :: us => match equalValue T' v (content T u) with
    | some true => equalElems T vs us
    | r => r
  | v :: vs, u :: us => match equalValue T v (content T u) with
    | some true => equalElems T vs us
    | r => r
  | _, _ => some true
/-- The loop over the fields of a struct. -/
def equalFields : List GoType → List Val → List Val → Option Bool
  | T :: Ts, .nilIface :: vs, u :: us => match (content T u).isNone with
    | true => equalFields Ts vs us
    | false => some false
  | T :: Ts, .iface T' v :: vs, u :: us => match equalValue T' v (content T u) with
    | some true => equalFields Ts vs us
    | r => r
  | T :: Ts, v :: vs, u :: us => match equalValue T v (content T u) with
    | some true => equalFields Ts vs us
    | r => r
  | _, _, _ => some true
end

/-- What a call does in a test goroutine: it returns, panics, or ends the goroutine (`runtime.Goexit`, called by `t.FailNow`). -/
inductive Res (α : Type)
  | ret (a : α)
  | panic (v : Val)
  | goexit
deriving Repr

/-- What `testing.T` keeps. -/
structure TestState where
  failed : Bool
  log : List Bytes
deriving DecidableEq, Repr

/-- A call: it may change the state `σ` of the program and of the test. -/
abbrev Comp (σ α : Type) := σ × TestState → Res α × (σ × TestState)

/-- `Assert` (assert.go:10-12): the `*testing.T`, which has a name, or is nil. -/
structure Assert where
  t : Option Bytes

/-- assert.go:14-18 `New`. -/
def new (t : Option Bytes) : Assert := ⟨t⟩

/-- assert.go:20-22 `T`. -/
def Assert.T (a : Assert) : Option Bytes := a.t

/-- What `fmt` makes of a value under `%+v` and `%s`. -/
structure Fmt where
  plusV : Val → Bytes
  s : Val → Bytes

/-- The run time panic of a nil dereference. -/
def nilDereference : Val := .iface (.named b!"runtime.errorString" (.prim .string)) (.str b!"invalid memory address or nil pointer dereference")

/-- `a.t.Helper()`: no effect on a test, a panic if `t` is nil. -/
def helper {σ} (a : Assert) : Comp σ Unit := fun w => match a.t with
  | none => (.panic nilDereference, w)
  | some _ => (.ret (), w)

/-- `a.t.Fatalf(…)` with the text it logs; `text` gets the name of the test. -/
def fatal {σ} (a : Assert) (text : Bytes → Bytes) : Comp σ Unit := fun w => match a.t with
  | none => (.panic nilDereference, w)
  | some name => (.goexit, w.1, { failed := true, log := w.2.log ++ [text name] })

/-- One call after another. -/
def andThen {σ α β} (c : Comp σ α) (f : α → Comp σ β) : Comp σ β := fun w => match c w with
  | (.ret a, w) => f a w
  | (.panic v, w) => (.panic v, w)
  | (.goexit, w) => (.goexit, w)

/-- Nothing happens. -/
def done {σ} : Comp σ Unit := fun w => (.ret (), w)

/-- `strings.Join(msg, " ")`. -/
def join : List Bytes → Bytes
  | [] => []
  | [m] => m
  | m :: ms => m ++ b!" " ++ join ms

/-- The two calls of `Fatalf` at the end of an assertion: with the messages, if there are any, and without. -/
def fail {σ} (a : Assert) (msg : List Bytes) (withMsg : Bytes → Bytes → Bytes) (without : Bytes → Bytes) : Comp σ Unit :=
  andThen (helper a) fun _ =>
    if msg.length ≠ 0 then andThen (fatal a (withMsg · (join msg))) fun _ => fatal a without else fatal a without

/-- assert.go:154-162 `isNil`; `none` is the panic of `IsNil` on an array. -/
def isNil : Val → Option Bool
  | .nilIface => some true
  | .iface T v => match T.kind with
    | .pointer | .map | .chan | .slice => match v with
      | .ref a => some a.isNone
      | _ => some false
    | .array => none
    | _ => some false
  | _ => some false

/-- The panic of `reflect.Value.IsNil` on an array. -/
def notNillable : Val := .iface (.ptr (.named b!"reflect.ValueError" (.struct [] []))) (.ref (some 0))

/-- The panic of `reflect.Value.Equal`. -/
def notComparable : Val := .iface (.prim .string) (.str b!"values are not comparable")

/-- assert.go:24-36 `Nil`. -/
def Assert.nil {σ} (f : Fmt) (a : Assert) (value : Val) (msg : List Bytes) : Comp σ Unit := match isNil value with
  | none => fun w => (.panic notNillable, w)
  | some true => done
  | some false => fail a msg
    (fun name m => name ++ b!": should be nil, but got (" ++ f.plusV value ++ b!"), " ++ m)
    (fun name => name ++ b!": should be nil, but got (" ++ f.plusV value ++ b!")")

/-- assert.go:38-50 `NotNil`. -/
def Assert.notNil {σ} (f : Fmt) (a : Assert) (value : Val) (msg : List Bytes) : Comp σ Unit := match isNil value with
  | none => fun w => (.panic notNillable, w)
  | some false => done
  | some true => fail a msg
    (fun name m => name ++ b!": should be not nil, but got (" ++ f.plusV value ++ b!"), " ++ m)
    (fun name => name ++ b!": should be not nil, but got (" ++ f.plusV value ++ b!")")

/-- `reflect.ValueOf(i).Kind()`. -/
def valueKind : Val → RKind
  | .iface T _ => T.kind
  | _ => .invalid

/-- `rv.Equal(re)` for `reflect.ValueOf` of two interface values. -/
def valueEqual : Val → Val → Option Bool
  | .iface T v, u => equalValue T v (match u with | .iface U u => some (U, u) | _ => none)
  | _, .iface _ _ => some false
  | _, _ => some true

/-- assert.go:52-65 `Equal`. -/
def Assert.equal {σ} (f : Fmt) (a : Assert) (value expected : Val) (msg : List Bytes) : Comp σ Unit :=
  match (if valueKind value == valueKind expected then valueEqual value expected else some false) with
  | none => fun w => (.panic notComparable, w)
  | some true => done
  | some false => fail a msg
    (fun name m => name ++ b!": should be equal, but got value: (" ++ f.plusV value ++ b!"), expected: (" ++ f.plusV expected ++ b!"), " ++ m)
    (fun name => name ++ b!": should be equal, but got value: (" ++ f.plusV value ++ b!"), expected: (" ++ f.plusV expected ++ b!")")

/-- assert.go:67-80 `NotEqual`. -/
def Assert.notEqual {σ} (f : Fmt) (a : Assert) (value expected : Val) (msg : List Bytes) : Comp σ Unit :=
  match (if valueKind value != valueKind expected then some true else (valueEqual value expected).map (!·)) with
  | none => fun w => (.panic notComparable, w)
  | some true => done
  | some false => fail a msg
    (fun name m => name ++ b!": should be no equal, but got value: (" ++ f.plusV value ++ b!"), expected: (" ++ f.plusV expected ++ b!"), " ++ m)
    (fun name => name ++ b!": should be no equal, but got value: (" ++ f.plusV value ++ b!"), expected: (" ++ f.plusV expected ++ b!")")

/-- `err != nil`. -/
def nonNil : Val → Bool
  | .nilIface => false
  | _ => true

/-- assert.go:82-94 `Error`. -/
def Assert.error {σ} (a : Assert) (err : Val) (msg : List Bytes) : Comp σ Unit :=
  if nonNil err then done else fail a msg
    (fun name m => name ++ b!": should be error, " ++ m)
    (fun name => name ++ b!": should be error")

/-- assert.go:96-108 `NoError`. -/
def Assert.noError {σ} (f : Fmt) (a : Assert) (err : Val) (msg : List Bytes) : Comp σ Unit :=
  if nonNil err = false then done else fail a msg
    (fun name m => name ++ b!": should be no error, " ++ m ++ b!", err: " ++ f.plusV err)
    (fun name => name ++ b!":should be no error, err: " ++ f.plusV err)

/-- assert.go:110-122 `Require`. -/
def Assert.require {σ} (a : Assert) (ok : Bool) (msg : List Bytes) : Comp σ Unit :=
  if ok then done else fail a msg
    (fun name m => b!"require: " ++ name ++ b!", " ++ m)
    (fun name => b!"require: " ++ name)

/-- assert.go:138-152 `Call`: whether it panicked, and the message.  The stack is not modelled.  If `fn` ends the goroutine, `Call` does
not return. -/
def call {σ} (fn : Comp σ Unit) : Comp σ (Bool × Val) := fun w => match fn w with
  | (.ret _, w) => (.ret (false, .nilIface), w)
  | (.panic v, w) => (.ret (true, v), w)
  | (.goexit, w) => (.goexit, w)

/-- assert.go:124-129 `NoPanic`. -/
def Assert.noPanic {σ} (f : Fmt) (a : Assert) (fn : Comp σ Unit) : Comp σ Unit :=
  andThen (helper a) fun _ => andThen (call fn) fun r =>
    if r.1 then fatal a (fun name => name ++ b!": should be no panic, err: " ++ f.s r.2) else done

/-- assert.go:131-136 `Panic`. -/
def Assert.panic {σ} (f : Fmt) (a : Assert) (fn : Comp σ Unit) : Comp σ Unit :=
  andThen (helper a) fun _ => andThen (call fn) fun r =>
    if !r.1 then fatal a (fun name => name ++ b!": should be panic, err: " ++ f.s r.2) else done

end Goast.Assert
