import Verif.Model.Ast
import Verif.Model.Trie
import Verif.Model.Describe
import Verif.Spec.Reads

/-!
# The unit tests of /repo, run on the model

These are tests of the model, not proofs of properties: they show that on the inputs of the project's own test
suite (where the expected outcomes are known to hold of the Go code) the model gives the outcomes the tests demand.
Tests that only exercise the operating system or package `assert` are left out.
-/

set_option maxRecDepth 1000000

namespace Goast.Tests
open Heap

/-! ## kind_resetter_all_test.go, kind_resetter_type_test.go -/

/-- Extract a text, run a resetter on it: the tokens afterwards, and the node it returned. -/
def reset (run : Heap → Ptr → Option (Heap × Ptr)) (text : Bytes) : Option (List Token × Ptr) :=
  match extractOrd (fun _ => commonDeeperExtract) ⟨[]⟩ text with
  | none => none
  | some (h, p) =>
    match run h p with
    | none => none
    | some (h, q) => (chainTokens h p).map (·, q)

/-- `typeResetter{}.Run`. -/
def runType (h : Heap) (p : Ptr) : Option (Heap × Ptr) := (typeRun (resetDepth h) ⟨h, []⟩ p).map fun r => (r.1.heap, r.2)

/-- Every node with the given text has the given kind. -/
def all (ts : List Token) (t : Bytes) (k : Kind) : Bool := ts.all fun x => x.2 != t || x.1 == k
/-- The first node with the given text has the given kind. -/
def first (ts : List Token) (t : Bytes) (k : Kind) : Bool := (ts.find? fun x => x.2 == t).map (·.1) == some k

/-- kind_resetter_all_test.go:11-41 `TestCommonResetter`. -/
def commonText : Bytes := b!"func Hello(ctx context.Context, m map[string]string, f1 func(int) error, f2 func(num int8) (int32, error)) error {\n\treturn (int, nil)\n}"

example : (reset resetKind commonText).map (fun r => r.2 == none && all r.1 b!"Hello" .funcName &&
      [b!"ctx", b!"m", b!"f1", b!"f2"].all (all r.1 · .paramName) &&
      [b!"context.Context", b!"map[string]string", b!"func(int) error", b!"func(num int8) (int32, error)"].all (all r.1 · .paramType))
    = some true := by decide +kernel

/-- kind_resetter_type_test.go:11-45 `TestInterfaceResetter`. -/
def interfaceText : Bytes := b!"type Student interface {\n\t\tMeow(int32)\n\t\tSelfIntroduction(string) []byte\n\t\tLaugh(loud float64) (bool, error)\n\t\tLearn(fn func(string) map[string]string) (func(int)int64, error)\n}"

example : (reset runType interfaceText).map (fun r => r.2 == none && first r.1 b!"Student" .typeName &&
      [b!"Meow", b!"SelfIntroduction", b!"Laugh", b!"Learn"].all (first r.1 · .funcName) &&
      [b!"loud", b!"fn"].all (first r.1 · .paramName) && first r.1 b!"[]byte" .paramType)
    = some true := by decide +kernel

/-- kind_resetter_type_test.go:47-86 `TestStructResetter`, in two halves and with runs of blanks shortened (the kernel
evaluates these tests). -/
def structText1 : Bytes := b!"type Student[T any] struct {\n\t\tName  string\n\t\tAge /* negative means not born */, Age2\tint8\n\t\tRelationship  map[string]string\n\t\tFuncRelationship  map[string]func(int, int8) error\n\t\tFuncRelationship2  map[string]func(n int32, nn int64) error\n\t\tFuncRelationship3  map[string]func(uint, uint8) (uint64, error)\n\t\t}"
/-- The second half. -/
def structText2 : Bytes := b!"type Student[T any] struct {\n\t\t/* 123 */ Fn /* 234 */ func( /* 345 */\n\t\t\t/* 456 */ context.Context, /* 567 */\n\t\t\t/* 678 */ string, /* 789 */\n\t\t\t/* 321 */) /* 432 */ ( /* 543 */\n\t\t\t/* 654 */ int, /* 765 */\n\t\t\t/* 876 */ error, /* 987 */\n\t\t\t/* 000 */) /* comment */\n\t\t}"

example : (reset runType structText1).map (fun r => r.2 == none && first r.1 b!"Student" .typeName &&
      [b!"Age", b!"Age2", b!"Relationship", b!"FuncRelationship", b!"FuncRelationship2", b!"FuncRelationship3", b!"n", b!"nn"].all (first r.1 · .paramName))
    = some true := by decide +kernel

example : (reset runType structText2).map (fun r => r.2 == none && first r.1 b!"Student" .typeName &&
      first r.1 b!"Fn" .paramName && first r.1 b!"context.Context" .paramType) = some true := by decide +kernel

/-- kind_resetter_type_test.go:88-117 `TestOtherResetter`. -/
def otherText : Bytes := b!"type setter  /* comment */ func( /* comment */\n\t\t/* comment */ context.Context, /* comment */\n\t\t/* comment */ string, /* comment */\n\t\t/* comment */) /* comment */ ( /* comment */\n\t\t/* comment */ int, /* comment */\n\t\t/* comment */ error, /* comment */\n\t\t/* comment */) /* comment */\n\ntype reMap map[uint8]float64\n\ntype reSlice []uint64"

example : (reset runType otherText).map (·.2) = some none := by decide +kernel

/-- kind_resetter_type_test.go:119-142 `TestStructResetterGetNameCount`. -/
def nameCount (text : Bytes) : Option Nat :=
  match extractOrd (fun _ => commonDeeperExtract) ⟨[]⟩ text with
  | none => none
  | some (h, p) => getRowNameCount ⟨h, []⟩ p

example : nameCount b!"\t\tRepository\n" = some 0 := by decide +kernel
example : nameCount b!"\t\trepo1, repo2 Repository\n" = some 2 := by decide +kernel
example : nameCount b!"\t\trepo Repository\n" = some 1 := by decide +kernel
example : nameCount b!"\t\trepo1, repo2, repo3, repo4 func(\n\tint,\n\tint,\n\t)(\n\tint,\n\terror,\n\t)\n" = some 4 := by decide +kernel
example : nameCount b!"\t\trepository.Repository[Kind]\n" = some 0 := by decide +kernel

/-! ## extractor_test.go, scope_test.go -/

/-- extractor_test.go:10-32 `TestExtract`: 40 nodes. -/
example : (reset (fun h p => some (h, p)) b!"\nfunc Print(msg string, d decimal.Decimal) {\n\t// This is comment\n\t/* And This is (hello)\n\tInner Comment */\n\ts := \"Hello\\nThere\"\n\tprintln(msg)\n} \n").map (fun r => r.1.length)
    = some 40 := by decide +kernel

/-- scope_test.go:9-17 `TestParseScopeMethod`. -/
example : (parseScope ⟨[]⟩ 0 b!"func (m *memberUseCase) Start(ctx context.Context, req *usecase.UpdatePhoneReq) (res *usecase.UpdatePhoneResp, err error) {}").map (fun r => r.2.length)
    = some 1 := by decide +kernel

/-- scope_test.go:19-35 `TestParseScopeStruct`. -/
example : (parseScope ⟨[]⟩ 0 b!"type UpdatePhoneReq struct {\n\t\tPhone       *string `json:\"phone\" binding:\"required\"`\n\t\tAreaCode    map[string]*Hello `json:\"area_code\" binding:\"required\"`\n\t\tCaptchaCode []*Hello `json:\"code\" binding:\"required\"`\n\t}\"").map (fun r => r.2.length)
    = some 1 := by decide +kernel

/-! ## node_test.go -/

/-- node_test.go:10-29 `list`: nodes `1 … n` with the given texts, appended to a heap; the address of the first. -/
def list (h : Heap) (texts : List Bytes) : Heap × Addr :=
  let n := h.size
  let m := texts.length
  (⟨h.cells ++ texts.mapIdx fun i t =>
    { line := 0, kind := .raw, text := t, prev := if i = 0 then none else some (n + i - 1), next := if i + 1 = m then none else some (n + i + 1) }⟩, n)

/-- The texts from a node to the right. -/
def right (h : Heap) (p : Ptr) : Option (List Bytes) := (h.iterNext (fun l a => (l ++ [h.text (some a)], true)) [] p).map (·.1)
/-- The texts from a node to the left. -/
def left (h : Heap) (p : Ptr) : Option (List Bytes) := (h.iterPrev (fun l a => (l ++ [h.text (some a)], true)) [] p).map (·.1)

/-- The lists the tests of node_test.go start from. -/
def h5 : Heap := (list ⟨[]⟩ [b!"1", b!"2", b!"3", b!"4", b!"5"]).1
/-- Two lists. -/
def h55 : Heap := (list h5 [b!"-1", b!"-2", b!"-3", b!"-4", b!"-5"]).1

/-- node_test.go:87-103 `TestNewNode`. -/
example : let r := (Heap.newNodes ⟨[]⟩ 10 [b!"1", b!"2", b!"3", b!"4", b!"5", b!"6"])
    let tail := r.1.last r.2
    right r.1 r.2 = some [b!"1", b!"2", b!"3", b!"4", b!"5", b!"6"] ∧ left r.1 r.2 = some [b!"1"] ∧
    tail.bind (right r.1) = some [b!"6"] ∧ tail.bind (left r.1) = some [b!"6", b!"5", b!"4", b!"3", b!"2", b!"1"] ∧
    (r.1.cells.all fun c => c.line == 10) = true := by decide +kernel

/-- node_test.go:105-159 `TestCopy`. -/
example : let r := (Heap.newNodes ⟨[]⟩ 10 [b!"1", b!"2", b!"3", b!"4", b!"5", b!"6"])
    let n3 := r.1.next (r.1.next r.2)
    (r.1.copy n3 false).map (fun c => decide (c.2 ≠ n3 ∧ c.1.prev c.2 = none ∧ c.1.next c.2 = none)) = some true ∧
    (r.1.copy n3 true).bind (fun c => right c.1 c.2) = some [b!"3", b!"4", b!"5", b!"6"] ∧
    (r.1.copy n3 true).bind (fun c => left c.1 c.2) = some [b!"3", b!"2", b!"1"] ∧
    (r.1.copy n3 true).bind (fun c => (c.1.first c.2).bind (right c.1)) = some [b!"1", b!"2", b!"3", b!"4", b!"5", b!"6"] ∧
    (r.1.copy n3 true).bind (fun c => (c.1.last c.2).bind (left c.1)) = some [b!"6", b!"5", b!"4", b!"3", b!"2", b!"1"] := by decide +kernel

/-- node_test.go:161-201 `TestNodeTake`. -/
example : let t := h5.takePrev (some 2)
    h5.text (some 2) = b!"3" ∧ t.1.text t.2 = b!"2" ∧ t.1.prev t.2 = none ∧ t.1.next t.2 = none ∧
    left t.1 (some 0) = some [b!"1"] ∧ right t.1 (some 0) = some [b!"1", b!"3", b!"4", b!"5"] := by decide +kernel
example : let t := h5.takeNext (some 2)
    t.1.text t.2 = b!"4" ∧ t.1.prev t.2 = none ∧ t.1.next t.2 = none ∧
    left t.1 (some 0) = some [b!"1"] ∧ right t.1 (some 0) = some [b!"1", b!"2", b!"3", b!"5"] := by decide +kernel

/-- node_test.go:203-243 `TestNodeRemove`. -/
example : let t := h5.removePrev (some 2)
    left t.1 t.2 = some [b!"2", b!"1"] ∧ right t.1 t.2 = some [b!"2"] ∧ left t.1 (some 2) = some [b!"3"] ∧
    right t.1 (some 2) = some [b!"3", b!"4", b!"5"] ∧ left t.1 (some 0) = some [b!"1"] ∧ right t.1 (some 0) = some [b!"1", b!"2"] := by decide +kernel
example : let t := h5.removeNext (some 2)
    left t.1 t.2 = some [b!"4"] ∧ right t.1 t.2 = some [b!"4", b!"5"] ∧ left t.1 (some 2) = some [b!"3", b!"2", b!"1"] ∧
    right t.1 (some 2) = some [b!"3"] ∧ left t.1 (some 0) = some [b!"1"] ∧ right t.1 (some 0) = some [b!"1", b!"2", b!"3"] := by decide +kernel

/-- node_test.go:245-301 `TestNodeInsert`. -/
example : let t := h55.insertPrev (some 2) (some 7)
    left t.1 (some 0) = some [b!"1"] ∧ right t.1 (some 0) = some [b!"1", b!"2", b!"-3", b!"3", b!"4", b!"5"] ∧
    left t.1 (some 5) = some [b!"-1"] ∧ right t.1 (some 5) = some [b!"-1", b!"-2"] ∧
    left t.1 t.2.1 = some [b!"-2", b!"-1"] ∧ right t.1 t.2.1 = some [b!"-2"] ∧
    left t.1 t.2.2 = some [b!"-4"] ∧ right t.1 t.2.2 = some [b!"-4", b!"-5"] := by decide +kernel
example : let t := h55.insertNext (some 2) (some 7)
    left t.1 (some 0) = some [b!"1"] ∧ right t.1 (some 0) = some [b!"1", b!"2", b!"3", b!"-3", b!"4", b!"5"] ∧
    left t.1 (some 5) = some [b!"-1"] ∧ right t.1 (some 5) = some [b!"-1", b!"-2"] ∧
    left t.1 t.2.1 = some [b!"-2", b!"-1"] ∧ right t.1 t.2.1 = some [b!"-2"] ∧
    left t.1 t.2.2 = some [b!"-4"] ∧ right t.1 t.2.2 = some [b!"-4", b!"-5"] := by decide +kernel

/-- node_test.go:303-365 `TestNodeReplace`. -/
example : let t := h55.replacePrev (some 2) (some 7)
    left t.1 (some 0) = some [b!"1"] ∧ right t.1 (some 0) = some [b!"1", b!"2"] ∧
    left t.1 (some 5) = some [b!"-1"] ∧ right t.1 (some 5) = some [b!"-1", b!"-2", b!"-3", b!"3", b!"4", b!"5"] ∧
    left t.1 t.2.1 = some [b!"2", b!"1"] ∧ right t.1 t.2.1 = some [b!"2"] ∧
    left t.1 t.2.2 = some [b!"-4"] ∧ right t.1 t.2.2 = some [b!"-4", b!"-5"] := by decide +kernel
example : let t := h55.replaceNext (some 2) (some 7)
    left t.1 (some 0) = some [b!"1"] ∧ right t.1 (some 0) = some [b!"1", b!"2", b!"3", b!"-3", b!"-4", b!"-5"] ∧
    left t.1 (some 5) = some [b!"-1"] ∧ right t.1 (some 5) = some [b!"-1", b!"-2"] ∧
    left t.1 t.2.1 = some [b!"-2", b!"-1"] ∧ right t.1 t.2.1 = some [b!"-2"] ∧
    left t.1 t.2.2 = some [b!"4"] ∧ right t.1 t.2.2 = some [b!"4", b!"5"] := by decide +kernel
example : let t := h5.replaceNext (some 0) (h5.next (some 0))
    right t.1 (some 0) = some [b!"1", b!"2", b!"3", b!"4", b!"5"] ∧ t.2 = (none, none) := by decide +kernel

/-- node_test.go:367-381 `TestIsolate`. -/
example : let t := (list ⟨[]⟩ [b!"1", b!"2", b!"3"]).1.isolate (some 1)
    [0, 1, 2].all (fun a => t.prev (some a) == none && t.next (some a) == none) = true := by decide +kernel

/-- node_test.go:383-406 `TestCombine`. -/
def combineHeap : Heap := (list (list (list (list ⟨[]⟩ [b!"1"]).1 [b!"2"]).1 [b!"3"]).1 [b!"4", b!"5"]).1
example : (combineHeap.combineNext (some 0) .raw [some 1, some 2, some 3]).map (fun r =>
      (right r.1 (some 0), r.1.next (some 4), r.1.prev (some 4), (r.1.combineNext none .raw [some 0, some 4]).bind fun r => right r.1 r.2))
    = some (some [b!"1234"], none, none, some [b!"12345"]) := by decide +kernel

/-- node_test.go:57-85 `TestNilNodeMethod` (that these calls return at all is C34; here: on the empty heap). -/
example : let h : Heap := ⟨[]⟩
    h.prev none = none ∧ h.next none = none ∧ h.insertPrev none none = (h, none, none) ∧ h.insertNext none none = (h, none, none) ∧
    h.replacePrev none none = (h, none, none) ∧ h.replaceNext none none = (h, none, none) ∧ h.takePrev none = (h, none) ∧
    h.takeNext none = (h, none) ∧ h.removePrev none = (h, none) ∧ h.removeNext none = (h, none) ∧ h.kind none = .none ∧
    h.setKind none .raw = h ∧ h.text none = [] ∧ h.describe none = b!"<nil>" ∧ h.copy none false = some (h, none) ∧
    h.copy none true = some (h, none) := by decide +kernel

/-! ## trie_test.go -/

/-- trie_test.go:11-42 `TestTrie`. -/
example : let t : Trie (Option Kind) := (Trie.ofEntries []).addText b!"any" (some .basic)
    let u := t.addText b!"ayy" (some .comment)
    t.findText b!"any" = (some .basic, true) ∧ t.findText b!"an" = (none, true) ∧ t.findText b!"ann" = (none, false) ∧
    u.findText b!"any" = (some .basic, true) ∧ u.findText b!"ayy" = (some .comment, true) ∧ u.findByte b!"ayy" = (some .comment, true) := by decide +kernel

/-- trie_test.go:65-80 `TestTrieFindReversely`. -/
example : let t : Trie Unit := Trie.ofEntries [(b!"123", ())]
    (t.findText b!"123").2 = true ∧ (t.findTextReversely b!"321").2 = true ∧ (t.findByte b!"123").2 = true ∧
    (t.findByteReversely b!"321").2 = true := by decide +kernel

/-! ## helper_test.go -/

/-- helper_test.go:19-43 `TestHasPrefix`. -/
example : [(b!"123456", b!"", true), (b!"123456", b!"123", true), (b!"123456", b!"456", false), (b!"123456", b!"123456", true),
    (b!"123456", b!"1234567", false), (b!"", b!"", true), (b!"", b!"123", false)].all (fun c => hasPrefix c.1 c.2.1 == c.2.2) = true := by decide +kernel
/-- helper_test.go:45-69 `TestHasSuffix`. -/
example : [(b!"123456", b!"", true), (b!"123456", b!"456", true), (b!"123456", b!"123", false), (b!"123456", b!"123456", true),
    (b!"123456", b!"0123456", false), (b!"", b!"", true), (b!"", b!"123", false)].all (fun c => hasSuffix c.1 c.2.1 == c.2.2) = true := by decide +kernel
/-- helper_test.go:71-76 `TestPrintTidy`. -/
example : tidyText b!"\n \n \n\t\r" = b!"\\n·\\n·\\n -> ·" := by decide +kernel

end Goast.Tests
