import Verif.Model.Debug

/-!
# C78: debug output
-/

set_option linter.unusedSimpArgs false

namespace Goast

/-! ## Specification -/

/-- The last `SetDebug` of the history, if any, was `SetDebug(true)`. -/
def SwitchedOn (cs : List DebugCall) : Prop :=
  ∃ pre post, cs = pre ++ .setDebug true :: post ∧ ∀ b, .setDebug b ∉ post

/-- What `DebugPrint` says of the stack: the first word of its seventh line; nothing if it has fewer lines. -/
def FrameOf (stack : Bytes) (w : Bytes) : Prop :=
  (∃ (six : List Bytes) (rest : Bytes), six.length = 6 ∧ (∀ l ∈ six, (10 : UInt8) ∉ l) ∧ stack = six.flatMap (fun l => l ++ [10]) ++ (w ++ rest) ∧
    (10 : UInt8) ∉ w ∧ (32 : UInt8) ∉ w ∧ ∀ c, rest.head? = some c → c = 10 ∨ c = 32) ∨
  (stack.count 10 < 6 ∧ w = [])

/-! ## Lemmas -/

theorem splitByte_ne_nil (sep : UInt8) (s : Bytes) : splitByte sep s ≠ [] := by
  cases s with
  | nil => simp [splitByte]
  | cons c s =>
    simp only [splitByte]
    split
    · simp
    · split <;> simp

theorem splitByte_append {sep : UInt8} {w : Bytes} (hw : sep ∉ w) (s : Bytes) : splitByte sep (w ++ sep :: s) = w :: splitByte sep s := by
  induction w with
  | nil => simp [splitByte]
  | cons c w ih =>
    have h1 : sep ≠ c := fun e => hw (by simp [e])
    have h2 : sep ∉ w := fun e => hw (List.mem_cons_of_mem _ e)
    simp only [List.cons_append, splitByte, if_neg (Ne.symm h1), ih h2]

theorem splitByte_whole {sep : UInt8} {w : Bytes} (hw : sep ∉ w) : splitByte sep w = [w] := by
  induction w with
  | nil => simp [splitByte]
  | cons c w ih =>
    have h1 : sep ≠ c := fun e => hw (by simp [e])
    have h2 : sep ∉ w := fun e => hw (List.mem_cons_of_mem _ e)
    simp only [splitByte, if_neg (Ne.symm h1), ih h2]

theorem splitByte_length (sep : UInt8) (s : Bytes) : (splitByte sep s).length = s.count sep + 1 := by
  induction s with
  | nil => simp [splitByte]
  | cons c s ih =>
    simp only [splitByte]
    by_cases h : c = sep
    · simp [h, ih]
    · rw [if_neg h]
      have : (c :: s).count sep = s.count sep := by simp [List.count_cons, h]
      rw [this, ← ih]
      split <;> simp_all

theorem splitByte_lines {sep : UInt8} : ∀ (ls : List Bytes) (s : Bytes), (∀ l ∈ ls, sep ∉ l) →
    splitByte sep (ls.flatMap (fun l => l ++ [sep]) ++ s) = ls ++ splitByte sep s
  | [], s, _ => by simp
  | l :: ls, s, h => by
    have ih := splitByte_lines ls s fun x hx => h x (List.mem_cons_of_mem _ hx)
    simp only [List.flatMap_cons, List.append_assoc, List.singleton_append]
    rw [List.cons_append, splitByte_append (h l (List.mem_cons_self ..)), ih]; rfl

/-- The first word: up to the separator. -/
theorem splitByte_head {sep : UInt8} {w rest : Bytes} (hw : sep ∉ w) (hr : ∀ c, rest.head? = some c → c = sep) :
    (splitByte sep (w ++ rest))[0]? = some w := by
  cases rest with
  | nil => simp [splitByte_whole hw]
  | cons c rest =>
    obtain rfl := hr c rfl
    rw [splitByte_append hw]; rfl

theorem splitByte_first (sep : UInt8) (s : Bytes) : ∃ u v, s = u ++ v ∧ (splitByte sep s)[0]? = some u ∧ sep ∉ u ∧ ∀ c, v.head? = some c → c = sep := by
  induction s with
  | nil => exact ⟨[], [], rfl, rfl, by simp, by simp⟩
  | cons c s ih =>
    by_cases h : c = sep
    · exact ⟨[], c :: s, rfl, by simp [splitByte, h], by simp, by simp [h]⟩
    · obtain ⟨u, v, rfl, e, hu, hv⟩ := ih
      refine ⟨c :: u, v, rfl, ?_, by simp [Ne.symm h, hu], hv⟩
      simp only [splitByte, if_neg h]
      split
      · rename_i e'; simp [e'] at e
      · rename_i e'; rw [e'] at e; simpa using e

theorem runDebug_append : ∀ (d : Bool) (xs ys : List DebugCall), runDebug d (xs ++ ys) =
    ((runDebug d xs).1 ++ (runDebug (runDebug d xs).2 ys).1, (runDebug (runDebug d xs).2 ys).2)
  | d, [], ys => by simp [runDebug]
  | d, .setDebug b :: xs, ys => by simp only [List.cons_append, runDebug]; exact runDebug_append b xs ys
  | d, .debugPrint st as :: xs, ys => by
    simp only [List.cons_append, runDebug, runDebug_append d xs ys, List.append_assoc]

theorem runDebug_flag : ∀ (d : Bool) (cs : List DebugCall), (runDebug d cs).2 = true ↔ SwitchedOn cs ∨ (d = true ∧ ∀ b, .setDebug b ∉ cs)
  | d, [] => by simp [runDebug, SwitchedOn]
  | d, .setDebug b :: cs => by
    rw [runDebug, runDebug_flag b cs]
    constructor
    · rintro (⟨pre, post, rfl, hp⟩ | ⟨rfl, hn⟩)
      · exact .inl ⟨.setDebug b :: pre, post, rfl, hp⟩
      · exact .inl ⟨[], cs, rfl, hn⟩
    · rintro (⟨pre, post, e, hp⟩ | ⟨_, hn⟩)
      · cases pre with
        | nil => simp only [List.nil_append, List.cons.injEq, DebugCall.setDebug.injEq] at e; obtain ⟨rfl, rfl⟩ := e; exact .inr ⟨rfl, hp⟩
        | cons x pre => simp only [List.cons_append, List.cons.injEq] at e; exact .inl ⟨pre, post, e.2, hp⟩
      · exact absurd (List.mem_cons_self ..) (hn b)
  | d, .debugPrint st as :: cs => by
    rw [runDebug]
    simp only [runDebug_flag d cs]
    constructor
    · rintro (⟨pre, post, rfl, hp⟩ | ⟨rfl, hn⟩)
      · exact .inl ⟨.debugPrint st as :: pre, post, rfl, hp⟩
      · exact .inr ⟨rfl, by simpa using hn⟩
    · rintro (⟨pre, post, e, hp⟩ | ⟨rfl, hn⟩)
      · cases pre with
        | nil => simp at e
        | cons x pre => simp only [List.cons_append, List.cons.injEq] at e; exact .inl ⟨pre, post, e.2, hp⟩
      · exact .inr ⟨rfl, by simpa using hn⟩

theorem printlnArgs_append : ∀ (as : List Bytes) (b : Bytes) (bs : List Bytes),
    printlnArgs (as ++ b :: bs) = as.flatMap (fun a => a ++ [32]) ++ printlnArgs (b :: bs)
  | [], b, bs => rfl
  | [a], b, bs => by simp [printlnArgs]
  | a :: a' :: as, b, bs => by
    have := printlnArgs_append (a' :: as) b bs
    simp only [List.cons_append] at this ⊢
    simp only [printlnArgs, this, List.flatMap_cons, List.append_assoc]

/-! ## C78 -/

/-- **C78** After any history of calls (the program starts with debugging off), `DebugPrint` writes nothing unless the last `SetDebug` said
true, in which case it writes its arguments and a tab, a blank after each, then a word of the stack, and a newline. -/
theorem C78_print (cs : List DebugCall) (stack : Bytes) (args : List Bytes) :
    (¬ SwitchedOn cs → (runDebug false (cs ++ [.debugPrint stack args])).1 = (runDebug false cs).1) ∧
    (SwitchedOn cs → ∀ w, FrameOf stack w → (runDebug false (cs ++ [.debugPrint stack args])).1 =
      (runDebug false cs).1 ++ (args.flatMap (fun a => a ++ [32]) ++ [9, 32] ++ w ++ [10])) := by
  have hf := runDebug_flag false cs
  simp only [Bool.false_eq_true, false_and, or_false] at hf
  rw [runDebug_append]
  simp only [runDebug, List.append_nil]
  refine ⟨fun hn => ?_, fun ho w hw => ?_⟩
  · have : (runDebug false cs).2 = false := by
      cases hb : (runDebug false cs).2 with
      | true => exact absurd (hf.1 hb) hn
      | false => rfl
    simp [this, debugPrint]
  · rw [hf.2 ho]
    congr 1
    have key : (splitByte 32 (if 7 ≤ (splitByte 10 stack).length then (splitByte 10 stack)[6]?.getD [] else []))[0]?.getD [] = w := by
      rcases hw with ⟨six, rest, h6, hl, rfl, hw1, hw2, hr⟩ | ⟨hc, rfl⟩
      · rw [splitByte_lines six _ hl]
        have h0 := splitByte_first 10 (w ++ rest)
        obtain ⟨u, v, e, he, hu, hv⟩ := h0
        have h7 : 7 ≤ (six ++ splitByte 10 (w ++ rest)).length := by
          have := List.length_pos_iff.2 (splitByte_ne_nil 10 (w ++ rest))
          rw [List.length_append]; omega
        rw [if_pos h7, List.getElem?_append_right (by omega), h6, Nat.sub_self, he, Option.getD_some]
        -- the seventh line `u` begins with `w`
        have hwu : ∃ r', u = w ++ r' ∧ ∀ c, r'.head? = some c → c = 32 := by
          rcases List.append_eq_append_iff.1 e with ⟨r', e1, e2⟩ | ⟨r', e1, e2⟩
          · refine ⟨r', e1, fun c hc => ?_⟩
            have hcr : rest.head? = some c := by rw [e2, List.head?_append, hc]; rfl
            rcases hr c hcr with rfl | rfl
            · have : (10 : UInt8) ∈ u := by rw [e1]; exact List.mem_append_right _ (List.mem_of_mem_head? hc)
              exact absurd this hu
            · rfl
          · cases r' with
            | nil => exact ⟨[], by simpa using e1.symm, by simp⟩
            | cons c r' =>
              have : c = 10 := hv c (by rw [e2]; rfl)
              subst this
              exact absurd (by rw [e1]; simp) hw1
        obtain ⟨r', rfl, hr'⟩ := hwu
        rw [splitByte_head hw2 hr', Option.getD_some]
      · rw [if_neg (by rw [splitByte_length]; omega)]
        rfl
    simp only [debugPrint, if_true]
    rw [key, printlnArgs_append]
    simp [printlnArgs]

/-- **C78** Every stack has such a word, so `C78_print` says what is written in every case. -/
theorem C78_frame (stack : Bytes) : ∃ w, FrameOf stack w := by
  by_cases hc : stack.count 10 < 6
  · exact ⟨[], Or.inr ⟨hc, rfl⟩⟩
  · have lines : ∀ n (s : Bytes), n ≤ s.count 10 → ∃ (ls : List Bytes) (t : Bytes), ls.length = n ∧ (∀ l ∈ ls, (10 : UInt8) ∉ l) ∧ s = ls.flatMap (fun l => l ++ [10]) ++ t := by
      intro n
      induction n with
      | zero => intro s _; exact ⟨[], s, rfl, by simp, by simp⟩
      | succ n ih =>
        intro s hs
        obtain ⟨u, v, rfl, _, hu, hv⟩ := splitByte_first 10 s
        cases v with
        | nil => rw [List.append_nil, List.count_eq_zero.2 hu] at hs; omega
        | cons c v =>
          obtain rfl := hv c rfl
          rw [List.count_append, List.count_eq_zero.2 hu, List.count_cons_self] at hs
          obtain ⟨ls, t, h1, h2, rfl⟩ := ih v (by omega)
          refine ⟨u :: ls, t, by simp [h1], ?_, by simp⟩
          intro l hl
          rcases List.mem_cons.1 hl with rfl | hl
          · exact hu
          · exact h2 l hl
    obtain ⟨six, t, h6, hl, rfl⟩ := lines 6 stack (by omega)
    obtain ⟨u, v, rfl, _, hu, hv⟩ := splitByte_first 10 t
    obtain ⟨w, r, rfl, _, hw, hr⟩ := splitByte_first 32 u
    refine ⟨w, Or.inl ⟨six, r ++ v, h6, hl, by simp, ?_, hw, ?_⟩⟩
    · exact fun h => hu (List.mem_append_left _ h)
    · intro c hc
      cases r with
      | nil => exact .inl (hv c (by simpa using hc))
      | cons x r => simp only [List.cons_append, List.head?_cons, Option.some.injEq] at hc; exact .inr (hr c (by simp [hc]))

/-- **C78** A program that never calls `SetDebug(true)` gets no debug output at all. -/
theorem C78_silent {cs : List DebugCall} (h : .setDebug true ∉ cs) : (runDebug false cs).1 = [] := by
  induction cs with
  | nil => rfl
  | cons c cs ih =>
    have h' := ih fun hm => h (List.mem_cons_of_mem _ hm)
    cases c with
    | setDebug b =>
      cases b with
      | true => exact absurd (List.mem_cons_self ..) h
      | false => exact h'
    | debugPrint st as => simpa [runDebug, debugPrint] using h'

/-- **C78** `SetDebug` itself writes nothing, and of several calls in a row only the last counts. -/
theorem C78_last (xs : List DebugCall) (b b' : Bool) (ys : List DebugCall) :
    runDebug false (xs ++ .setDebug b :: .setDebug b' :: ys) = runDebug false (xs ++ .setDebug b' :: ys) ∧
    (runDebug false (xs ++ [.setDebug b])).1 = (runDebug false xs).1 := by
  refine ⟨by simp only [runDebug_append, runDebug], by simp [runDebug_append, runDebug]⟩

/-- A stack as Go prints it: the word is the function on its seventh line. -/
example : (runDebug false [.debugPrint b!"" [b!"lost"], .setDebug true,
    .debugPrint b!"goroutine 1 [running]:\ndebug.Stack()\n\tstack.go:26 +0x5e\nhelper.DebugPrint()\n\thelper.go:27 +0x1\ngoast.f()\n\tnode.go:9 +0x2\nmain()\n" [b!"a", b!"b"],
    .setDebug false, .debugPrint b!"" [b!"lost"]]).1 = b!"a b \t \tnode.go:9\n" := by decide +kernel

end Goast
