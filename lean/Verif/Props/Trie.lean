import Verif.Model.Trie
import Verif.Proofs.Runes

/-!
# C50, C51: the trie

`AddText` and `FindText` walk the bytes at the rune starts of the key (`rangeBytes`); for ASCII keys
these are all its bytes (`rangeBytes_ascii`), for any key the first bytes of its runes (`C46_first_bytes`).
-/

namespace Goast
namespace Trie

variable {α : Type}

/-- A proper, non-empty prefix. -/
def ProperPrefix (p q : Bytes) : Prop := p ≠ [] ∧ p <+: q ∧ p ≠ q

theorem lookup_setChild (key k : UInt8) (v : Trie α) (l : List (UInt8 × Trie α)) :
    (setChild key v l).lookup k = if k = key then some v else l.lookup k := by
  induction l with
  | nil =>
    by_cases h : k = key
    · simp [setChild, h]
    · simp [setChild, List.lookup, h, beq_eq_false_iff_ne.2 h]
  | cons p l ih =>
    obtain ⟨k', t⟩ := p
    simp only [setChild]
    split
    · rename_i h
      rw [beq_iff_eq] at h
      subst h
      by_cases hk : k = key
      · subst hk; simp
      · simp [List.lookup, beq_eq_false_iff_ne.2 hk, hk]
    · rename_i h
      rw [beq_iff_eq] at h
      by_cases hk' : k = k'
      · subst hk'
        have : k ≠ key := fun e => h e.symm
        simp [this]
      · simp [List.lookup, beq_eq_false_iff_ne.2 hk', ih]

variable [Inhabited α]

/-- Every lookup after `addPath`, in terms of the lookup before. -/
theorem findPath_addPath (p : Bytes) (v : α) : ∀ (q : Bytes) (t : Trie α),
    findPath q (addPath p v t) =
      if q = p then (v, true)
      else if q ≠ [] ∧ q <+: p then (default, true)
      else findPath q t := by
  induction p with
  | nil =>
    intro q t
    cases q with
    | nil => simp [addPath, findPath, value]
    | cons b bs => simp [addPath, findPath, Trie.next, children]
  | cons b p ih =>
    intro q t
    cases q with
    | nil => simp [addPath, insertThen, findPath, value]
    | cons c q =>
      obtain ⟨tv, tc⟩ := t
      simp only [addPath, insertThen, findPath, Trie.next, children, lookup_setChild]
      by_cases hc : c = b
      · subst hc
        simp only [if_true, ih, List.cons.injEq, true_and, List.cons_prefix_cons]
        by_cases hq : q = p
        · simp [hq]
        · by_cases hn : q = []
          · subst hn
            have hp : ([] : Bytes) ≠ p := hq
            cases p with
            | nil => exact absurd rfl hp
            | cons b' p' =>
              simp only [ne_eq, not_true_eq_false, false_and, if_false]
              simp [findPath, value]
          · by_cases hp : q <+: p
            · simp [hq, hn, hp]
            · simp only [hq, hp, and_false, if_false]
              cases hl : tc.lookup c with
              | none =>
                cases q with
                | nil => exact absurd rfl hn
                | cons d q => simp [findPath, Trie.next, empty, children]
              | some ch =>
                cases q with
                | nil => exact absurd rfl hn
                | cons d q =>
                  simp [findPath, Trie.next, children]
      · simp [hc]

/-! ## C50 -/

/-- `FindText` after `AddText`, completely: the added key is found with its value; a key whose path is
a non-empty proper prefix of the added one is found with the zero value; every other key is found or
not found as before. -/
theorem C50_findText_addText (t : Trie α) (s q : Bytes) (v : α) :
    (rangeBytes q = rangeBytes s → (t.addText s v).findText q = (v, true)) ∧
    (ProperPrefix (rangeBytes q) (rangeBytes s) → (t.addText s v).findText q = (default, true)) ∧
    (rangeBytes q ≠ rangeBytes s → ¬ ProperPrefix (rangeBytes q) (rangeBytes s) →
      (t.addText s v).findText q = t.findText q) := by
  unfold addText findText ProperPrefix
  refine ⟨fun h => ?_, fun h => ?_, fun h h' => ?_⟩
  · rw [findPath_addPath, if_pos h]
  · rw [findPath_addPath, if_neg h.2.2, if_pos ⟨h.1, h.2.1⟩]
  · rw [findPath_addPath, if_neg h, if_neg (fun hh => h' ⟨hh.1, hh.2, h⟩)]

/-- What the three lookups by byte give after `AddText`, for every key and every query: the path of the key are the first bytes of its
runes, the path of the query are all its bytes, forwards or backwards. -/
theorem C50_byte_lookups (t : Trie α) {s path : Bytes} (hs : FirstBytes s path) (q : Bytes) (v : α) :
    (q = path → (t.addText s v).findByte q = (v, true)) ∧
    (ProperPrefix q path → (t.addText s v).findByte q = (default, true)) ∧
    (q ≠ path → ¬ ProperPrefix q path → (t.addText s v).findByte q = t.findByte q) ∧
    (t.addText s v).findTextReversely q = (t.addText s v).findByte q.reverse ∧
    (t.addText s v).findByteReversely q = (t.addText s v).findByte q.reverse := by
  rw [firstBytes_iff _ s path (Nat.le_refl _)] at hs
  subst hs
  unfold addText findByte ProperPrefix
  refine ⟨fun h => ?_, fun h => ?_, fun h h' => ?_, rfl, rfl⟩
  · rw [findPath_addPath, if_pos h]
  · rw [findPath_addPath, if_neg h.2.2, if_pos ⟨h.1, h.2.1⟩]
  · rw [findPath_addPath, if_neg h, if_neg (fun hh => h' ⟨hh.1, hh.2, h⟩)]

/-- The key `世a` is found by bytes under the path `e4 61` only. -/
example : FirstBytes b!"世a" [0xe4, 0x61] ∧ ((empty : Trie Nat).addText b!"世a" 7).findByte [0xe4, 0x61] = (7, true) ∧
    ((empty : Trie Nat).addText b!"世a" 7).findByteReversely [0x61, 0xe4] = (7, true) ∧
    ((empty : Trie Nat).addText b!"世a" 7).findByte b!"世a" = (0, false) := by
  refine ⟨?_, by decide +kernel, by decide +kernel, by decide +kernel⟩
  rw [firstBytes_iff _ _ _ (Nat.le_refl _)]
  decide +kernel

/-- The key just added is found. -/
theorem C50_find_added (t : Trie α) (s : Bytes) (v : α) :
    (t.addText s v).findText s = (v, true) := (C50_findText_addText t s s v).1 rfl

/-- For ASCII text the four lookups agree: by text, by bytes, and the reverse lookups of the
reversed text. -/
theorem C50_lookups_agree (t : Trie α) (s : Bytes) (h : Ascii s) :
    t.findByte s = t.findText s ∧ t.findTextReversely s.reverse = t.findText s ∧
    t.findByteReversely s.reverse = t.findText s := by
  simp [findByte, findText, findTextReversely, findByteReversely, rangeBytes_ascii s h]

theorem findPath_nil_false (q : Bytes) (h : q ≠ []) : findPath q (empty : Trie α) = (default, false) := by
  cases q with
  | nil => exact absurd rfl h
  | cons b q => simp [findPath, Trie.next, empty, children]

/-- The history of a trie decides every lookup: the last added key that has the looked-up path as a
prefix gives its value (if it is that path) or the zero value (if it is longer); a non-empty path that
is a prefix of no added key is not found.  (The empty key is the root: always found, and its value is
the last one added for an empty key.) -/
theorem C50_lookup_history (es : List (Bytes × α)) (q : Bytes) (hq : rangeBytes q ≠ []) :
    (ofEntries es).findText q =
      match es.reverse.find? (fun e => decide (rangeBytes q <+: rangeBytes e.1)) with
      | none => (default, false)
      | some e => if rangeBytes e.1 = rangeBytes q then (e.2, true) else (default, true) := by
  have gen : ∀ (es : List (Bytes × α)),
      findPath (rangeBytes q) (es.reverse.foldl (fun t kv => t.addText kv.1 kv.2) empty) =
      match es.find? (fun e => decide (rangeBytes q <+: rangeBytes e.1)) with
      | none => (default, false)
      | some e => if rangeBytes e.1 = rangeBytes q then (e.2, true) else (default, true) := by
    intro es
    induction es with
    | nil => simpa using findPath_nil_false _ hq
    | cons e es ih =>
      rw [List.reverse_cons, List.foldl_append, List.foldl_cons, List.foldl_nil]
      unfold addText at ih ⊢
      rw [findPath_addPath]
      by_cases h1 : rangeBytes q = rangeBytes e.1
      · simp [h1]
      · by_cases h2 : rangeBytes q <+: rangeBytes e.1
        · simp [h1, h2, hq, Ne.symm h1]
        · simp only [h1, h2, and_false, if_false, ih, List.find?_cons, decide_false]
  have := gen es.reverse
  rw [List.reverse_reverse] at this
  exact this

/-- Concrete instance: "go" is reset by "gofmt", "gofmt" is found, "x" is not. -/
example : ((ofEntries [(b!"go", 1), (b!"gofmt", 2)] : Trie Nat).findText b!"go" = (0, true)) ∧
    ((ofEntries [(b!"go", 1), (b!"gofmt", 2)] : Trie Nat).findText b!"gofmt" = (2, true)) ∧
    ((ofEntries [(b!"go", 1), (b!"gofmt", 2)] : Trie Nat).findText b!"x" = (0, false)) := by
  refine ⟨?_, ?_, ?_⟩ <;> decide +kernel

/-- Keys that differ only inside a rune collide, and a lookup by bytes misses what a lookup by text
finds. -/
theorem C50_multibyte_collision :
    ((empty : Trie Nat).addText b!"é" 7).findText b!"è" = (7, true) ∧
    ((empty : Trie Nat).addText b!"é" 7).findByte b!"é" = (0, false) := by
  constructor <;> decide +kernel

/-! ## C51 -/

/-- `newTrie` does not depend on the order in which the map is iterated, when the paths of its keys
are distinct and none is a (non-empty) proper prefix of another: every lookup gives the same answer. -/
theorem C51_order_independent (es es' : List (Bytes × α)) (hperm : es.Perm es')
    (hd : es.Pairwise fun a b => rangeBytes a.1 ≠ rangeBytes b.1)
    (hp : ∀ a ∈ es, ∀ b ∈ es, ¬ ProperPrefix (rangeBytes a.1) (rangeBytes b.1)) (q : Bytes) :
    (ofEntries es).findText q = (ofEntries es').findText q ∧
    (ofEntries es).findByte q = (ofEntries es').findByte q := by
  have swap : ∀ (p : Bytes) (a b : Bytes × α) (t : Trie α),
      rangeBytes a.1 ≠ rangeBytes b.1 → ¬ ProperPrefix (rangeBytes a.1) (rangeBytes b.1) →
      ¬ ProperPrefix (rangeBytes b.1) (rangeBytes a.1) →
      findPath p ((t.addText a.1 a.2).addText b.1 b.2) =
        findPath p ((t.addText b.1 b.2).addText a.1 a.2) := by
    intro p a b t hab h1 h2
    unfold addText
    simp only [findPath_addPath]
    by_cases pa : p = rangeBytes a.1
    · subst pa
      have : ¬ (rangeBytes a.1 ≠ [] ∧ rangeBytes a.1 <+: rangeBytes b.1) :=
        fun hh => h1 ⟨hh.1, hh.2, hab⟩
      simp [hab, this]
    · by_cases pb : p = rangeBytes b.1
      · subst pb
        have : ¬ (rangeBytes b.1 ≠ [] ∧ rangeBytes b.1 <+: rangeBytes a.1) :=
          fun hh => h2 ⟨hh.1, hh.2, Ne.symm hab⟩
        simp [Ne.symm hab, this]
      · by_cases xa : p ≠ [] ∧ p <+: rangeBytes a.1
        · simp [pa, pb, xa]
        · simp [pa, pb, xa]
  -- congruence of `addText` with respect to equal lookups
  have congr : ∀ (s : List (Bytes × α)) (t t' : Trie α), (∀ p, findPath p t = findPath p t') →
      ∀ p, findPath p (s.foldl (fun t kv => t.addText kv.1 kv.2) t) =
        findPath p (s.foldl (fun t kv => t.addText kv.1 kv.2) t') := by
    intro s
    induction s with
    | nil => intro t t' h p; exact h p
    | cons e s ih =>
      intro t t' h p
      simp only [List.foldl_cons]
      refine ih _ _ ?_ p
      intro p
      unfold addText
      simp only [findPath_addPath, h]
  have main : ∀ t t' : Trie α, (∀ p, findPath p t = findPath p t') → ∀ p,
      findPath p (es.foldl (fun t kv => t.addText kv.1 kv.2) t) =
        findPath p (es'.foldl (fun t kv => t.addText kv.1 kv.2) t') := by
    induction hperm with
    | nil => intro t t' h p; exact h p
    | cons x hperm ih =>
      intro t t' h p
      simp only [List.foldl_cons]
      refine ih (List.pairwise_cons.1 hd).2 (fun a ha b hb => hp a (by simp [ha]) b (by simp [hb]))
        _ _ ?_ p
      intro p
      unfold addText
      simp only [findPath_addPath, h]
    | swap x y l =>
      intro t t' h p
      simp only [List.foldl_cons]
      refine congr l _ _ ?_ p
      intro p
      have hxy : rangeBytes y.1 ≠ rangeBytes x.1 :=
        (List.pairwise_cons.1 hd).1 x (by simp)
      rw [swap p y x t hxy (hp y (by simp) x (by simp)) (hp x (by simp) y (by simp))]
      unfold addText
      simp only [findPath_addPath, h]
    | trans h1 h2 ih1 ih2 =>
      intro t t' h p
      rw [ih1 hd hp t t (fun _ => rfl) p]
      refine ih2 ?_ ?_ t t' h p
      · exact h1.pairwise hd (fun hab => Ne.symm hab)
      · intro a ha b hb
        exact hp a (h1.mem_iff.2 ha) b (h1.mem_iff.2 hb)
  exact ⟨main _ _ (fun _ => rfl) _, main _ _ (fun _ => rfl) _⟩

/-- The hypotheses are met by, for instance, the keys of the extractor's table. -/
example : ([(b!"(", 1), (b!"//", 2), (b!"/*", 3)] : List (Bytes × Nat)).Pairwise
    (fun a b => rangeBytes a.1 ≠ rangeBytes b.1) ∧
    ∀ a ∈ ([(b!"(", 1), (b!"//", 2), (b!"/*", 3)] : List (Bytes × Nat)),
      ∀ b ∈ ([(b!"(", 1), (b!"//", 2), (b!"/*", 3)] : List (Bytes × Nat)),
      ¬ ProperPrefix (rangeBytes a.1) (rangeBytes b.1) := by
  unfold ProperPrefix
  constructor <;> decide +kernel

/-- Otherwise the result can depend on the order: with "go" and "gofmt", the value of "go" survives
only if "gofmt" happens to be inserted first. -/
theorem C51_order_dependent : ∃ (es es' : List (Bytes × Nat)) (q : Bytes), es.Perm es' ∧
    (ofEntries es).findText q ≠ (ofEntries es').findText q := by
  refine ⟨[(b!"go", 1), (b!"gofmt", 2)], [(b!"gofmt", 2), (b!"go", 1)], b!"go", ?_, ?_⟩
  · exact List.Perm.swap _ _ _
  · decide +kernel

end Trie
end Goast
