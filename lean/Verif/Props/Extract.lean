import Verif.Proofs.Extract
import Verif.Proofs.Lexer

/-!
# C01-C08: splitting a text into nodes

All theorems hold in every heap `h` (whatever nodes exist already), for every byte string, and for every order
`ord` in which Go may iterate the map of openers.
-/

namespace Goast
open Heap

/-- The texts of the nodes `l`, concatenated. -/
def textOf (h : Heap) (l : List Addr) : Bytes := (l.map fun a => h.text (some a)).flatten

/-- Everything about `extract`, in terms of the linked list it returns. -/
theorem extract_nodes {ord : Nat → List (Bytes × Ext)} (ho : MapOrder ord) (h : Heap) (text : Bytes) :
    ∃ (ts : List Tok) (h' : Heap) (p : Ptr) (l : List Addr), extractOrd ord h text = some (h', p) ∧
      h' = h.extend (recs h.size ts) ∧ p = headPtr h.size ts ∧ l = List.range' h.size ts.length ∧
      Fwd h' p l ∧ Chain h' l ∧ l.map (data h') = ts.map (fun t => (t.line, t.kind, t.text)) ∧
      ts.map Tok.kt = (lexAll text).map Lexeme.kt ∧ LinesOK text [] ts ∧ texts ts = text ∧
      ts.map Tok.line = lineList 0 0 [] (ts.map Tok.text) := by
  obtain ⟨ts, e, k, ln, tx, lx⟩ := extract_spec h text
  refine ⟨ts, _, _, _, by rw [extractOrd_eq ho, e], rfl, rfl, rfl, ?_, chain_recs h ts, map_data_recs h ts, k, ln, tx, lx⟩
  have := fwd_recs h ts ts.length 0 (by omega)
  unfold headPtr
  by_cases hts : ts = []
  · subst hts; exact .nil
  · have : 0 < ts.length := List.length_pos_iff.2 hts
    simp_all

theorem textOf_eq {h : Heap} {l : List Addr} {ts : List Tok}
    (e : l.map (data h) = ts.map (fun t => (t.line, t.kind, t.text))) : textOf h l = texts ts := by
  have : l.map (fun a => h.text (some a)) = ts.map Tok.text := by
    have := congrArg (List.map fun x : Int × Kind × Bytes => x.2.2) e
    simpa [Function.comp_def, data] using this
  simp [textOf, texts, this]

/-! ## C01, C02, C03 -/

/-- The concatenated texts of the nodes are the text. -/
theorem C01_lossless {ord} (ho : MapOrder ord) (h : Heap) (text : Bytes) : ∃ h' p l,
    extractOrd ord h text = some (h', p) ∧ Fwd h' p l ∧ textOf h' l = text := by
  obtain ⟨ts, h', p, l, e, _, _, _, f, _, d, _, _, tx, _⟩ := extract_nodes ho h text
  exact ⟨h', p, l, e, f, by rw [textOf_eq d, tx]⟩

/-- Splitting never fails; the result is one complete finite chain, made of exactly the nodes that were added to
the heap, and no earlier node is changed. -/
theorem C02_total {ord} (ho : MapOrder ord) (h : Heap) (text : Bytes) : ∃ h' p l,
    extractOrd ord h text = some (h', p) ∧ Fwd h' p l ∧ Chain h' l ∧ Extends h h' ∧
    (∀ a, a ∈ l ↔ h.size ≤ a ∧ a < h'.size) ∧ (WF h → WF h') ∧ (Acyclic h → Acyclic h') := by
  obtain ⟨ts, h', p, l, e, eh, ep, el, f, c, d, _, _, tx, _⟩ := extract_nodes ho h text
  have hsz : h'.size = h.size + ts.length := by simp [eh]
  have hext : Extends h h' := by rw [eh]; exact extends_extend h _
  have hmem : ∀ a, a ∈ l ↔ h.size ≤ a ∧ a < h'.size := by
    intro a
    rw [el, hsz]
    simp
  refine ⟨h', p, l, e, f, c, hext, hmem, ?_, fun ac => acyclic_extends ac hext fun x h1 h2 => ?_⟩
  rotate_left
  · obtain ⟨l₁, l₂, e'⟩ := List.append_of_mem ((hmem x).2 ⟨h1, h2⟩)
    rw [e'] at c
    exact ⟨_, Fwd.drop l₁ c.fwd⟩
  · intro w
    have old : ∀ a, a < h.size → h'.next (some a) = h.next (some a) ∧ h'.prev (some a) = h.prev (some a) := by
      intro a ha; exact ⟨(hext.2 a ha).1, (hext.2 a ha).2.1⟩
    have oldv : ∀ a b, h.next (some a) = some b → a < h.size ∧ b < h.size := by
      intro a b hab
      constructor
      · rcases Nat.lt_or_ge a h.size with x | x
        · exact x
        · rw [next_of_ge x] at hab; cases hab
      · rcases Nat.lt_or_ge b h.size with x | x
        · exact x
        · have := (w.inverse a b).1 hab
          rw [prev_of_ge x] at this; cases this
    constructor
    · intro a b
      rcases Nat.lt_or_ge a h.size with ha | ha
      · rw [(old a ha).1]
        rcases Nat.lt_or_ge b h.size with hb | hb
        · rw [(old b hb).2]; exact w.inverse a b
        · constructor
          · intro hab; have := oldv a b hab; omega
          · intro hba
            obtain ⟨j, rfl⟩ : ∃ j, b = h.size + j := ⟨b - h.size, by omega⟩
            rw [eh] at hba
            rcases Nat.lt_or_ge j ts.length with hj | hj
            · rw [prev_recs h ts j hj] at hba
              split at hba
              · cases hba
              · simp at hba; omega
            · rw [prev_of_ge (by simp; omega)] at hba; cases hba
      · obtain ⟨i, rfl⟩ : ∃ i, a = h.size + i := ⟨a - h.size, by omega⟩
        rw [eh, next_recs]
        rcases Nat.lt_or_ge b h.size with hb | hb
        · rw [← eh, (old b hb).2]
          constructor
          · intro hh
            split at hh
            · simp at hh; omega
            · cases hh
          · intro hh
            have := oldv _ _ ((w.inverse _ _).2 hh)
            omega
        · obtain ⟨j, rfl⟩ : ∃ j, b = h.size + j := ⟨b - h.size, by omega⟩
          rcases Nat.lt_or_ge j ts.length with hj | hj
          · rw [prev_recs h ts j hj]
            by_cases hi : i + 1 < ts.length
            · by_cases hj0 : j = 0 <;> simp [hi, hj0] <;> omega
            · by_cases hj0 : j = 0
              · simp [hi, hj0]
              · simp only [hi, hj0, if_false, reduceCtorEq, Option.some.injEq, false_iff]; omega
          · rw [prev_of_ge (by simp; omega)]
            by_cases hi : i + 1 < ts.length <;> simp [hi]; omega
    · intro a
      rcases Nat.lt_or_ge a h.size with ha | ha
      · rw [(old a ha).1]; exact w.irrefl a
      · obtain ⟨i, rfl⟩ : ∃ i, a = h.size + i := ⟨a - h.size, by omega⟩
        rw [eh, next_recs]
        split <;> simp

/-- The order of map iteration does not matter. -/
theorem C03_deterministic {ord ord'} (ho : MapOrder ord) (ho' : MapOrder ord') (h : Heap) (text : Bytes) :
    extractOrd ord h text = extractOrd ord' h text := by
  rw [extractOrd_eq ho, extractOrd_eq ho']

/-- Some map orders that differ from each other. -/
example : MapOrder (fun i => if i % 2 = 0 then commonDeeperExtract else commonDeeperExtract.reverse) ∧
    commonDeeperExtract.reverse ≠ commonDeeperExtract := by
  refine ⟨fun i => ?_, by decide⟩
  dsimp only
  split
  · exact .refl _
  · exact List.reverse_perm _

/-! ## C04: the flat scanner -/

/-- The nodes are, in order, the pieces of the flat scanner: same texts, and the kind of each is `Comment` for a
closed comment and what `kind.New` makes of the text otherwise. -/
theorem C04_flat {ord} (ho : MapOrder ord) (h : Heap) (text : Bytes) : ∃ h' p l,
    extractOrd ord h text = some (h', p) ∧ Fwd h' p l ∧
    l.map (fun a => (h'.kind (some a), h'.text (some a))) =
      (lexAll text).map (fun x => (if x.comment then .comment else Kind.new x.text, x.text)) := by
  obtain ⟨ts, h', p, l, e, _, _, _, f, _, d, k, _, _⟩ := extract_nodes ho h text
  refine ⟨h', p, l, e, f, ?_⟩
  have := congrArg (List.map fun x : Int × Kind × Bytes => x.2) d
  simp only [List.map_map, Function.comp_def, data] at this
  rw [this]
  exact k

/-! ## C05, C07: shape and kind of nodes -/

/-- The nodes of a call that is known to have returned. -/
theorem extract_known {ord} (ho : MapOrder ord) {h h' : Heap} {text : Bytes} {p : Ptr} {l : List Addr}
    (e : extractOrd ord h text = some (h', p)) (f : Fwd h' p l) :
    ∃ ts : List Tok, l.map (data h') = ts.map (fun t => (t.line, t.kind, t.text)) ∧
      ts.map Tok.kt = (lexAll text).map Lexeme.kt ∧ LinesOK text [] ts ∧ texts ts = text := by
  obtain ⟨ts, h'', p', l', e', _, _, _, f', _, d, k, ln, tx, _⟩ := extract_nodes ho h text
  rw [e] at e'
  cases e'
  cases f.det f'
  exact ⟨ts, d, k, ln, tx⟩

/-- Splitting the list of nodes splits the list of pieces alike. -/
theorem known_split {h' : Heap} {l₁ l₂ : List Addr} {ts : List Tok} {ls : List Lexeme}
    (d : (l₁ ++ l₂).map (data h') = ts.map (fun t => (t.line, t.kind, t.text)))
    (k : ts.map Tok.kt = ls.map Lexeme.kt) :
    ∃ t₁ t₂ s₁ s₂, ts = t₁ ++ t₂ ∧ ls = s₁ ++ s₂ ∧ l₁.map (data h') = t₁.map (fun t => (t.line, t.kind, t.text)) ∧
      l₂.map (data h') = t₂.map (fun t => (t.line, t.kind, t.text)) ∧ t₁.map Tok.kt = s₁.map Lexeme.kt ∧
      t₂.map Tok.kt = s₂.map Lexeme.kt := by
  rw [List.map_append] at d
  obtain ⟨t₁, t₂, rfl, d1, d2⟩ := List.map_eq_append_iff.1 d.symm
  rw [List.map_append] at k
  obtain ⟨s₁, s₂, rfl, k1, k2⟩ := List.map_eq_append_iff.1 k.symm
  exact ⟨t₁, t₂, s₁, s₂, rfl, rfl, d1.symm, d2.symm, k1.symm, k2.symm⟩

theorem pieces_eq_texts {ts : List Tok} {ls : List Lexeme} (k : ts.map Tok.kt = ls.map Lexeme.kt) :
    pieces ls = texts ts := by
  have := congrArg (List.map fun x : Kind × Bytes => x.2) k
  simp only [List.map_map, Function.comp_def, Tok.kt, Lexeme.kt] at this
  simp [pieces, texts, ← this]

/-- One node with everything before and behind it. -/
theorem known_at {ord} (ho : MapOrder ord) {h h' : Heap} {text : Bytes} {p : Ptr} {l₁ l₂ : List Addr} {a : Addr}
    (e : extractOrd ord h text = some (h', p)) (f : Fwd h' p (l₁ ++ a :: l₂)) :
    ∃ s₁ x s₂, lexAll text = s₁ ++ x :: s₂ ∧ h'.text (some a) = x.text ∧
      h'.kind (some a) = (if x.comment then .comment else Kind.new x.text) ∧ (l₂ = [] ↔ s₂ = []) ∧
      PieceOK x (s₂ = []) ∧ textOf h' l₁ = pieces s₁ := by
  obtain ⟨ts, d, k, _, _⟩ := extract_known ho e f
  obtain ⟨t₁, t₂, s₁, s₂, rfl, es, d1, d2, k1, k2⟩ := known_split d k
  rcases t₂ with _ | ⟨t, t₂⟩
  · simp at d2
  rcases s₂ with _ | ⟨x, s₂⟩
  · simp at k2
  simp only [List.map_cons, List.cons.injEq] at d2 k2
  have d3 := congrArg (fun x : Int × Kind × Bytes => x.2.2) d2.1
  have d4 := congrArg (fun x : Int × Kind × Bytes => x.2.1) d2.1
  have k3 := congrArg (fun x : Kind × Bytes => x.2) k2.1
  have k4 := congrArg (fun x : Kind × Bytes => x.1) k2.1
  simp only [data, Tok.kt, Lexeme.kt] at d3 d4 k3 k4
  refine ⟨s₁, x, s₂, es, by rw [d3, k3], by rw [d4, k4], ?_, ?_, ?_⟩
  · have a1 := congrArg List.length d2.2
    have a2 := congrArg List.length k2.2
    simp at a1 a2
    rw [← List.length_eq_zero_iff, ← List.length_eq_zero_iff, a1, a2]
  · exact good_split (lex_good _ _ _ (bufInv_nil _)) es
  · rw [textOf_eq d1, pieces_eq_texts k1]

/-- No node is empty; a node is one separator byte, or a word without separators and quotes, or begins like a
comment or literal. -/
theorem C05_shape {ord} (ho : MapOrder ord) {h h' : Heap} {text : Bytes} {p : Ptr} {l : List Addr}
    (e : extractOrd ord h text = some (h', p)) (f : Fwd h' p l) (a : Addr) (ha : a ∈ l) :
    (∃ c ∈ separatorBytes, h'.text (some a) = [c]) ∨ IsWord (h'.text (some a)) ∨
    (∃ q ∈ [b!"//", b!"/*", b!"\"", b!"`"], q <+: h'.text (some a)) := by
  obtain ⟨l₁, l₂, rfl⟩ := List.append_of_mem ha
  obtain ⟨s₁, x, s₂, _, ht, _, _, hp, _⟩ := known_at ho e f
  rw [ht]
  unfold PieceOK at hp
  have hq : ∀ (q : UInt8), x.text.head? = some q → [q] <+: x.text := by
    intro q hx
    rcases hx' : x.text with _ | ⟨b, t⟩
    · simp [hx'] at hx
    · simp [hx'] at hx; simp [hx]
  split at hp
  · rcases hp with ⟨b, hb, _⟩ | ⟨hb, _⟩
    · exact .inr (.inr ⟨_, by simp, [].append_nil ▸ (⟨b, by rw [hb]; rfl⟩ : [47, 47] <+: x.text)⟩)
    · exact .inr (.inr ⟨_, by simp, hb⟩)
  · rcases hp with hp | hp | hp | hp | ⟨_, hp | hp⟩
    · exact .inl hp
    · exact .inr (.inl hp)
    · exact .inr (.inr ⟨[34], by simp, hq _ hp⟩)
    · exact .inr (.inr ⟨[96], by simp, hq _ hp⟩)
    · exact .inr (.inr ⟨_, by simp, hp⟩)
    · exact .inr (.inr ⟨_, by simp, hp⟩)

/-- **C05** No node of the tokenised text is empty. -/
theorem C05_nonempty {ord} (ho : MapOrder ord) {h h' : Heap} {text : Bytes} {p : Ptr} {l : List Addr}
    (e : extractOrd ord h text = some (h', p)) (f : Fwd h' p l) (a : Addr) (ha : a ∈ l) :
    h'.text (some a) ≠ [] := by
  intro hz
  rcases C05_shape ho e f a ha with ⟨c, _, hc⟩ | hw | ⟨q, hq, hp⟩
  · simp [hz] at hc
  · exact hw.1 hz
  · rw [hz] at hp
    simp at hq
    rcases hq with rfl | rfl | rfl | rfl <;> simp at hp

/-- The kind of a node is `kind.New` of its text, or it is `Comment` and the text is a complete comment. -/
theorem C07_kind {ord} (ho : MapOrder ord) {h h' : Heap} {text : Bytes} {p : Ptr} {l : List Addr}
    (e : extractOrd ord h text = some (h', p)) (f : Fwd h' p l) (a : Addr) (ha : a ∈ l) :
    (h'.kind (some a) = .comment ∧ IsComment (h'.text (some a))) ∨
    (h'.kind (some a) = Kind.new (h'.text (some a))) := by
  obtain ⟨l₁, l₂, rfl⟩ := List.append_of_mem ha
  obtain ⟨s₁, x, s₂, _, ht, hk, _, hp, _⟩ := known_at ho e f
  rw [ht, hk]
  unfold PieceOK at hp
  split at hp
  · rename_i hc; left; simp [hc, hp]
  · rename_i hc; right; simp [hc]

/-- A node that begins like a comment is one, unless it is the last node. -/
theorem C07_comment_kind {ord} (ho : MapOrder ord) {h h' : Heap} {text : Bytes} {p : Ptr} {l₁ l₂ : List Addr} {a : Addr}
    (e : extractOrd ord h text = some (h', p)) (f : Fwd h' p (l₁ ++ a :: l₂)) (hl : l₂ ≠ [])
    (hc : b!"//" <+: h'.text (some a) ∨ b!"/*" <+: h'.text (some a)) :
    h'.kind (some a) = .comment ∧ IsComment (h'.text (some a)) := by
  obtain ⟨s₁, x, s₂, _, ht, hk, hn, hp, _⟩ := known_at ho e f
  rw [ht] at hc ⊢
  rw [hk]
  unfold PieceOK at hp
  split at hp
  · rename_i hcm; simp [hcm, hp]
  · exfalso
    rcases hp with ⟨c, hcs, hp⟩ | hp | hp | hp | ⟨hp, _⟩
    · rw [hp] at hc
      simp at hc
    · exact hc.elim hp.2.2.1 hp.2.2.2
    · rcases hc with ⟨t, hc⟩ | ⟨t, hc⟩ <;> rw [← hc] at hp <;> simp at hp
    · rcases hc with ⟨t, hc⟩ | ⟨t, hc⟩ <;> rw [← hc] at hp <;> simp at hp
    · exact hl (hn.2 hp)

/-! ## C06: line numbers -/

/-- The line of a node is the number of newlines before it, except that the line of a `(` or `{` may be smaller
and that the last node may have the line of the end of the text. -/
theorem C06_lines {ord} (ho : MapOrder ord) {h h' : Heap} {text : Bytes} {p : Ptr} {l₁ l₂ : List Addr} {a : Addr}
    (e : extractOrd ord h text = some (h', p)) (f : Fwd h' p (l₁ ++ a :: l₂)) :
    h'.line (some a) = (textOf h' l₁).count 10 ∨
    ((h'.text (some a) = b!"(" ∨ h'.text (some a) = b!"{") ∧ 0 ≤ h'.line (some a) ∧
      h'.line (some a) ≤ (textOf h' l₁).count 10) ∨
    (l₂ = [] ∧ h'.line (some a) = text.count 10) := by
  obtain ⟨ts, d, k, ln, tx⟩ := extract_known ho e f
  obtain ⟨t₁, t₂, s₁, s₂, rfl, es, d1, d2, k1, k2⟩ := known_split d k
  rcases t₂ with _ | ⟨t, t₂⟩
  · simp at d2
  simp only [List.map_cons, List.cons.injEq] at d2
  have d3 := congrArg (fun x : Int × Kind × Bytes => x.2.2) d2.1
  have d4 := congrArg (fun x : Int × Kind × Bytes => x.1) d2.1
  simp only [data] at d3 d4
  have ln' : ∀ (t₁ : List Tok) (pre : Bytes), LinesOK text pre (t₁ ++ t :: t₂) →
      LinesOK text (pre ++ texts t₁) (t :: t₂) := by
    intro t₁
    induction t₁ with
    | nil => intro pre hh; simpa using hh
    | cons y t₁ ih => intro pre hh; simpa using ih _ hh.2
  have := (ln' _ _ ln).1
  rw [List.nil_append, ← textOf_eq d1] at this
  rw [d3, d4]
  rcases this with this | this | ⟨this, hl⟩
  · exact .inl this
  · exact .inr (.inl this)
  · refine .inr (.inr ⟨?_, hl⟩)
    rw [textOf_eq d1, ← tx] at this
    simp at this
    rcases hl2 : l₂ with _ | ⟨b, l₂'⟩
    · rfl
    · exfalso
      have hb : b ∈ l₁ ++ a :: l₂ := by simp [hl2]
      have hne := C05_nonempty ho e f b hb
      have := textOf_eq d2.2
      rw [‹texts t₂ = []›, hl2] at this
      simp [textOf] at this
      exact hne this.1

/-- Every line, exactly: the specification is `lineList` of Spec/Lines. -/
theorem C06_exact {ord} (ho : MapOrder ord) {h h' : Heap} {text : Bytes} {p : Ptr} {l : List Addr}
    (e : extractOrd ord h text = some (h', p)) (f : Fwd h' p l) :
    l.map (fun a => h'.line (some a)) = lineList 0 0 [] (l.map fun a => h'.text (some a)) := by
  obtain ⟨ts, h'', p', l', e', _, _, _, f', _, d, _, _, _, lx⟩ := extract_nodes ho h text
  rw [e] at e'
  cases e'
  cases f.det f'
  have d1 := congrArg (List.map fun x : Int × Kind × Bytes => x.1) d
  have d2 := congrArg (List.map fun x : Int × Kind × Bytes => x.2.2) d
  simp only [List.map_map, Function.comp_def, data] at d1 d2
  rw [d1, d2]
  exact lx

/-- A bracket directly behind a word, as in a call or a parameter list, has its own line. -/
theorem C06_bracket_behind_word {ord} (ho : MapOrder ord) {h h' : Heap} {text : Bytes} {p : Ptr} {l₁ l₂ : List Addr} {w a : Addr}
    (e : extractOrd ord h text = some (h', p)) (f : Fwd h' p (l₁ ++ w :: a :: l₂)) (hw : IsWord (h'.text (some w)))
    (ha : h'.text (some a) = b!"(" ∨ h'.text (some a) = b!"{") :
    h'.line (some a) = (textOf h' (l₁ ++ [w])).count 10 := by
  have := C06_exact ho e f
  simp only [List.map_append, List.map_cons] at this
  obtain ⟨last, up, U, xs, hx, e2⟩ := lineList_append (l₁.map fun a => h'.text (some a))
    (h'.text (some w) :: h'.text (some a) :: l₂.map fun a => h'.text (some a)) 0 0 [] (by simp [UpOK])
  rw [e2, lineList_word hw U] at this
  have hh := (List.append_inj this (by simpa using hx.symm)).2
  have ha' : h'.text (some a) = [40] ∨ h'.text (some a) = [123] := ha
  have hh2 : h'.line (some a) = 0 + countNL (l₁.map fun a => h'.text (some a)).flatten := by
    rcases ha' with ha' | ha' <;> rw [ha', lineList_open (by simp)] at hh <;> exact (List.cons.inj (List.cons.inj hh).2).1
  have hw0 : (h'.text (some w)).count 10 = 0 := by
    rw [List.count_eq_zero]
    intro h
    exact (hw.2.1 10 h).1 (by decide)
  rw [hh2]
  simp [textOf, countNL, hw0]

/-- Lines of a text with nested brackets, a string over two lines and a comment that never ends. -/
example : lineList 0 0 [] ((lexAll b!"f(\n{\n\n({x} \"\n\" {}))\n)(/*\n").map Lexeme.text) =
    [0, 0, 0, 0, 1, 2, 1, 3, 3, 3, 3, 3, 4, 3, 4, 4, 4, 4, 5, 1, 6] := by decide +kernel

/-- `(` in the third line: its node says line 0. -/
theorem C06_paren_line_stale : ∃ h' p l a, extract Heap.empty b!"\n\n(" = some (h', p) ∧ Fwd h' p l ∧ a ∈ l ∧
    h'.text (some a) = b!"(" ∧ h'.line (some a) = 0 := by
  obtain ⟨h', p, e⟩ : ∃ h' p, extract Heap.empty b!"\n\n(" = some (h', p) := by
    obtain ⟨h', p, l, e, _⟩ := C01_lossless (ord := fun _ => commonDeeperExtract) (fun _ => .refl _) Heap.empty b!"\n\n("
    exact ⟨h', p, e⟩
  have e2 : extract Heap.empty b!"\n\n(" = some (⟨[⟨0, .newLine, b!"\n", none, some 1⟩, ⟨1, .newLine, b!"\n", some 0, some 2⟩,
    ⟨0, .parenL, b!"(", some 1, none⟩]⟩, some 0) := by decide +kernel
  refine ⟨_, _, [0, 1, 2], 2, e2, ?_, by simp, rfl, rfl⟩
  exact .cons (by decide) (.cons (by decide) (.cons (by decide) .nil))

/-! ## C08: comments and literals are single nodes

`l₁` are the nodes of the text before; any boundary between nodes will do, in particular the very beginning. -/

theorem known_lit {ord} (ho : MapOrder ord) {h h' : Heap} {pre rest : Bytes} {p : Ptr} {l₁ l₂ : List Addr}
    (e : extractOrd ord h (pre ++ rest) = some (h', p)) (f : Fwd h' p (l₁ ++ l₂)) (hpre : textOf h' l₁ = pre) :
    l₂.map (fun a => (h'.kind (some a), h'.text (some a))) = (lexAll rest).map Lexeme.kt := by
  obtain ⟨ts, d, k, _, tx⟩ := extract_known ho e f
  obtain ⟨t₁, t₂, s₁, s₂, rfl, es, d1, d2, k1, k2⟩ := known_split d k
  have h1 : texts t₁ = pre := by rw [← textOf_eq d1, hpre]
  have h2 : texts t₂ = rest := by
    rw [texts_append, h1] at tx
    exact List.append_cancel_left tx
  have h3 : pieces s₂ = rest := by rw [pieces_eq_texts k2, h2]
  have h4 := lexAll_restart es
  rw [h3] at h4
  have := congrArg (List.map fun x : Int × Kind × Bytes => x.2) d2
  simp only [List.map_map, Function.comp_def, data] at this
  rw [this, h4]
  exact k2

/-- The node at the boundary, when the scanner finds one piece there. -/
theorem known_lit_node {ord} (ho : MapOrder ord) {h h' : Heap} {pre rest post : Bytes} {p : Ptr} {l₁ l₂ : List Addr}
    (e : extractOrd ord h (pre ++ rest) = some (h', p)) (f : Fwd h' p (l₁ ++ l₂)) (hpre : textOf h' l₁ = pre)
    {x : Lexeme} {ls : List Lexeme} (hx : lexAll rest = x :: ls) (hr : rest = x.text ++ post) :
    ∃ a l₃, l₂ = a :: l₃ ∧ h'.text (some a) = x.text ∧
      h'.kind (some a) = (if x.comment then .comment else Kind.new x.text) ∧ textOf h' l₃ = post := by
  have := known_lit ho e f hpre
  rw [hx] at this
  rcases l₂ with _ | ⟨a, l₃⟩
  · simp at this
  · simp only [List.map_cons, List.cons.injEq, Lexeme.kt, Prod.mk.injEq] at this
    refine ⟨a, l₃, rfl, this.1.2, this.1.1, ?_⟩
    have h2 := congrArg (List.map fun x : Kind × Bytes => x.2) this.2
    simp only [List.map_map, Function.comp_def] at h2
    rw [textOf, h2]
    have h3 := pieces_lexAll rest
    rw [hx, hr, pieces_cons] at h3
    exact List.append_cancel_left h3

/-- **C08** Where the nodes before it end, a line comment is one node of kind `Comment`, up to the end of the line and without the line feed. -/
theorem C08_line_comment {ord} (ho : MapOrder ord) {h h' : Heap} {pre body post : Bytes} {p : Ptr} {l₁ l₂ : List Addr}
    (e : extractOrd ord h (pre ++ (b!"//" ++ body ++ b!"\n" ++ post)) = some (h', p)) (f : Fwd h' p (l₁ ++ l₂))
    (hpre : textOf h' l₁ = pre) (hb : 10 ∉ body) :
    ∃ a l₃, l₂ = a :: l₃ ∧ h'.text (some a) = b!"//" ++ body ∧ h'.kind (some a) = .comment ∧
      textOf h' l₃ = b!"\n" ++ post := by
  refine known_lit_node ho e f hpre (x := ⟨b!"//" ++ body, true⟩) (ls := ⟨[10], false⟩ :: lexAll post) ?_ (by simp)
  have := lex_line (47 :: body) post (by simpa using hb) [47]
  simpa [lexAll, lex, word] using this

/-- The comment ends at the first `*/` that ends behind the byte after the opening slash: `body` and the `*` around it
hold no `*/`.  (So `/*/` is a complete comment for this package.) -/
theorem C08_block_comment {ord} (ho : MapOrder ord) {h h' : Heap} {pre body post : Bytes} {p : Ptr} {l₁ l₂ : List Addr}
    (e : extractOrd ord h (pre ++ (b!"/*" ++ body ++ b!"*/" ++ post)) = some (h', p)) (f : Fwd h' p (l₁ ++ l₂))
    (hpre : textOf h' l₁ = pre) (hb : ¬ b!"*/" <:+: b!"*" ++ body ++ b!"*") :
    ∃ a l₃, l₂ = a :: l₃ ∧ h'.text (some a) = b!"/*" ++ body ++ b!"*/" ∧ h'.kind (some a) = .comment ∧
      textOf h' l₃ = post := by
  refine known_lit_node ho e f hpre (x := ⟨b!"/*" ++ body ++ b!"*/", true⟩) (ls := lexAll post) ?_ (by simp)
  have := lex_block post (42 :: body ++ [42]) [47] (by simp [List.getLast?_cons]) ?_
  · simpa [lexAll, lex, word] using this
  · intro x y hxy hlast
    rcases x with _ | ⟨x0, x⟩
    · simp at hxy
    · obtain ⟨u, hu⟩ := List.getLast?_eq_some_iff.1 hlast
      apply hb
      rcases u with _ | ⟨u0, u⟩
      · simp at hu
      · simp at hu
        refine ⟨u, y, ?_⟩
        have h3 : x0 :: x = u ++ [42] := hu.2
        have h4 : [42] ++ body ++ [42] = (x0 :: x) ++ 47 :: y := hxy
        rw [h4, h3]
        simp

/-- A string literal in which every `"` is escaped and which does not end in a backslash. -/
theorem C08_string {ord} (ho : MapOrder ord) {h h' : Heap} {pre body post : Bytes} {p : Ptr} {l₁ l₂ : List Addr}
    (e : extractOrd ord h (pre ++ (b!"\"" ++ body ++ b!"\"" ++ post)) = some (h', p)) (f : Fwd h' p (l₁ ++ l₂))
    (hpre : textOf h' l₁ = pre) (hb : body.getLast? ≠ some 92)
    (hq : ∀ x y, body = x ++ 34 :: y → x.getLast? = some 92) :
    ∃ a l₃, l₂ = a :: l₃ ∧ h'.text (some a) = b!"\"" ++ body ++ b!"\"" ∧ h'.kind (some a) = .string ∧
      textOf h' l₃ = post := by
  have := known_lit_node ho e f hpre (post := post) (x := ⟨b!"\"" ++ body ++ b!"\"", false⟩) (ls := lexAll post) ?_ (by simp)
  · obtain ⟨a, l₃, h1, h2, h3, h4⟩ := this
    refine ⟨a, l₃, h1, h2, ?_, h4⟩
    rw [h3, if_neg (by simp)]
    exact kind_quote 34 (.inl rfl) _ rfl
  · have := lex_str post body [34] (by simp) ?_ ?_
    · simpa [lexAll, lex, word] using this
    · rcases body with _ | ⟨c, body⟩
      · simp
      · simpa [List.getLast?_cons_cons] using hb
    · intro x y hxy
      have := hq x y hxy
      rcases x with _ | ⟨c, x⟩
      · simp at this
      · simpa [List.getLast?_cons_cons] using this

/-- **C08** Where the nodes before it end, a raw string literal is one node of kind `String`, quotes included, whatever lies between them. -/
theorem C08_raw_string {ord} (ho : MapOrder ord) {h h' : Heap} {pre body post : Bytes} {p : Ptr} {l₁ l₂ : List Addr}
    (e : extractOrd ord h (pre ++ (b!"`" ++ body ++ b!"`" ++ post)) = some (h', p)) (f : Fwd h' p (l₁ ++ l₂))
    (hpre : textOf h' l₁ = pre) (hb : 96 ∉ body) :
    ∃ a l₃, l₂ = a :: l₃ ∧ h'.text (some a) = b!"`" ++ body ++ b!"`" ∧ h'.kind (some a) = .string ∧
      textOf h' l₃ = post := by
  have := known_lit_node ho e f hpre (post := post) (x := ⟨b!"`" ++ body ++ b!"`", false⟩) (ls := lexAll post) ?_ (by simp)
  · obtain ⟨a, l₃, h1, h2, h3, h4⟩ := this
    refine ⟨a, l₃, h1, h2, ?_, h4⟩
    rw [h3, if_neg (by simp)]
    exact kind_quote 96 (.inr rfl) _ rfl
  · have := lex_raw post body [96] hb
    simpa [lexAll, lex, word] using this

/-- The hypotheses about the body are met by ordinary comments and literals. -/
example : (10 ∉ b!" a comment") ∧ (¬ b!"*/" <:+: b!"*" ++ b!" x / * y " ++ b!"*") ∧
    (96 ∉ b!"raw \" // not a comment") := by decide

/-- In code, a boundary lies before every opener: here behind `x `, and the literal is one node. -/
example : ((extract Heap.empty b!"x \"a // b\" y").map fun r => r.1.cells.map (·.text)) =
    some [b!"x", b!" ", b!"\"a // b\"", b!" ", b!"y"] := by decide +kernel

/-- Kinds and texts of the nodes of a text. -/
def nodesOfText (text : Bytes) : Option (List (Kind × Bytes)) := (extract Heap.empty text).map fun r => r.1.cells.map fun c => (c.kind, c.text)

/-- **C08** Known trap: rune literals are not known, so the quote in `'"'` opens a string. -/
theorem C08_rune_quote : nodesOfText b!"c == '\"' || s == \"x\"" =
    some [(.raw, b!"c"), (.space, b!" "), (.symbol, b!"=="), (.space, b!" "), (.raw, b!"'"), (.string, b!"\"' || s == \""), (.raw, b!"x"),
      (.string, b!"\"")] := by decide +kernel

/-- **C08** Known trap: a string that ends with an escaped backslash is not closed (`hb` in `C08_string`). -/
theorem C08_escaped_backslash : nodesOfText b!"s = \"\\\\\"; x" =
    some [(.raw, b!"s"), (.space, b!" "), (.symbol, b!"="), (.space, b!" "), (.string, b!"\"\\\\\"; x")] := by decide +kernel

/-- **C08** Known trap: `/*/` is taken for a whole comment (`hb` in `C08_block_comment`). -/
theorem C08_overlap : nodesOfText b!"/*/ x */" =
    some [(.comment, b!"/*/"), (.space, b!" "), (.raw, b!"x"), (.space, b!" "), (.symbol, b!"*/")] := by decide +kernel

/-- **C08** Known trap: a line comment that ends the text without a line break does not get the kind of a comment. -/
theorem C08_unterminated : nodesOfText b!"x // c" = some [(.raw, b!"x"), (.space, b!" "), (.raw, b!"// c")] := by decide +kernel

end Goast
