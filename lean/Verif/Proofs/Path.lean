import Verif.Model.Path
import Verif.Spec.Path

/-! # Go's `filepath.Clean`, `Dir`, `Base` and `Ext` against the meaning of paths (Spec/Path) -/

set_option linter.unusedSimpArgs false
set_option linter.unusedVariables false

namespace Goast.PathSpec

open Goast.Path

theorem parts_ne : ∀ p, parts p ≠ []
  | [] => by simp [parts]
  | c :: r => by
    simp only [parts]
    split
    · simp
    · split <;> simp

theorem parts_append : ∀ (a b : Bytes), parts (a ++ 47 :: b) = parts a ++ parts b
  | [], b => by simp [parts]
  | c :: r, b => by
    have ih := parts_append r b
    simp only [List.cons_append, parts]
    split
    · simp [ih]
    · cases h : parts r with
      | nil => exact absurd h (parts_ne r)
      | cons p ps => simp [ih, h]

theorem parts_plain : ∀ (n : Bytes), (47 : UInt8) ∉ n → parts n = [n]
  | [], _ => by simp [parts]
  | c :: r, h => by
    have h1 : c ≠ 47 := fun e => h (by simp [e])
    have h2 : (47 : UInt8) ∉ r := fun e => h (by simp [e])
    simp [parts, h1, parts_plain r h2]

/-- The place reached from `s`. -/
def walk (s : List Bytes) (p : Bytes) : List Bytes := (parts p).foldl step s

theorem place_eq (cwd : List Bytes) (p : Bytes) : place cwd p = walk (if p.head? = some 47 then [] else cwd) p := rfl

theorem walk_append (s : List Bytes) (a b : Bytes) : walk s (a ++ 47 :: b) = walk (walk s a) b := by
  simp [walk, parts_append]

@[simp] theorem walk_nil (s : List Bytes) : walk s [] = s := by simp [walk, parts, step]

theorem walk_slash (s : List Bytes) (b : Bytes) : walk s (47 :: b) = walk s b := by simpa using walk_append s [] b

theorem walk_plain (s : List Bytes) (n : Bytes) (h : (47 : UInt8) ∉ n) : walk s n = step s n := by
  simp [walk, parts_plain n h]

/-- A name: what is neither empty nor `.` nor `..` and has no separator. -/
def IsName (n : Bytes) : Prop := n ≠ [] ∧ (47 : UInt8) ∉ n ∧ n ≠ b!"." ∧ n ≠ b!".."

theorem walk_name (s : List Bytes) {n : Bytes} (h : IsName n) : walk s n = s ++ [n] := by
  rw [walk_plain s n h.2.1]
  simp [step, h.1, h.2.2.1, h.2.2.2]

theorem walk_up (s : List Bytes) : walk s b!".." = s.dropLast := by
  rw [walk_plain _ _ (by decide)]
  simp [step]

/-- The separator put before a new part. -/
def sep (o : Bytes) : Bytes := if o = [] ∨ o = [47] then [] else [47]

theorem walk_sep (s : List Bytes) (o n : Bytes) : walk s (o ++ sep o ++ n) = walk (walk s o) n := by
  unfold sep
  split
  · rename_i h
    rcases h with rfl | rfl
    · simp
    · simpa [walk_slash] using walk_slash s n
  · simpa using walk_append s o n

/-- The buffer of `Clean`: a beginning that `..` cannot take back, and names. -/
inductive Out (B : Bytes) : Bytes → List Bytes → Prop
  | nil : Out B B []
  | snoc {o ns n} : Out B o ns → IsName n → Out B (o ++ sep o ++ n) (n :: ns)

theorem Out.length {B o ns} (h : Out B o ns) : B.length + ns.length ≤ o.length := by
  induction h with
  | nil => simp
  | snoc ho hn ih =>
    have := List.length_pos_iff.2 hn.1
    simp only [List.length_append, List.length_cons]; omega

theorem Out.head {B o ns} (h : Out B o ns) (hb : B.head? ≠ some 47) : o.head? ≠ some 47 := by
  induction h with
  | nil => exact hb
  | @snoc o ns n ho hn ih =>
    cases o with
    | cons c r => simpa using ih
    | nil =>
      cases n with
      | nil => exact absurd rfl hn.1
      | cons c r =>
        simp only [sep, true_or, if_true, List.nil_append, List.head?_cons, ne_eq, Option.some.injEq]
        intro e; exact hn.2.1 (by simp [e])

theorem Out.head' {B o ns} (h : Out B o ns) (hb : B.head? = some 47) : o.head? = some 47 := by
  induction h with
  | nil => exact hb
  | @snoc o ns n ho hn ih =>
    cases o with
    | cons c r => simpa using ih
    | nil => simp at ih

theorem Out.sep_nil {B o ns} (h : Out B o ns) (hb : B = [47] ∨ B.head? ≠ some 47) (hs : sep o = []) : o.length = B.length := by
  have hl := h.length
  have : o = [] ∨ o = [47] := by
    unfold sep at hs; split at hs
    · assumption
    · simp at hs
  rcases this with rfl | rfl
  · have : B.length = 0 := by
      have : B.length + ns.length ≤ 0 := hl
      omega
    simp [this]
  · rcases hb with rfl | hb
    · rfl
    · exact absurd rfl (h.head hb)

theorem getD_right (a b : Bytes) (k : Nat) : (a ++ b).getD (a.length + k) 0 = b.getD k 0 := by
  rw [List.getD_eq_getElem?_getD, List.getD_eq_getElem?_getD, List.getElem?_append_right (by omega)]
  simp

theorem backUp_last (o n : Bytes) (d : Nat) (hn : (47 : UInt8) ∉ n) (hd : d ≤ o.length) (hs : sep o = [] → o.length = d) :
    ∀ k, 1 ≤ k → k ≤ n.length → backUp (o ++ sep o ++ n) d ((o ++ sep o).length + k) = o.length
  | 0, h, _ => by omega
  | k + 1, _, hk => by
    have hget : isSep ((o ++ sep o ++ n).getD ((o ++ sep o).length + k) 0) = false := by
      rw [getD_right]
      have : n.getD k 0 ∈ n := by
        rw [List.getD_eq_getElem?_getD, List.getElem?_eq_getElem (by omega)]
        exact List.getElem_mem _
      simp only [isSep, beq_eq_false_iff_ne, ne_eq]
      intro e; rw [e] at this; exact hn this
    rw [← Nat.add_assoc, backUp, hget]
    cases k with
    | succ k =>
      have : (o ++ sep o).length + (k + 1) > d := by simp only [List.length_append]; omega
      rw [if_pos (by simpa using this)]
      exact backUp_last o n d hn hd hs (k + 1) (by omega) (by omega)
    | zero =>
      rw [Nat.add_zero]
      by_cases hsep : sep o = []
      · have := hs hsep
        rw [hsep]
        simp [this]
      · have hsep' : sep o = [47] := by unfold sep at hsep ⊢; split <;> simp_all
        rw [hsep']
        have h1 : (o ++ [47] : Bytes).length > d := by simp; omega
        rw [if_pos (by simpa using h1)]
        have : (o ++ [47] : Bytes).length = o.length + 1 := by simp
        rw [this, backUp]
        have h2 : (o ++ [47] ++ n : Bytes).getD o.length 0 = 47 := by
          have := getD_right o (47 :: n) 0
          simpa using this
        rw [h2]
        simp [isSep]

theorem Out.pop {B o ns n} (h : Out B o ns) (hb : B = [47] ∨ B.head? ≠ some 47) (hn : IsName n) :
    (o ++ sep o ++ n).take (backUp (o ++ sep o ++ n) B.length (o ++ sep o ++ n).length) = o := by
  have hl := h.length
  have := backUp_last o n B.length hn.2.1 (by omega) (fun e => h.sep_nil hb e) n.length
    (List.length_pos_iff.2 hn.1) (Nat.le_refl _)
  rw [List.length_append, this]
  simp

theorem isSep_iff (c : UInt8) : isSep c = true ↔ c = 47 := by simp [isSep]

theorem mem_tw {p : UInt8 → Bool} {x : UInt8} : ∀ {l : Bytes}, x ∈ l.takeWhile p → p x = true
  | [], h => by simp at h
  | c :: r, h => by
    rw [List.takeWhile_cons] at h
    split at h
    · rcases List.mem_cons.1 h with rfl | h
      · assumption
      · exact mem_tw h
    · simp at h

theorem dw_ne {p : UInt8 → Bool} {x : UInt8} (hp : p x = false) : ∀ {l : Bytes}, x ∈ l → l.dropWhile p ≠ []
  | [], h => by simp at h
  | c :: r, h => by
    rw [List.dropWhile_cons]
    split
    · rename_i hc
      rcases List.mem_cons.1 h with rfl | h
      · rw [hp] at hc; cases hc
      · exact dw_ne hp h
    · simp

theorem tw_noslash (l : Bytes) : (47 : UInt8) ∉ l.takeWhile (!isSep ·) := by
  intro h
  have := mem_tw h
  simp [isSep] at this

theorem dw_slash (l : Bytes) : l.dropWhile (!isSep ·) = [] ∨ ∃ b, l.dropWhile (!isSep ·) = 47 :: b := by
  cases h : l.dropWhile (!isSep ·) with
  | nil => exact .inl rfl
  | cons c b =>
    right
    have := List.head?_dropWhile_not (!isSep ·) l
    rw [h] at this
    simp [isSep] at this
    exact ⟨b, by rw [this]⟩

theorem walk_cut (s : List Bytes) (l : Bytes) :
    walk s l = walk (walk s (l.takeWhile (!isSep ·))) (l.dropWhile (!isSep ·)) := by
  conv => lhs; rw [← List.takeWhile_append_dropWhile (p := (!isSep ·)) (l := l)]
  rcases dw_slash l with h | ⟨b, h⟩
  · simp [h]
  · rw [h, walk_append, walk_slash]

theorem part_name {c : UInt8} {r : Bytes} (h1 : ¬ isSep c = true) (h2 : ¬ (c == 46 && (r.isEmpty || isSep (r.headD 0))) = true)
    (h3 : ¬ (c == 46 && r.headD 0 == 46 && ((r.drop 1).isEmpty || isSep ((r.drop 1).headD 0))) = true) :
    IsName ((c :: r).takeWhile (!isSep ·)) := by
  have hc0 : isSep c = false := by simpa using h1
  refine ⟨by simp [List.takeWhile_cons, hc0], tw_noslash _, ?_, ?_⟩
  · intro e
    simp only [List.takeWhile_cons, hc0, Bool.not_false, if_true, List.cons.injEq] at e
    refine h2 ?_
    rw [e.1]
    cases r with
    | nil => rfl
    | cons x r =>
      have := e.2
      by_cases hx : isSep x = true
      · simp [hx]
      · simp [List.takeWhile_cons, hx] at this
  · intro e
    simp only [List.takeWhile_cons, hc0, Bool.not_false, if_true, List.cons.injEq] at e
    refine h3 ?_
    rw [e.1]
    cases r with
    | nil => simp at e
    | cons x r =>
      have e2 := e.2
      by_cases hx : isSep x = true
      · simp [List.takeWhile_cons, hx] at e2
      · simp only [List.takeWhile_cons, hx, Bool.not_false, if_true, List.cons.injEq] at e2
        have e3 : x = 46 ∧ r.takeWhile (!isSep ·) = [] := by simpa using e2
        rw [e3.1]
        cases r with
        | nil => rfl
        | cons y r =>
          by_cases hy : isSep y = true
          · simp [hy]
          · have := e3.2
            simp [List.takeWhile_cons, hy] at this

theorem sep_code {rooted : Bool} {out B : Bytes} {ns : List Bytes} (ho : Out B out ns) (hr : rooted = true → B = [47])
    (hu : rooted = false → B.head? ≠ some 47) :
    (if (rooted && out.length != 1) || (!rooted && out.length != 0) then out ++ b!"/" else out) = out ++ sep out := by
  cases rooted with
  | true =>
    have h0 := ho.head' (by rw [hr rfl]; rfl)
    cases out with
    | nil => simp at h0
    | cons x o =>
      have : x = 47 := by simpa using h0
      subst this
      cases o <;> simp [sep]
  | false =>
    have h0 := ho.head (hu rfl)
    cases out with
    | nil => simp [sep]
    | cons x o =>
      have : ¬ (x :: o = [47]) := by
        intro e; rw [e] at h0; simp at h0
      simp [sep, this]

theorem cleanLoop_ok (rooted : Bool) (s0 : List Bytes) : ∀ (fuel : Nat) (rest out B : Bytes) (ns : List Bytes) (d : Nat),
    rest.length ≤ fuel → Out B out ns → B.length = d → (rooted = true → B = [47] ∧ s0 = []) → (rooted = false → B.head? ≠ some 47) →
    walk s0 (cleanLoop rooted fuel rest out d) = walk (walk s0 out) rest ∧
      ((cleanLoop rooted fuel rest out d).head? = some 47 ↔ rooted = true)
  | 0, rest, out, B, ns, d, hf, ho, hd, hr, hu => by
    have : rest = [] := by cases rest <;> simp_all
    subst this
    refine ⟨by simp [cleanLoop], ?_⟩
    cases rooted with
    | true => simpa [cleanLoop] using ho.head' (by rw [(hr rfl).1]; rfl)
    | false => simpa [cleanLoop] using ho.head (hu rfl)
  | fuel + 1, [], out, B, ns, d, hf, ho, hd, hr, hu => by
    refine ⟨by simp [cleanLoop], ?_⟩
    cases rooted with
    | true => simpa [cleanLoop] using ho.head' (by rw [(hr rfl).1]; rfl)
    | false => simpa [cleanLoop] using ho.head (hu rfl)
  | fuel + 1, c :: r, out, B, ns, d, hf, ho, hd, hr, hu => by
    have hb : B = [47] ∨ B.head? ≠ some 47 := by
      cases rooted with
      | true => exact .inl (hr rfl).1
      | false => exact .inr (hu rfl)
    have hlen : r.length ≤ fuel := by simpa using hf
    simp only [cleanLoop]
    by_cases h1 : isSep c = true
    · rw [if_pos h1]
      have := cleanLoop_ok rooted s0 fuel r out B ns d hlen ho hd hr hu
      rw [(isSep_iff c).1 h1, walk_slash]
      exact this
    rw [if_neg h1]
    have hc : c ≠ 47 := fun e => h1 (by simp [isSep, e])
    -- what comes after a part
    have after : ∀ (x : Bytes), (x.isEmpty || isSep (x.headD 0)) = true → ∀ (s : List Bytes) (n : Bytes), (47 : UInt8) ∉ n →
        walk s (n ++ x) = walk (walk s n) x := by
      intro x hx s n hn
      cases x with
      | nil => simp
      | cons y x =>
        have : y = 47 := by simpa [isSep] using hx
        rw [this, walk_append, walk_slash]
    by_cases h2 : (c == 46 && (r.isEmpty || isSep (r.headD 0))) = true
    · rw [if_pos h2]
      rw [Bool.and_eq_true] at h2
      have hc' : c = 46 := by simpa using h2.1
      have e := after r h2.2 (walk s0 out) b!"." (by decide)
      have := cleanLoop_ok rooted s0 fuel r out B ns d hlen ho hd hr hu
      refine ⟨?_, this.2⟩
      rw [this.1, hc']
      have e2 : walk (walk s0 out) b!"." = walk s0 out := by rw [walk_plain _ _ (by decide)]; simp [step]
      rw [e2] at e
      exact e.symm
    rw [if_neg h2]
    by_cases h3 : (c == 46 && r.headD 0 == 46 && ((r.drop 1).isEmpty || isSep ((r.drop 1).headD 0))) = true
    · rw [if_pos h3]
      rw [Bool.and_eq_true, Bool.and_eq_true] at h3
      obtain ⟨⟨ha, hb2⟩, h4⟩ := h3
      have hc' : c = 46 := by simpa using ha
      cases r with
      | nil => simp at hb2
      | cons c2 r2 =>
        have hc2 : c2 = 46 := by simpa using hb2
        simp only [List.drop_succ_cons, List.drop_zero] at h4 ⊢
        have hlen2 : r2.length ≤ fuel := by simp at hlen; omega
        have e : walk (walk s0 out) (c :: c2 :: r2) = walk ((walk s0 out).dropLast) r2 := by
          have := after r2 h4 (walk s0 out) b!".." (by decide)
          rw [walk_up] at this
          rw [hc', hc2]; exact this
        by_cases h5 : out.length > d
        · rw [if_pos h5]
          cases ho with
          | nil => omega
          | @snoc o ns n ho hn =>
            have hp := ho.pop hb hn
            rw [hd] at hp
            rw [hp]
            have := cleanLoop_ok rooted s0 fuel r2 o B ns d hlen2 ho hd hr hu
            refine ⟨?_, this.2⟩
            rw [this.1, e, walk_sep, walk_name _ hn, List.dropLast_concat]
        · rw [if_neg h5]
          have hl := ho.length
          have hns : ns = [] := List.eq_nil_of_length_eq_zero (by omega)
          subst hns
          cases ho
          cases rooted with
          | true =>
            simp only [Bool.not_true, Bool.false_eq_true, if_false]
            have := cleanLoop_ok true s0 fuel r2 out out [] d hlen2 .nil hd hr hu
            refine ⟨?_, by simpa using this.2⟩
            rw [this.1, e, (hr rfl).1, (hr rfl).2, walk_slash]
            simp
          | false =>
            simp only [Bool.not_false, if_true]
            have hhead := hu rfl
            have eB : (if out.length > 0 then out ++ b!"/" else out) ++ b!".." = out ++ sep out ++ b!".." := by
              unfold sep
              cases out with
              | nil => simp
              | cons x out =>
                have : ¬ (x :: out = [47]) := by
                  intro e; rw [e] at hhead; simp at hhead
                simp [this]
            rw [eB]
            have hh : (out ++ sep out ++ b!"..").head? ≠ some 47 := by
              cases out with
              | nil => simp [sep]
              | cons x out => simpa using hhead
            have := cleanLoop_ok false s0 fuel r2 _ _ [] _ hlen2 .nil rfl (by simp) (fun _ => hh)
            refine ⟨?_, this.2⟩
            rw [this.1, e, walk_sep, walk_up]
    rw [if_neg h3]
    have hn := part_name h1 h2 h3
    have eo : (if (rooted && out.length != 1) || (!rooted && out.length != 0) then out ++ b!"/" else out) = out ++ sep out :=
      sep_code ho (fun e => (hr e).1) hu
    rw [eo]
    have hlen3 : ((c :: r).dropWhile (!isSep ·)).length ≤ fuel := by
      have hc0 : isSep c = false := by simpa using h1
      simp only [List.dropWhile_cons, hc0, Bool.not_false, if_true]
      exact Nat.le_trans ((List.dropWhile_sublist _).length_le) hlen
    have := cleanLoop_ok rooted s0 fuel _ _ B _ d hlen3 (Out.snoc ho hn) hd hr hu
    refine ⟨?_, this.2⟩
    rw [this.1, walk_sep, ← walk_cut]

/-- `Clean` does not change what a path names, and never gives the empty path. -/
theorem place_clean (cwd : List Bytes) (p : Bytes) : place cwd (clean p) = place cwd p := by
  cases p with
  | nil =>
    show place cwd b!"." = _
    rw [place_eq, place_eq]
    rw [walk_plain _ b!"." (by decide)]
    simp [step]
  | cons c r =>
    simp only [clean]
    by_cases h : isSep c = true
    · have hc := (isSep_iff c).1 h
      subst hc
      have := cleanLoop_ok true [] (r.length + 1) r [47] [47] [] 1 (by omega) .nil rfl (by simp) (by simp)
      have hh := this.2.2 rfl
      simp only [List.length_cons, isSep, beq_self_eq_true, if_true]
      rw [if_neg]
      · rw [place_eq, place_eq, hh]
        simp only [if_true, List.head?_cons]
        rw [this.1, walk_slash]
        simp [walk_slash]
      · intro e
        rw [List.eq_nil_of_length_eq_zero e] at hh; simp at hh
    · have hc : c ≠ 47 := fun e => h (by simp [isSep, e])
      have := cleanLoop_ok false cwd (r.length + 1) (c :: r) [] [] [] 0 (by simp) .nil rfl (by simp) (by simp)
      have hh : ¬ _ := fun e => by simpa using this.2.1 e
      rw [if_neg h]
      simp only [List.length_cons]
      rw [place_eq cwd (c :: r)]
      have hr : walk cwd (cleanLoop false (r.length + 1) (c :: r) [] 0) = walk (if (c :: r).head? = some 47 then [] else cwd) (c :: r) := by
        rw [this.1]; simp [hc]
      rw [← hr]
      split
      · rename_i e
        rw [List.eq_nil_of_length_eq_zero e]
        rw [place_eq, walk_plain _ b!"." (by decide)]
        simp [step]
      · rw [place_eq, if_neg hh]

theorem clean_ne (p : Bytes) : clean p ≠ [] := by
  cases p with
  | nil => simp [clean]
  | cons c r =>
    simp only [clean]
    split <;> · split <;> first | simp; done | (intro e; simp_all)

theorem lastPart_noslash (p : Bytes) : (47 : UInt8) ∉ lastPart p := by
  unfold lastPart
  simpa using tw_noslash p.reverse

/-- A path is a directory part, empty or with a separator at its end, and its last part. -/
theorem cut (p : Bytes) : ∃ d, p = d ++ lastPart p ∧ (d = [] ∨ ∃ e, d = e ++ [47]) ∧ dir p = clean d := by
  have h := List.takeWhile_append_dropWhile (p := (!isSep ·)) (l := p.reverse)
  have h2 : p = (p.reverse.dropWhile (!isSep ·)).reverse ++ lastPart p := by
    have := congrArg List.reverse h
    rw [List.reverse_append, List.reverse_reverse] at this
    exact this.symm
  refine ⟨(p.reverse.dropWhile (!isSep ·)).reverse, h2, ?_, ?_⟩
  · rcases dw_slash p.reverse with e | ⟨b, e⟩
    · exact .inl (by rw [e]; rfl)
    · exact .inr ⟨b.reverse, by rw [e]; simp⟩
  · unfold dir
    congr 1
    generalize (p.reverse.dropWhile (!isSep ·)).reverse = d at h2
    have hl : p.length = d.length + (lastPart p).length := by
      conv => lhs; rw [h2]
      simp
    rw [hl, Nat.add_sub_cancel]
    conv => lhs; rw [h2]
    simp

/-- A path names its last part, seen from its directory. -/
theorem place_cut (cwd : List Bytes) (p : Bytes) : place cwd p = walk (place cwd (dir p)) (lastPart p) := by
  obtain ⟨d, h1, h2, h3⟩ := cut p
  rw [h3, place_clean]
  have hn := lastPart_noslash p
  generalize lastPart p = n at h1 hn
  subst h1
  rcases h2 with rfl | ⟨e, rfl⟩
  · rw [place_eq, place_eq]
    have : ([] ++ n : Bytes).head? ≠ some 47 := by
      cases n with
      | nil => simp
      | cons c r =>
        intro e; apply hn; simp at e; simp [e]
    rw [if_neg this]
    simp
  · rw [place_eq, place_eq]
    have : (e ++ [47] ++ n : Bytes).head? = (e ++ [47] : Bytes).head? := by
      cases e <;> simp
    rw [this]
    have h4 : (e ++ [47] ++ n : Bytes) = e ++ 47 :: n := by simp
    rw [h4, walk_append, walk_append]
    simp

/-- A directory and a name joined. -/
theorem place_join (cwd : List Bytes) (d n : Bytes) (hd : d ≠ []) : place cwd (d ++ b!"/" ++ n) = walk (place cwd d) n := by
  have h4 : (d ++ b!"/" ++ n : Bytes) = d ++ 47 :: n := by simp
  rw [h4, place_eq, place_eq, walk_append]
  cases d with
  | nil => exact absurd rfl hd
  | cons c r => simp

theorem base_eq (p : Bytes) (h : lastPart p ≠ []) : base p = lastPart p := by
  have hp : p ≠ [] := by rintro rfl; exact h rfl
  have hd : p.reverse.dropWhile isSep = p.reverse := by
    cases e : p.reverse with
    | nil => rfl
    | cons c r =>
      have : isSep c = false := by
        cases hc : isSep c with
        | false => rfl
        | true => exact absurd (by simp [lastPart, e, hc]) h
      simp [List.dropWhile_cons, this]
  simp [base, hp, hd, h]

theorem lastPart_empty (p : Bytes) : lastPart p = [] ↔ p = [] ∨ p.getLast? = some 47 := by
  unfold lastPart
  rw [List.reverse_eq_nil_iff]
  rw [← List.head?_reverse]
  cases e : p.reverse with
  | nil => simp [List.reverse_eq_nil_iff.1 e]
  | cons c r =>
    have : p ≠ [] := by rintro rfl; simp at e
    by_cases hc : isSep c = true
    · simp [List.takeWhile_cons, hc, this]; exact (isSep_iff c).1 hc
    · simp [List.takeWhile_cons, hc, this]; intro e; exact hc (by simp [isSep, e])

theorem lastPart_append (p s : Bytes) (h : (47 : UInt8) ∉ s) : lastPart (p ++ s) = lastPart p ++ s := by
  unfold lastPart
  rw [List.reverse_append, List.takeWhile_append_of_pos]
  · simp
  · intro c hc
    have : c ≠ 47 := by rintro rfl; exact h (by simpa using hc)
    simpa [isSep] using this

theorem ext_spec (p : Bytes) : (ext p = [] ∧ (46 : UInt8) ∉ lastPart p) ∨
    ∃ stem e, lastPart p = stem ++ 46 :: e ∧ ext p = 46 :: e ∧ (46 : UInt8) ∉ e := by
  unfold ext
  generalize lastPart p = l
  by_cases h : l.contains 46 = true
  · right
    simp only [h, if_true]
    have hc := List.takeWhile_append_dropWhile (p := fun c : UInt8 => c != 46) (l := l.reverse)
    have hne : l.reverse.dropWhile (· != 46) ≠ [] := dw_ne (x := 46) (by simp) (List.mem_reverse.2 (List.elem_iff.1 h))
    cases e : l.reverse.dropWhile (· != 46) with
    | nil => exact absurd e hne
    | cons c b =>
      have h1 := List.head?_dropWhile_not (· != 46) l.reverse
      rw [e] at h1
      have hc46 : c = 46 := by simpa using h1
      subst hc46
      refine ⟨b.reverse, (l.reverse.takeWhile (· != 46)).reverse, ?_, by simp, ?_⟩
      · rw [e] at hc
        have := congrArg List.reverse hc
        simp only [List.reverse_append, List.reverse_cons, List.reverse_reverse, List.append_assoc] at this
        simpa using this.symm
      · intro hm
        have := mem_tw (List.mem_reverse.1 hm)
        simp at this
  · left
    have h' : (46 : UInt8) ∉ l := fun hm => h (List.elem_iff.2 hm)
    exact ⟨by rw [if_neg h], h'⟩

/-! ## `Clean` gives one spelling for each meaning -/

/-- `..`, `../..` and so on. -/
def ups : Nat → Bytes
  | 0 => []
  | k + 1 => ups k ++ sep (ups k) ++ b!".."

theorem ups_head : ∀ k, (ups k).head? ≠ some 47
  | 0 => by simp [ups]
  | k + 1 => by
    have := ups_head k
    simp only [ups]
    cases h : ups k with
    | nil => simp [sep]
    | cons c r => rw [h] at this; simpa using this

theorem cleanLoop_form (rooted : Bool) : ∀ (fuel : Nat) (rest out B : Bytes) (ns : List Bytes) (d : Nat),
    Out B out ns → B.length = d → (rooted = true → B = [47]) → (rooted = false → ∃ k, B = ups k) →
    ∃ B' ns', Out B' (cleanLoop rooted fuel rest out d) ns' ∧ (rooted = true → B' = [47]) ∧ (rooted = false → ∃ k, B' = ups k)
  | 0, rest, out, B, ns, d, ho, hd, hr, hu => ⟨B, ns, by simpa [cleanLoop] using ho, hr, hu⟩
  | fuel + 1, [], out, B, ns, d, ho, hd, hr, hu => ⟨B, ns, by simpa [cleanLoop] using ho, hr, hu⟩
  | fuel + 1, c :: r, out, B, ns, d, ho, hd, hr, hu => by
    have hu' : rooted = false → B.head? ≠ some 47 := fun e => by
      obtain ⟨k, rfl⟩ := hu e
      exact ups_head k
    have hb : B = [47] ∨ B.head? ≠ some 47 := by
      cases rooted with
      | true => exact .inl (hr rfl)
      | false => exact .inr (hu' rfl)
    simp only [cleanLoop]
    by_cases h1 : isSep c = true
    · rw [if_pos h1]; exact cleanLoop_form rooted fuel r out B ns d ho hd hr hu
    rw [if_neg h1]
    by_cases h2 : (c == 46 && (r.isEmpty || isSep (r.headD 0))) = true
    · rw [if_pos h2]; exact cleanLoop_form rooted fuel r out B ns d ho hd hr hu
    rw [if_neg h2]
    by_cases h3 : (c == 46 && r.headD 0 == 46 && ((r.drop 1).isEmpty || isSep ((r.drop 1).headD 0))) = true
    · rw [if_pos h3]
      by_cases h5 : out.length > d
      · rw [if_pos h5]
        cases ho with
        | nil => omega
        | @snoc o ns n ho hn =>
          have hp := ho.pop hb hn
          rw [hd] at hp
          rw [hp]
          exact cleanLoop_form rooted fuel _ o B ns d ho hd hr hu
      · rw [if_neg h5]
        have hl := ho.length
        have hns : ns = [] := List.eq_nil_of_length_eq_zero (by omega)
        subst hns
        cases ho
        cases rooted with
        | true => exact cleanLoop_form true fuel _ out out [] d .nil hd hr hu
        | false =>
          obtain ⟨k, rfl⟩ := hu rfl
          have hhead := ups_head k
          have eB : (if (ups k).length > 0 then ups k ++ b!"/" else ups k) ++ b!".." = ups (k + 1) := by
            simp only [ups, sep]
            cases h : ups k with
            | nil => simp
            | cons x B =>
              have : ¬ (x :: B = [47]) := by
                intro e; rw [h, e] at hhead; simp at hhead
              simp [this]
          rw [if_pos (show (!false) = true from rfl), eB]
          exact cleanLoop_form false fuel _ _ _ [] _ .nil rfl (by simp) (fun _ => ⟨k + 1, rfl⟩)
    rw [if_neg h3]
    have hn := part_name h1 h2 h3
    have eo : (if (rooted && out.length != 1) || (!rooted && out.length != 0) then out ++ b!"/" else out) = out ++ sep out :=
      sep_code ho (fun e => hr e) hu'
    rw [eo]
    exact cleanLoop_form rooted fuel _ _ B _ d (Out.snoc ho hn) hd hr hu

theorem clean_form (p : Bytes) : ∃ out, clean p = (if out = [] then b!"." else out) ∧
    ((∃ ns, Out [47] out ns) ∨ ∃ k ns, Out (ups k) out ns) := by
  cases p with
  | nil => exact ⟨[], by simp [clean], .inr ⟨0, [], .nil⟩⟩
  | cons c r =>
    simp only [clean]
    by_cases h : isSep c = true
    · rw [if_pos h]
      obtain ⟨B, ns, ho, hr, _⟩ := cleanLoop_form true (c :: r).length r [47] [47] [] 1 .nil rfl (by simp) (by simp)
      have := hr rfl
      subst this
      exact ⟨_, by simp [List.length_eq_zero_iff], .inl ⟨ns, ho⟩⟩
    · rw [if_neg h]
      obtain ⟨B, ns, ho, _, hu⟩ := cleanLoop_form false (c :: r).length (c :: r) [] [] [] 0 .nil rfl (by simp) (fun _ => ⟨0, rfl⟩)
      obtain ⟨k, rfl⟩ := hu rfl
      exact ⟨_, by simp [List.length_eq_zero_iff], .inr ⟨k, ns, ho⟩⟩

theorem Out.same {B o o' ns} (h : Out B o ns) (h' : Out B o' ns) : o = o' := by
  induction h generalizing o' with
  | nil => cases h'; rfl
  | snoc ho hn ih =>
    cases h' with
    | snoc ho' _ => rw [ih ho']

theorem Out.walk {B o ns} (h : Out B o ns) (s : List Bytes) : PathSpec.walk s o = PathSpec.walk s B ++ ns.reverse := by
  induction h with
  | nil => simp
  | snoc ho hn ih => rw [walk_sep, walk_name _ hn, ih]; simp

theorem walk_ups (x : Bytes) (m : Nat) : ∀ k, walk (List.replicate m x) (ups k) = List.replicate (m - k) x
  | 0 => by simp [ups]
  | k + 1 => by
    simp only [ups]
    rw [walk_sep, walk_ups x m k, walk_up, List.dropLast_replicate]
    congr 1

theorem place_rooted {out ns} (h : Out [47] out ns) (cwd : List Bytes) :
    place cwd (if out = [] then b!"." else out) = ns.reverse := by
  have hh := h.head' rfl
  rw [if_neg (by rintro rfl; simp at hh), place_eq, hh, if_pos rfl, h.walk]
  simp [walk_slash]

theorem place_ups {k out ns} (h : Out (ups k) out ns) (x : Bytes) (m : Nat) :
    place (List.replicate m x) (if out = [] then b!"." else out) = List.replicate (m - k) x ++ ns.reverse := by
  have hh := h.head (ups_head k)
  have hw := h.walk (List.replicate m x)
  rw [walk_ups] at hw
  rw [← hw]
  split
  · rename_i e
    subst e
    rw [place_eq, walk_plain _ b!"." (by decide)]
    simp [step]
  · rw [place_eq, if_neg hh]

theorem fresh (l : List Bytes) : ∃ x, x ∉ l := by
  refine ⟨l.flatten ++ [0], fun h => ?_⟩
  have := (List.sublist_flatten_of_mem h).length_le
  rw [List.length_append] at this
  have e : ([0] : Bytes).length = 1 := rfl
  omega

/-- Two cleaned paths that mean the same, whatever the working directory, are the same. -/
theorem clean_unique {p q : Bytes} (h : ∀ cwd, place cwd p = place cwd q) : clean p = clean q := by
  have h : ∀ cwd, place cwd (clean p) = place cwd (clean q) := fun cwd => by rw [place_clean, place_clean, h]
  obtain ⟨o, e, hp⟩ := clean_form p
  obtain ⟨o', e', hq⟩ := clean_form q
  rw [e, e'] at h ⊢
  rcases hp with ⟨ns, hp⟩ | ⟨k, ns, hp⟩ <;> rcases hq with ⟨ns', hq⟩ | ⟨k', ns', hq⟩
  · have := h []
    rw [place_rooted hp, place_rooted hq, List.reverse_inj] at this
    subst this
    rw [hp.same hq]
  · obtain ⟨x, hx⟩ := fresh ns
    have := h (List.replicate (k' + 1) x)
    rw [place_rooted hp, place_ups hq] at this
    exact absurd (List.mem_reverse.1 (this ▸ List.mem_append_left _ (by simp) : x ∈ ns.reverse)) hx
  · obtain ⟨x, hx⟩ := fresh ns'
    have := h (List.replicate (k + 1) x)
    rw [place_rooted hq, place_ups hp] at this
    exact absurd (List.mem_reverse.1 (this ▸ List.mem_append_left _ (by simp) : x ∈ ns'.reverse)) hx
  · obtain ⟨x, hx⟩ := fresh (ns ++ ns')
    rw [List.mem_append, not_or] at hx
    have := h (List.replicate (k + k') x)
    rw [place_ups hp, place_ups hq] at this
    have hc := congrArg (List.count x) this
    rw [List.count_append, List.count_append, List.count_replicate_self, List.count_replicate_self,
      List.count_eq_zero_of_not_mem (fun e => hx.1 (List.mem_reverse.1 e)),
      List.count_eq_zero_of_not_mem (fun e => hx.2 (List.mem_reverse.1 e))] at hc
    have hk : k = k' := by omega
    subst hk
    have := List.reverse_inj.1 (List.append_cancel_left this)
    subst this
    rw [hp.same hq]

end Goast.PathSpec
