import Verif.Props.Assemble

/-!
# C87: edits in some declarations leave the others alone
-/

namespace Goast
open Heap

/-! ## Frames -/

theorem run_frame {h h' : Heap} {R : Addr → Prop} (w : WF h) (c : Closed h R) (r : Run (fun op => ∀ p ∈ op.args, Out R p) h h') :
    SameOn R h h' ∧ h.size ≤ h'.size := by
  have : WF h' ∧ SameOn R h h' ∧ h.size ≤ h'.size := by
    induction r with
    | refl => exact ⟨w, fun _ _ => ⟨rfl, rfl, rfl⟩, Nat.le_refl _⟩
    | step op _ o v e ih =>
      obtain ⟨w1, s1, l1⟩ := ih
      have := frame_apply w1 (s1.closed c l1) op v o e
      exact ⟨wf_apply w1 op v e, s1.trans this.1, Nat.le_trans l1 this.2⟩
  exact this.2

theorem run_mono {P Q : Op → Prop} (hPQ : ∀ op, P op → Q op) {h h' : Heap} (r : Run P h h') : Run Q h h' := by
  induction r with
  | refl => exact .refl
  | step op _ o v e ih => exact .step op ih (hPQ op o) v e

theorem Emb.of_sameOn {h h' : Heap} {R : Addr → Prop} (c : Closed h R) (s : SameOn R h h') (sz : h.size ≤ h'.size) : Emb id R h h' where
  nextC {a b} ha hb := c.next a b ha hb
  prevC {a b} ha hb := c.prev a b ha hb
  size {a} _ hs := Nat.lt_of_lt_of_le hs sz
  next {a} ha := by rw [Option.map_id_fun]; exact (s a ha).1
  prev {a} ha := by rw [Option.map_id_fun]; exact (s a ha).2.1
  kind {a} ha := by have := (s a ha).2.2; simp only [data, Prod.mk.injEq] at this; exact this.2.1
  text {a} ha := by have := (s a ha).2.2; simp only [data, Prod.mk.injEq] at this; exact this.2.2
  line {a} ha := by have := (s a ha).2.2; simp only [data, Prod.mk.injEq] at this; exact this.1

/-- A scope whose nodes nobody touched. -/
theorem same_scope {h h' : Heap} {R : Addr → Prop} (c : Closed h R) (s : SameOn R h h') (sz : h.size ≤ h'.size) {sc : ScopeRec} {l : List Addr}
    (f : Fwd h sc.node l) (hp : ∀ a ∈ l, R a) : sc.look h' = sc.look h ∧ chainText h' sc.node = chainText h sc.node := by
  have E := Emb.of_sameOn c s sz
  have hp' : ∀ a, sc.node = some a → R a := by
    intro a ha
    rw [ha] at f
    cases f
    exact hp a (by simp)
  have lk := E.toEmb0.look f hp' (n := 0) (fun a ha => by rw [Int.add_zero]; exact E.line (hp a ha))
  rw [Look.below_zero] at lk
  have e : ({ sc.at id with line := sc.line + 0 } : ScopeRec) = sc := by simp [ScopeRec.at]
  rw [e] at lk
  refine ⟨lk, ?_⟩
  have f' : Fwd h' sc.node l := f.congr (fun a ha => Nat.lt_of_lt_of_le (f.lt a ha) sz) (fun a ha => (s a (hp a ha)).1)
  rw [chainText_eq f, chainText_eq f']
  congr 2
  exact List.map_congr_left fun a ha => E.text (hp a ha)

/-! ## Declarations one after another -/

theorem oneByOne_append : ∀ (a b : List Bytes) (n : Int) {x y : List Look}, oneByOne n a = some x → oneByOne (n + countNL a.flatten) b = some y →
    oneByOne n (a ++ b) = some (x ++ y)
  | [], b, n, x, y, h1, h2 => by
    cases h1
    rw [show n + (countNL ([] : List Bytes).flatten : Int) = n by simp [countNL]] at h2
    simpa using h2
  | d :: a, b, n, x, y, h1, h2 => by
    simp only [oneByOne, List.cons_append] at h1 ⊢
    cases hp : parseScope Heap.empty 0 d with
    | none => rw [hp] at h1; simp at h1
    | some r =>
      cases ho : oneByOne (n + countNL d) a with
      | none => rw [hp, ho] at h1; simp at h1
      | some vs =>
        rw [hp, ho] at h1
        simp only [Option.some.injEq] at h1
        subst h1
        have : oneByOne (n + countNL d + countNL a.flatten) b = some y := by
          rw [← h2]
          congr 1
          simp [countNL]
          omega
        rw [oneByOne_append a b _ ho this]
        simp

theorem scopesText_chains {h : Heap} : ∀ {T : List ScopeRec} {gs : List (List Token)}, T.length = gs.length →
    (∀ (i : Nat) (sc : ScopeRec) (g : List Token), T[i]? = some sc → gs[i]? = some g → chainText h sc.node = some (tokText g)) →
    scopesText h T = some (gs.map tokText).flatten
  | [], [], _, _ => rfl
  | sc :: T, g :: gs, hl, hi => by
    have e := hi 0 sc g rfl rfl
    have ih := scopesText_chains (T := T) (gs := gs) (by simpa using hl) (fun i sc g h1 h2 => hi (i + 1) sc g (by simpa using h1) (by simpa using h2))
    simp only [scopesText, e, ih, Option.map_some, List.map_cons, List.flatten_cons]

theorem scopesText_congr {h h' : Heap} : ∀ {T : List ScopeRec}, (∀ sc ∈ T, chainText h' sc.node = chainText h sc.node) → scopesText h' T = scopesText h T
  | [], _ => rfl
  | sc :: T, hc => by
    simp only [scopesText, hc sc (by simp), scopesText_congr (T := T) fun x hx => hc x (by simp [hx])]

/-- The sections of declarations, and how many there are. -/
theorem sections_file {ds : List Bytes} (hd : ∀ d ∈ ds, Whole d ∧ BeginsScope d) :
    ((ds.flatMap fun d => (sectionsOf 0 d).2).map tokText).flatten = ds.flatten ∧
    (ds.flatMap fun d => (sectionsOf 0 d).2).length = (looks 0 ds.flatten).length := by
  obtain ⟨h', scs, e, t, l, _⟩ := C64_scope mapOrder_id wf_empty acyclic_empty 0 ds.flatten
  have e1 : (sectionsOf 0 ds.flatten).1 = [] := by
    by_cases hn : ds = []
    · subst hn; rfl
    · have b := (looks_file ds hd 0).2.2 hn
      obtain ⟨x, hx, _⟩ := b.1
      exact (sections_begin b hx).1
  rw [e1, C64_sections ds hd] at t
  rw [C64_sections ds hd] at l
  refine ⟨t, ?_⟩
  obtain ⟨h2, scs2, e2, lk⟩ := parse_looks mapOrder_id Heap.empty 0 ds.flatten
  rw [e] at e2
  simp only [Option.some.injEq, Prod.mk.injEq] at e2
  obtain ⟨rfl, rfl⟩ := e2
  rw [← l, ← lk, List.length_map]

/-! ## C87 -/

/-- `a` is a node of one of the scopes `S`. -/
def IsNodeOf (h : Heap) (S : List ScopeRec) (a : Addr) : Prop := ∃ sc ∈ S, ∃ l, Fwd h sc.node l ∧ a ∈ l

/-- **C87** A formatted file is put together from declarations `ds₁`, then `ds₀`, then `ds₂`; those of `ds₁` and `ds₂` keep their text (C64), and
there is a package clause in `ds₁`.  `ParseAst` gives it the scopes `S₁ ++ S₀ ++ S₂`, each block as parsed alone.  Now let the program make any calls on
nodes, none of them on a node of `S₁` or `S₂`.  Then the scopes of `S₁` and `S₂` show what they showed before, and `Save` writes `ds₁`, what the scopes
`S₀` say now, and `ds₂`.  If what `S₀` says now are again declarations (none, one or several), and what is written is formatted, `ParseAst`
on it shows the scopes of `ds₁` as before, those of the new declarations as parsed alone, and those of `ds₂` as before, moved by as many lines as were
added. -/
theorem C87_edit (env : Env) (spare : Nat) (fs : FS) (st : AState) (w : WF st.heap) (ac : Acyclic st.heap) {file name : Bytes}
    {ds₁ ds₀ ds₂ : List Bytes} (h1 : ∀ d ∈ ds₁, Part d) (h0 : ∀ d ∈ ds₀, Whole d ∧ BeginsScope d) (h2 : ∀ d ∈ ds₂, Part d)
    (hp : ∃ rest, b!"package " ++ rest ∈ ds₁) (hn : IsGoName file name) (hf : fs name = some (ds₁ ++ ds₀ ++ ds₂).flatten)
    (o1 : env.openDenied name = false) (o2 : env.readFails name = false)
    (o3 : env.formatSource (ds₁ ++ ds₀ ++ ds₂).flatten = some (ds₁ ++ ds₀ ++ ds₂).flatten) :
    ∃ st1 ast S₁ S₀ S₂, parseAst env spare fs st file = some (.ok (st1, ast)) ∧ ast.scopes st1 = S₁ ++ S₀ ++ S₂ ∧
      oneByOne 0 ds₁ = some (S₁.map (ScopeRec.look st1.heap)) ∧
      oneByOne (countNL ds₁.flatten) ds₀ = some (S₀.map (ScopeRec.look st1.heap)) ∧
      oneByOne (countNL (ds₁ ++ ds₀).flatten) ds₂ = some (S₂.map (ScopeRec.look st1.heap)) ∧
      (∀ a, IsNodeOf st1.heap S₀ a ∨ st1.heap.size ≤ a → ¬ IsNodeOf st1.heap (S₁ ++ S₂) a) ∧
      ∀ heap', Run (fun op => ∀ p ∈ op.args, ∀ a, p = some a → ¬ IsNodeOf st1.heap (S₁ ++ S₂) a) st1.heap heap' →
        (∀ sc ∈ S₁ ++ S₂, sc.look heap' = sc.look st1.heap) ∧
        ∀ new, scopesText heap' S₀ = some new →
          scopesText heap' (S₁ ++ S₀ ++ S₂) = some (ds₁.flatten ++ new ++ ds₂.flatten) ∧
          ∀ ds, (∀ d ∈ ds, Whole d ∧ BeginsScope d) → new = ds.flatten → ∀ (env' : Env) (spare' : Nat),
            env'.formatSource (ds₁ ++ ds ++ ds₂).flatten = some (ds₁ ++ ds ++ ds₂).flatten → env'.mkdirOk (env'.dir name) = true →
            env'.createOk name = true → env'.writeFailsAfter name (ds₁ ++ ds ++ ds₂).flatten = none → env'.openDenied name = false →
            env'.readFails name = false →
            ∃ fs' st' ast' new', ast.save env' fs { st1 with heap := heap' } file [] = some (fs', none) ∧
              fs' name = some (ds₁ ++ ds ++ ds₂).flatten ∧ (∀ other, other ≠ name → fs' other = fs other) ∧
              parseAst env' spare' fs' { st1 with heap := heap' } file = some (.ok (st', ast')) ∧
              oneByOne (countNL ds₁.flatten) ds = some new' ∧
              (ast'.scopes st').map (ScopeRec.look st'.heap) = S₁.map (ScopeRec.look st1.heap) ++ new' ++
                S₂.map (fun sc => (sc.look st1.heap).below ((countNL ds.flatten : Int) - countNL ds₀.flatten)) := by
  have g1 : ∀ d ∈ ds₁, Whole d ∧ BeginsScope d := fun d hd => ⟨(h1 d hd).whole, (h1 d hd).begins⟩
  have g2 : ∀ d ∈ ds₂, Whole d ∧ BeginsScope d := fun d hd => ⟨(h2 d hd).whole, (h2 d hd).begins⟩
  have good : ∀ ds : List Bytes, (∀ d ∈ ds, Whole d ∧ BeginsScope d) → ∀ d ∈ ds₁ ++ ds ++ ds₂, Whole d ∧ BeginsScope d := by
    intro ds hds d hd
    simp only [List.mem_append] at hd
    rcases hd with (hd | hd) | hd
    · exact g1 d hd
    · exact hds d hd
    · exact g2 d hd
  have hpk : ∀ ds : List Bytes, ∃ rest, b!"package " ++ rest ∈ ds₁ ++ ds ++ ds₂ := by
    intro ds
    obtain ⟨r, hr⟩ := hp
    exact ⟨r, List.mem_append_left _ (List.mem_append_left _ hr)⟩
  -- the looks of any such file
  have file_looks : ∀ ds : List Bytes, (∀ d ∈ ds, Whole d ∧ BeginsScope d) → looks 0 (ds₁ ++ ds ++ ds₂).flatten =
      looks 0 ds₁.flatten ++ (looks 0 ds.flatten).map (Look.below (countNL ds₁.flatten)) ++
        (looks 0 ds₂.flatten).map (Look.below (countNL (ds₁ ++ ds).flatten)) := by
    intro ds hds
    have a := (looks_file ds₁ g1 0).1
    have b := (looks_file ds hds (countNL ds₁.flatten)).1
    have c := (looks_file ds₂ g2 (countNL (ds₁ ++ ds).flatten)).1
    have d := (looks_file _ (good ds hds) 0).1
    have ab := oneByOne_append ds₁ ds 0 a (by rw [Int.zero_add]; exact b)
    have abc := oneByOne_append (ds₁ ++ ds) ds₂ 0 ab (by rw [Int.zero_add]; exact c)
    rw [d, Option.some.injEq, show Look.below 0 = id from funext Look.below_zero, List.map_id, List.map_id] at abc
    exact abc
  -- the first parse
  obtain ⟨h', scs, r1, _, r3⟩ := C39_parsed env spare fs st w ac hn hf o1 o2 o3
  obtain ⟨st1, ast, s1, _, _, _, _, s2, s3, _⟩ := r3 (package_scope w ac (package_section (good ds₀ h0) (hpk ds₀)) r1)
  obtain ⟨hx, scsx, ex, lk⟩ := parse_looks mapOrder_id st.heap 0 (ds₁ ++ ds₀ ++ ds₂).flatten
  rw [show parseScopeOrd (fun _ => commonDeeperExtract) st.heap 0 (ds₁ ++ ds₀ ++ ds₂).flatten = some (h', scs) from r1] at ex
  simp only [Option.some.injEq, Prod.mk.injEq] at ex
  obtain ⟨rfl, rfl⟩ := ex
  rw [file_looks ds₀ h0] at lk
  obtain ⟨S10, S₂, rfl, l10, l2⟩ := List.map_eq_append_iff.1 lk
  obtain ⟨S₁, S₀, rfl, l1, l0⟩ := List.map_eq_append_iff.1 l10
  subst s3
  -- the nodes
  obtain ⟨w1, _, _, ls, hls, nd, chs⟩ := C12_separate mapOrder_id w ac r1
  rw [List.map_append, List.map_append] at hls
  obtain ⟨ls10, ls2, rfl, q10, q2⟩ := List.map_eq_append_iff.1 hls.symm
  obtain ⟨ls1, ls0, rfl, q1, q0⟩ := List.map_eq_append_iff.1 q10
  have chain_of : ∀ (S : List ScopeRec) (ks : List (List Addr)), ks.map List.head? = S.map (·.node) → (∀ l ∈ ks, Chain st1.heap l) →
      ∀ sc ∈ S, ∃ l ∈ ks, Chain st1.heap l ∧ Fwd st1.heap sc.node l := by
    intro S ks hq hch sc hsc
    have : sc.node ∈ ks.map List.head? := by rw [hq]; exact List.mem_map.2 ⟨sc, hsc, rfl⟩
    obtain ⟨l, hl, e⟩ := List.mem_map.1 this
    exact ⟨l, hl, hch l hl, e ▸ (hch l hl).fwd⟩
  have nodes_of : ∀ (S : List ScopeRec) (ks : List (List Addr)), ks.map List.head? = S.map (·.node) → (∀ l ∈ ks, Chain st1.heap l) →
      ∀ a, IsNodeOf st1.heap S a → a ∈ ks.flatten ∧ a < st1.heap.size := by
    rintro S ks hq hch a ⟨sc, hsc, l, f, hal⟩
    obtain ⟨l', hl', _, f'⟩ := chain_of S ks hq hch sc hsc
    cases f.det f'
    exact ⟨List.mem_flatten.2 ⟨l, hl', hal⟩, f.lt a hal⟩
  have c1 : ∀ l ∈ ls1, Chain st1.heap l := fun l hl => (chs l (by simp [hl])).2.1
  have c0 : ∀ l ∈ ls0, Chain st1.heap l := fun l hl => (chs l (by simp [hl])).2.1
  have c2 : ∀ l ∈ ls2, Chain st1.heap l := fun l hl => (chs l (by simp [hl])).2.1
  have c12 : ∀ l ∈ ls1 ++ ls2, Chain st1.heap l := by
    intro l hl
    rcases List.mem_append.1 hl with hl | hl
    · exact c1 l hl
    · exact c2 l hl
  have q12 : (ls1 ++ ls2).map List.head? = (S₁ ++ S₂).map (·.node) := by rw [List.map_append, List.map_append, q1, q2]
  have closed : Closed st1.heap (IsNodeOf st1.heap (S₁ ++ S₂)) := by
    refine ⟨fun a ha => (nodes_of _ _ q12 c12 a ha).2, ?_, ?_⟩
    · rintro a b ⟨sc, hsc, l, f, hal⟩ e
      obtain ⟨l', _, hch, f'⟩ := chain_of _ _ q12 c12 sc hsc
      cases f.det f'
      exact ⟨sc, hsc, l, f, (hch.closed w1).next a b hal e⟩
    · rintro a b ⟨sc, hsc, l, f, hal⟩ e
      obtain ⟨l', _, hch, f'⟩ := chain_of _ _ q12 c12 sc hsc
      cases f.det f'
      exact ⟨sc, hsc, l, f, (hch.closed w1).prev a b hal e⟩
  -- the texts
  obtain ⟨hy, scsy, ey, _, ln, tx⟩ := C64_scope mapOrder_id w ac 0 (ds₁ ++ ds₀ ++ ds₂).flatten
  rw [show parseScopeOrd (fun _ => commonDeeperExtract) st.heap 0 (ds₁ ++ ds₀ ++ ds₂).flatten = _ from r1] at ey
  simp only [Option.some.injEq, Prod.mk.injEq] at ey
  obtain ⟨rfl, rfl⟩ := ey
  rw [C64_sections _ (good ds₀ h0), List.flatMap_append, List.flatMap_append] at tx
  obtain ⟨t1, n1⟩ := sections_file g1
  obtain ⟨t0, n0⟩ := sections_file h0
  obtain ⟨t2, n2⟩ := sections_file g2
  have m1 : S₁.length = (ds₁.flatMap fun d => (sectionsOf 0 d).2).length := by rw [n1, ← l1, List.length_map]
  have m0 : S₀.length = (ds₀.flatMap fun d => (sectionsOf 0 d).2).length := by
    have := congrArg List.length l0
    rw [List.length_map, List.length_map] at this
    rw [n0, this]
  have m2 : S₂.length = (ds₂.flatMap fun d => (sectionsOf 0 d).2).length := by
    have := congrArg List.length l2
    rw [List.length_map, List.length_map] at this
    rw [n2, this]
  have surv : ∀ ds : List Bytes, (∀ d ∈ ds, Part d) → ∀ (i : Nat) (g : List Token), (ds.flatMap fun d => (sectionsOf 0 d).2)[i]? = some g → Survives g := by
    intro ds hds i g hg
    obtain ⟨d, hd, hg⟩ := List.mem_flatMap.1 (List.mem_of_getElem? hg)
    exact (hds d hd).survives g hg
  have x1 : scopesText st1.heap S₁ = some ds₁.flatten := by
    rw [← t1]
    refine scopesText_chains m1 fun i sc g hi hg => ?_
    have li : i < S₁.length := by rw [List.getElem?_eq_some_iff] at hi; exact hi.1
    refine tx i sc g ?_ ?_ (surv ds₁ h1 i g hg)
    · rw [List.append_assoc, List.getElem?_append_left li]; exact hi
    · rw [List.append_assoc, List.getElem?_append_left (by omega)]; exact hg
  have x2 : scopesText st1.heap S₂ = some ds₂.flatten := by
    rw [← t2]
    refine scopesText_chains m2 fun i sc g hi hg => ?_
    refine tx (i + (S₁ ++ S₀).length) sc g ?_ ?_ (surv ds₂ h2 i g hg)
    · rw [List.getElem?_append_right (by omega), Nat.add_sub_cancel]; exact hi
    · have : (S₁ ++ S₀).length = ((ds₁.flatMap fun d => (sectionsOf 0 d).2) ++ (ds₀.flatMap fun d => (sectionsOf 0 d).2)).length := by
        rw [List.length_append, List.length_append, m1, m0]
      rw [this, List.getElem?_append_right (by omega), Nat.add_sub_cancel]; exact hg
  refine ⟨st1, ast, S₁, S₀, S₂, s1, s2, ?_, ?_, ?_, ?_, ?_⟩
  · rw [(looks_file ds₁ g1 0).1, l1, show Look.below 0 = id from funext Look.below_zero, List.map_id]
  · rw [(looks_file ds₀ h0 _).1, l0]
  · rw [(looks_file ds₂ g2 _).1, l2]
  · rintro a ha hb
    obtain ⟨mb, lb⟩ := nodes_of _ _ q12 c12 a hb
    rcases ha with ha | ha
    · obtain ⟨ma, _⟩ := nodes_of _ _ q0 c0 a ha
      rw [List.flatten_append, List.flatten_append, List.nodup_append, List.nodup_append] at nd
      rw [List.flatten_append, List.mem_append] at mb
      rcases mb with mb | mb
      · exact nd.1.2.2 a mb a ma rfl
      · exact nd.2.2 a (List.mem_append_right _ ma) a mb rfl
    · omega
  intro heap' run
  have run' := run_mono (Q := fun op => ∀ p ∈ op.args, Out (IsNodeOf st1.heap (S₁ ++ S₂)) p) (fun op o p hp a ha hpa => o p hp a hpa ha) run
  obtain ⟨same, sz⟩ := run_frame w1 closed run'
  have each : ∀ sc ∈ S₁ ++ S₂, sc.look heap' = sc.look st1.heap ∧ chainText heap' sc.node = chainText st1.heap sc.node := by
    intro sc hsc
    obtain ⟨l, _, _, f⟩ := chain_of _ _ q12 c12 sc hsc
    exact same_scope closed same sz f fun a ha => ⟨sc, hsc, l, f, ha⟩
  refine ⟨fun sc hsc => (each sc hsc).1, fun new hnew => ?_⟩
  have y1 : scopesText heap' S₁ = some ds₁.flatten := by
    rw [scopesText_congr fun sc hsc => (each sc (by simp [hsc])).2, x1]
  have y2 : scopesText heap' S₂ = some ds₂.flatten := by
    rw [scopesText_congr fun sc hsc => (each sc (by simp [hsc])).2, x2]
  have y := scopesText_append' _ _ (scopesText_append' _ _ y1 hnew) y2
  refine ⟨y, ?_⟩
  rintro ds hds rfl env' spare' p3 p4 p5 p6 p1 p2
  obtain ⟨fs', st', ast', a1, a2, a3, a4, a5⟩ := save_again env' spare' fs { st1 with heap := heap' } ast (good ds hds) (hpk ds)
    (by rw [show ast.scopes { st1 with heap := heap' } = ast.scopes st1 from rfl, s2, y]; simp) hn p3 p4 p5 p6 p1 p2
  refine ⟨fs', st', ast', _, a1, a2, a3, a4, (looks_file ds hds _).1, ?_⟩
  rw [a5, file_looks ds hds, ← l1]
  congr 1
  rw [show (S₂.map fun sc => (sc.look st1.heap).below ((countNL ds.flatten : Int) - countNL ds₀.flatten)) =
    (S₂.map (ScopeRec.look st1.heap)).map (Look.below ((countNL ds.flatten : Int) - countNL ds₀.flatten)) from by rw [List.map_map]; rfl, l2, List.map_map]
  refine List.map_congr_left (fun v _ => ?_)
  have hc : ∀ x : List Bytes, countNL (ds₁ ++ x).flatten = countNL ds₁.flatten + countNL x.flatten := fun x => by simp [countNL]
  cases v with | mk k li nd _ _ _ _ _ _ =>
  simp only [Function.comp_apply, Look.below, hc, Look.mk.injEq, and_true, true_and]
  refine ⟨by omega, ?_⟩
  cases nd with
  | none => rfl
  | some xs =>
    simp only [Option.map_some, List.map_map, Option.some.injEq]
    refine List.map_congr_left (fun x _ => ?_)
    simp only [Function.comp_apply, Prod.mk.injEq, and_true]
    omega

/-! ## The hypotheses can be met -/

set_option maxRecDepth 100000 in
example : (∀ d ∈ [b!"package a\n\n"], Part d) ∧ (∀ d ∈ [b!"func F() {}\n\n"], Whole d ∧ BeginsScope d) ∧ (∀ d ∈ [b!"type T int\n"], Part d) := by
  refine ⟨fun d hd => ?_, fun d hd => ?_, fun d hd => ?_⟩ <;> rw [List.mem_singleton] at hd <;> subst hd
  · exact ⟨by decide +kernel, ⟨⟨⟨b!"package", false⟩, by decide +kernel⟩, by decide +kernel⟩, checked (by decide +kernel)⟩
  · exact ⟨by decide +kernel, ⟨⟨⟨b!"func", false⟩, by decide +kernel⟩, by decide +kernel⟩⟩
  · exact ⟨by decide +kernel, ⟨⟨⟨b!"type", false⟩, by decide +kernel⟩, by decide +kernel⟩, checked (by decide +kernel)⟩

set_option maxRecDepth 100000 in
/-- The function is renamed and a second one is put behind it: what the middle scope says then. -/
example : (parseScope Heap.empty 0 b!"package a\n\nfunc F() {}\n\ntype T int\n").bind (fun r =>
    match r.2 with
    | [_, f, _] =>
      let h := r.1.setText (r.1.next (r.1.next f.node)) b!"G"
      let n := h.newNodes 9 [b!"func H() {}\n\n"]
      (n.1.last f.node).bind fun z => scopesText (n.1.insertNext z n.2).1 [f]
    | _ => none) = some [b!"func G() {}\n\n", b!"func H() {}\n\n"].flatten := by decide +kernel

/-- These edits are calls on nodes of the middle scope and on new nodes. -/
example {h : Heap} {P : Addr → Prop} {a : Addr} (ha : ¬ P a) (v : a < h.size) (t : Bytes) :
    Run (fun op => ∀ p ∈ op.args, ∀ a, p = some a → ¬ P a) h (h.setText (some a) t) := by
  refine .step (.setText (some a) t) .refl ?_ ?_ rfl
  · intro p hp b hb
    simp only [Op.args, List.mem_singleton] at hp
    rw [hp] at hb
    cases hb
    exact ha
  · intro p hp b hb
    simp only [Op.args, List.mem_singleton] at hp
    rw [hp] at hb
    cases hb
    exact v

end Goast
