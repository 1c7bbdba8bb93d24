import Verif.Proofs.PlaceNew

/-!
# Goroutines with nodes of their own do not meet
-/

set_option linter.unusedSimpArgs false
set_option linter.unusedVariables false

namespace Goast
open Heap

/-! ## Calls -/

theorem Op.mapArgs_comp (f f' : Ptr → Ptr) (op : Op) : (op.mapArgs f).mapArgs f' = op.mapArgs (fun p => f' (f p)) := by
  cases op <;> simp [Op.mapArgs, Function.comp_def]

theorem Op.args_mapArgs (f : Ptr → Ptr) (op : Op) : (op.mapArgs f).args = op.args.map f := by
  cases op <;> simp [Op.mapArgs, Op.args]

/-- `perform` has the effect of `apply`. -/
theorem Op.perform_apply (h : Heap) (op : Op) : (op.perform h).map Prod.fst = op.apply h := by
  cases op <;> simp [Op.perform, Op.apply, Option.map_map, Function.comp_def]

theorem Op.sim {g : Addr → Addr} {D : Addr → Prop} {h k : Heap} (P : Pl g D h k) (op : Op) (ha : ∀ p ∈ op.args, In D p) {h' : Heap} {rs : List Ptr}
    (e : op.perform h = some (h', rs)) :
    ∃ g' D' k', (op.mapArgs (Option.map g)).perform k = some (k', rs.map (Option.map g')) ∧ Grow g D k g' D' h' k' ∧ ∀ r ∈ rs, In D' r := by
  have K : Pl.Keeps g D k h k := ⟨P, .refl⟩
  cases op with
  | newNode l t ks =>
    simp only [Op.perform, Option.some.injEq, Prod.mk.injEq] at e
    obtain ⟨rfl, rfl⟩ := e
    obtain ⟨g', D', G, d, e1⟩ := P.newNode l t ks
    exact ⟨g', D', _, by simp [Op.mapArgs, Op.perform, e1], G, by simpa using d⟩
  | newNodes l ts =>
    simp only [Op.perform, Option.some.injEq, Prod.mk.injEq] at e
    obtain ⟨rfl, rfl⟩ := e
    obtain ⟨g', D', G, d, e1⟩ := P.newNodes l ts
    exact ⟨g', D', _, by simp [Op.mapArgs, Op.perform, e1], G, by simpa using d⟩
  | insertNext n m =>
    simp only [Op.perform, Option.some.injEq, Prod.mk.injEq] at e
    obtain ⟨rfl, rfl⟩ := e
    obtain ⟨K', e1, i1, i2⟩ := Pl.insertNext K (ha n (by simp [Op.args])) (ha m (by simp [Op.args]))
    exact ⟨g, D, _, by simp [Op.mapArgs, Op.perform, e1], .of_keeps K', by simp [i1, i2]⟩
  | insertPrev n m =>
    simp only [Op.perform, Option.some.injEq, Prod.mk.injEq] at e
    obtain ⟨rfl, rfl⟩ := e
    obtain ⟨K', e1, i1, i2⟩ := Pl.insertPrev K (ha n (by simp [Op.args])) (ha m (by simp [Op.args]))
    exact ⟨g, D, _, by simp [Op.mapArgs, Op.perform, e1], .of_keeps K', by simp [i1, i2]⟩
  | replaceNext n m =>
    simp only [Op.perform, Option.some.injEq, Prod.mk.injEq] at e
    obtain ⟨rfl, rfl⟩ := e
    obtain ⟨K', e1, i1, i2⟩ := Pl.replaceNext K (ha n (by simp [Op.args])) (ha m (by simp [Op.args]))
    exact ⟨g, D, _, by simp [Op.mapArgs, Op.perform, e1], .of_keeps K', by simp [i1, i2]⟩
  | replacePrev n m =>
    simp only [Op.perform, Option.some.injEq, Prod.mk.injEq] at e
    obtain ⟨rfl, rfl⟩ := e
    obtain ⟨K', e1, i1, i2⟩ := Pl.replacePrev K (ha n (by simp [Op.args])) (ha m (by simp [Op.args]))
    exact ⟨g, D, _, by simp [Op.mapArgs, Op.perform, e1], .of_keeps K', by simp [i1, i2]⟩
  | takeNext n =>
    simp only [Op.perform, Option.some.injEq, Prod.mk.injEq] at e
    obtain ⟨rfl, rfl⟩ := e
    obtain ⟨K', e1, i1⟩ := Pl.takeNext K (ha n (by simp [Op.args]))
    exact ⟨g, D, _, by simp [Op.mapArgs, Op.perform, e1], .of_keeps K', by simp [i1]⟩
  | takePrev n =>
    simp only [Op.perform, Option.some.injEq, Prod.mk.injEq] at e
    obtain ⟨rfl, rfl⟩ := e
    obtain ⟨K', e1, i1⟩ := Pl.takePrev K (ha n (by simp [Op.args]))
    exact ⟨g, D, _, by simp [Op.mapArgs, Op.perform, e1], .of_keeps K', by simp [i1]⟩
  | removeNext n =>
    simp only [Op.perform, Option.some.injEq, Prod.mk.injEq] at e
    obtain ⟨rfl, rfl⟩ := e
    obtain ⟨K', e1, i1⟩ := Pl.removeNext K (ha n (by simp [Op.args]))
    exact ⟨g, D, _, by simp [Op.mapArgs, Op.perform, e1], .of_keeps K', by simp [i1]⟩
  | removePrev n =>
    simp only [Op.perform, Option.some.injEq, Prod.mk.injEq] at e
    obtain ⟨rfl, rfl⟩ := e
    obtain ⟨K', e1, i1⟩ := Pl.removePrev K (ha n (by simp [Op.args]))
    exact ⟨g, D, _, by simp [Op.mapArgs, Op.perform, e1], .of_keeps K', by simp [i1]⟩
  | isolate n =>
    simp only [Op.perform, Option.some.injEq, Prod.mk.injEq] at e
    obtain ⟨rfl, rfl⟩ := e
    exact ⟨g, D, _, by simp [Op.mapArgs, Op.perform], .of_keeps (Pl.isolate K (ha n (by simp [Op.args]))), by simp⟩
  | combineNext n kd ms =>
    obtain ⟨⟨h1, r1⟩, e1, e2⟩ := Option.map_eq_some_iff.1 e
    simp only [Prod.mk.injEq] at e2
    obtain ⟨rfl, rfl⟩ := e2
    obtain ⟨k', e3, K', i⟩ := Pl.combineNext K (ha n (by simp [Op.args])) (fun m hm => ha m (by simp [Op.args, hm])) kd e1
    exact ⟨g, D, k', by simp [Op.mapArgs, Op.perform, e3], .of_keeps K', by simp [i]⟩
  | combinePrev n kd ms =>
    obtain ⟨⟨h1, r1⟩, e1, e2⟩ := Option.map_eq_some_iff.1 e
    simp only [Prod.mk.injEq] at e2
    obtain ⟨rfl, rfl⟩ := e2
    obtain ⟨k', e3, K', i⟩ := Pl.combinePrev K (ha n (by simp [Op.args])) (fun m hm => ha m (by simp [Op.args, hm])) kd e1
    exact ⟨g, D, k', by simp [Op.mapArgs, Op.perform, e3], .of_keeps K', by simp [i]⟩
  | copy n b =>
    obtain ⟨⟨h1, r1⟩, e1, e2⟩ := Option.map_eq_some_iff.1 e
    simp only [Prod.mk.injEq] at e2
    obtain ⟨rfl, rfl⟩ := e2
    obtain ⟨g', D', k', e3, G, i⟩ := P.copy (ha n (by simp [Op.args])) b e1
    exact ⟨g', D', k', by simp [Op.mapArgs, Op.perform, e3], G, by simp [i]⟩
  | setKind n kd =>
    simp only [Op.perform, Option.some.injEq, Prod.mk.injEq] at e
    obtain ⟨rfl, rfl⟩ := e
    exact ⟨g, D, _, by simp [Op.mapArgs, Op.perform], .of_keeps (Pl.setKind K (ha n (by simp [Op.args])) kd), by simp⟩
  | setText n t =>
    simp only [Op.perform, Option.some.injEq, Prod.mk.injEq] at e
    obtain ⟨rfl, rfl⟩ := e
    exact ⟨g, D, _, by simp [Op.mapArgs, Op.perform], .of_keeps (Pl.setText K (ha n (by simp [Op.args])) t), by simp⟩

/-! ## Steps -/

/-- The same goroutine, its nodes elsewhere. -/
def Gor.at (φ : Addr → Addr) (g : Gor) : Gor := ⟨g.nodes.map (Option.map φ), g.scopes.map (ScopeRec.at φ), g.seen⟩

/-- All variables hold nodes of `D`. -/
structure Holds (D : Addr → Prop) (g : Gor) : Prop where
  nodes : ∀ p ∈ g.nodes, In D p
  scopes : ∀ sc ∈ g.scopes, In D sc.node

theorem Gor.var_at (φ : Addr → Addr) (g : Gor) (i : Option Nat) : (g.at φ).var i = (g.var i).map φ := by
  cases i with
  | none => rfl
  | some i =>
    simp only [Gor.var, Gor.at, List.getElem?_map]
    cases g.nodes[i]? <;> rfl

theorem Gor.scopeVars_at (φ : Addr → Addr) (g : Gor) (is : List Nat) : (g.at φ).scopeVars is = (g.scopeVars is).map (ScopeRec.at φ) := by
  simp only [Gor.scopeVars, Gor.at, List.map_filterMap]
  congr 1
  funext i
  simp

theorem Holds.var {D : Addr → Prop} {g : Gor} (H : Holds D g) (i : Option Nat) : In D (g.var i) := by
  cases i with
  | none => simp [Gor.var]
  | some i =>
    simp only [Gor.var]
    cases e : g.nodes[i]? with
    | none => simp
    | some p => simpa using H.nodes p (List.mem_of_getElem? e)

theorem Holds.scopeVars {D : Addr → Prop} {g : Gor} (H : Holds D g) (is : List Nat) : ∀ sc ∈ g.scopeVars is, In D sc.node := by
  intro sc hsc
  obtain ⟨i, _, e⟩ := List.mem_filterMap.1 hsc
  exact H.scopes sc (List.mem_of_getElem? e)

theorem Gor.put_at (φ : Addr → Addr) (g : Gor) (ps : List Ptr) : (g.at φ).put (ps.map (Option.map φ)) = (g.put ps).at φ := by
  simp [Gor.at, Gor.put, Function.comp_def]

theorem Gor.putScopes_at (φ : Addr → Addr) (g : Gor) (scs : List ScopeRec) : (g.at φ).putScopes (scs.map (ScopeRec.at φ)) = (g.putScopes scs).at φ := by
  simp [Gor.at, Gor.putScopes]

theorem Gor.see_at (φ : Addr → Addr) (g : Gor) (o : Obs) : (g.at φ).see o = (g.see o).at φ := rfl

variable {φ φ' : Addr → Addr} {D D' : Addr → Prop} {h h' k k' : Heap}

theorem Gor.at_grow (G : Grow φ D k φ' D' h' k') {g : Gor} (H : Holds D g) : g.at φ' = g.at φ := by
  simp only [Gor.at, Gor.mk.injEq, and_true]
  refine ⟨List.map_congr_left (fun p hp => G.map (H.nodes p hp)), List.map_congr_left (fun sc hsc => ?_)⟩
  simp only [ScopeRec.at, G.map (H.scopes sc hsc)]

theorem Holds.grow (G : Grow φ D k φ' D' h' k') {g : Gor} (H : Holds D g) : Holds D' g :=
  ⟨fun p hp => G.in_ (H.nodes p hp), fun sc hsc => G.in_ (H.scopes sc hsc)⟩

theorem Holds.put {g : Gor} (H : Holds D g) {ps : List Ptr} (hp : ∀ p ∈ ps, In D p) : Holds D (g.put ps) :=
  ⟨fun p h => by
    rcases List.mem_append.1 (show p ∈ g.nodes ++ ps from h) with h | h
    · exact H.nodes p h
    · exact hp p h, H.scopes⟩

theorem Holds.putScopes {g : Gor} (H : Holds D g) {scs : List ScopeRec} (hp : ∀ sc ∈ scs, In D sc.node) : Holds D (g.putScopes scs) :=
  ⟨H.nodes, fun p h => by
    rcases List.mem_append.1 (show p ∈ g.scopes ++ scs from h) with h | h
    · exact H.scopes p h
    · exact hp p h⟩

theorem Holds.see {g : Gor} (H : Holds D g) (o : Obs) : Holds D (g.see o) := ⟨H.nodes, H.scopes⟩

/-- An iteration that comes to an end without having been stopped went along a finite chain. -/
theorem fwd_of_loop {σ : Type} {fn : σ → Addr → σ × Bool} (ht : ∀ s a, (fn s a).2 = true) (P : Pl φ D h k) :
    ∀ {fuel : Nat} {s : σ} {p : Ptr} {r : σ × Ptr}, In D p → loop (fun _ a => h.next (some a)) (fun s a => some (fn s a)) fuel s p = some r → ∃ l, Fwd h p l
  | fuel, s, none, r, _, _ => ⟨[], .nil⟩
  | 0, s, some a, r, _, e => by cases e
  | fuel + 1, s, some a, r, hp, e => by
    have ha := hp a rfl
    rw [loop] at e
    have := ht s a
    rcases hx : fn s a with ⟨s1, b⟩
    rw [hx] at this
    simp only at this
    subst this
    simp only [hx] at e
    obtain ⟨l, f⟩ := fwd_of_loop ht P (P.in_next hp) e
    exact ⟨a :: l, .cons (P.lt ha) f⟩

theorem fwd_of_text (P : Pl φ D h k) : ∀ {scs : List ScopeRec} {t : Bytes}, (∀ sc ∈ scs, In D sc.node) → scopesText h scs = some t → ∀ sc ∈ scs, ∃ l, Fwd h sc.node l
  | [], _, _, _ => by simp
  | sc :: scs, t, hd, e => by
    rw [scopesText] at e
    cases e1 : chainText h sc.node with
    | none => rw [e1] at e; cases e
    | some t1 =>
      rw [e1] at e
      obtain ⟨t2, e2, _⟩ := Option.map_eq_some_iff.1 e
      intro x hx
      rcases List.mem_cons.1 hx with rfl | hx
      · obtain ⟨r, e3, _⟩ := Option.map_eq_some_iff.1 e1
        exact fwd_of_loop (fun _ _ => rfl) P (hd _ (by simp)) e3
      · exact fwd_of_text P (fun sc h => hd sc (by simp [h])) e2 x hx

theorem Act.sim (P : Pl φ D h k) {g g' : Gor} (H : Holds D g) (act : Act) (e : act.step h g = some (h', g')) :
    ∃ φ' D' k', act.step k (g.at φ) = some (k', g'.at φ') ∧ Grow φ D k φ' D' h' k' ∧ Holds D' g' := by
  cases act with
  | call op =>
    obtain ⟨⟨h1, rs⟩, e1, e2⟩ := Option.map_eq_some_iff.1 e
    simp only [Prod.mk.injEq] at e2
    obtain ⟨rfl, rfl⟩ := e2
    obtain ⟨φ', D', k', e3, G, i⟩ := Op.sim P (op.mapArgs g.var) (by
      rw [Op.args_mapArgs]
      intro p hp
      obtain ⟨j, _, rfl⟩ := List.mem_map.1 hp
      exact H.var j) e1
    rw [Op.mapArgs_comp] at e3
    refine ⟨φ', D', k', ?_, G, (H.grow G).put i⟩
    have : (g.at φ).var = fun p => (g.var p).map φ := funext (Gor.var_at φ g)
    simp only [Act.step, this, e3, Option.map_some, Option.some.injEq, Prod.mk.injEq, true_and]
    rw [← Gor.at_grow G H, Gor.put_at]
  | next i =>
    simp only [Act.step, Option.some.injEq, Prod.mk.injEq] at e
    obtain ⟨rfl, rfl⟩ := e
    refine ⟨φ, D, k, ?_, .refl P, H.put (by simpa using P.in_next (H.var i))⟩
    simp only [Act.step, Gor.var_at, P.next (H.var i), Option.some.injEq, Prod.mk.injEq, true_and]
    exact Gor.put_at φ g [_]
  | prev i =>
    simp only [Act.step, Option.some.injEq, Prod.mk.injEq] at e
    obtain ⟨rfl, rfl⟩ := e
    refine ⟨φ, D, k, ?_, .refl P, H.put (by simpa using P.in_prev (H.var i))⟩
    simp only [Act.step, Gor.var_at, P.prev (H.var i), Option.some.injEq, Prod.mk.injEq, true_and]
    exact Gor.put_at φ g [_]
  | look i =>
    simp only [Act.step, Option.some.injEq, Prod.mk.injEq] at e
    obtain ⟨rfl, rfl⟩ := e
    refine ⟨φ, D, k, ?_, .refl P, H.see _⟩
    simp only [Act.step, Gor.var_at, P.emb.nodeView _ (H.var i), Option.some.injEq, Prod.mk.injEq, true_and]
    rfl
  | same i j =>
    simp only [Act.step, Option.some.injEq, Prod.mk.injEq] at e
    obtain ⟨rfl, rfl⟩ := e
    refine ⟨φ, D, k, ?_, .refl P, H.see _⟩
    have : ((g.var i).map φ == (g.var j).map φ) = (g.var i == g.var j) := by
      rw [Bool.eq_iff_iff, beq_iff_eq, beq_iff_eq, P.ptr_eq (H.var i) (H.var j)]
    simp only [Act.step, Gor.var_at, this, Option.some.injEq, Prod.mk.injEq, true_and]
    rfl
  | parse sl text =>
    obtain ⟨⟨h1, scs⟩, e1, e2⟩ := Option.map_eq_some_iff.1 e
    simp only [Prod.mk.injEq] at e2
    obtain ⟨rfl, rfl⟩ := e2
    obtain ⟨b, scs0, e0, w, _, fw, all⟩ := parse_alone mapOrder_id sl text
    have eh : parseScope h sl text = some (h.beside b, scs0.map (ScopeRec.moved h.size)) := all h
    have ek : parseScope k sl text = some (k.beside b, scs0.map (ScopeRec.moved k.size)) := all k
    rw [eh] at e1
    simp only [Option.some.injEq, Prod.mk.injEq] at e1
    obtain ⟨rfl, rfl⟩ := e1
    have G := P.beside w
    have ee : (scs0.map (ScopeRec.moved h.size)).map (ScopeRec.at fun a => if a < h.size then φ a else a - h.size + k.size) = scs0.map (ScopeRec.moved k.size) := by
      rw [List.map_map]
      refine List.map_congr_left (fun sc _ => ?_)
      simp only [Function.comp, ScopeRec.at, ScopeRec.moved]
      congr 1
      cases sc.node with
      | none => rfl
      | some a => simp [moved, show ¬ a + h.size < h.size by omega]
    refine ⟨_, _, k.beside b, ?_, G, (H.grow G).putScopes ?_⟩
    · simp only [Act.step, ek, Option.map_some, Option.some.injEq, Prod.mk.injEq, true_and]
      rw [← Gor.at_grow G H, ← ee, Gor.putScopes_at]
    · intro sc hsc a ha
      obtain ⟨sc0, h0, rfl⟩ := List.mem_map.1 hsc
      obtain ⟨l, f⟩ := fw sc0 h0
      simp only [ScopeRec.moved] at ha
      obtain ⟨a0, ha0, rfl⟩ := Option.map_eq_some_iff.1 ha
      rw [ha0] at f
      cases f with
      | cons hl _ => exact .inr ⟨by omega, by omega⟩
  | newScope l kd i =>
    simp only [Act.step, Option.some.injEq, Prod.mk.injEq] at e
    obtain ⟨rfl, rfl⟩ := e
    refine ⟨φ, D, k, ?_, .refl P, H.putScopes (by
      intro sc hsc
      rw [List.mem_singleton] at hsc
      subst hsc
      exact H.var i)⟩
    simp only [Act.step, Gor.var_at, Option.some.injEq, Prod.mk.injEq, true_and]
    exact Gor.putScopes_at φ g [Goast.newScope l kd (g.var i)]
  | copyScope i =>
    rw [Act.step] at e
    cases e0 : g.scopes[i]? with
    | none => rw [e0] at e; cases e
    | some sc =>
      rw [e0] at e
      obtain ⟨⟨h1, sc1⟩, e1, e2⟩ := Option.map_eq_some_iff.1 e
      simp only [Prod.mk.injEq] at e2
      obtain ⟨rfl, rfl⟩ := e2
      rw [ScopeRec.copy] at e1
      obtain ⟨⟨h2, p⟩, e3, e4⟩ := Option.map_eq_some_iff.1 e1
      simp only [Prod.mk.injEq] at e4
      obtain ⟨rfl, rfl⟩ := e4
      obtain ⟨φ', D', k', e5, G, i5⟩ := P.copy (H.scopes sc (List.mem_of_getElem? e0)) true e3
      refine ⟨φ', D', k', ?_, G, (H.grow G).putScopes (by
        intro sc hsc
        rw [List.mem_singleton] at hsc
        subst hsc
        exact i5)⟩
      have : (g.at φ).scopes[i]? = some (sc.at φ) := by simp [Gor.at, e0]
      simp only [Act.step, this, ScopeRec.copy, show (sc.at φ).node = sc.node.map φ from rfl, e5, Option.map_some, Option.some.injEq, Prod.mk.injEq, true_and]
      rw [← Gor.at_grow G H]
      exact Gor.putScopes_at φ' g [{ sc with node := p }]
  | node i =>
    simp only [Act.step, Option.some.injEq, Prod.mk.injEq] at e
    obtain ⟨rfl, rfl⟩ := e
    refine ⟨φ, D, k, ?_, .refl P, H.put (by
      intro p hp
      rw [List.mem_singleton] at hp
      subst hp
      cases e0 : g.scopes[i]? with
      | none => simp
      | some sc => exact H.scopes sc (List.mem_of_getElem? e0))⟩
    have : ((g.at φ).scopes[i]?).bind ScopeRec.node = ((g.scopes[i]?).bind ScopeRec.node).map φ := by
      simp only [Gor.at, List.getElem?_map]
      cases g.scopes[i]? <;> rfl
    simp only [Act.step, this, Option.some.injEq, Prod.mk.injEq, true_and]
    exact Gor.put_at φ g [_]
  | view is =>
    rw [Act.step] at e
    cases e1 : scopesText h (g.scopeVars is) with
    | none => rw [e1] at e; cases e
    | some t =>
      rw [e1] at e
      simp only [Option.some.injEq, Prod.mk.injEq] at e
      obtain ⟨rfl, rfl⟩ := e
      have hd := H.scopeVars is
      have fw := fwd_of_text P hd e1
      have hl : ∀ sc ∈ g.scopeVars is, ∃ l, Fwd h sc.node l ∧ ∀ a, sc.node = some a → D a := fun sc hsc => (fw sc hsc).imp fun l f => ⟨f, hd sc hsc⟩
      obtain ⟨t', e2, e3⟩ := P.emb.scopesText hl
      have ev := (P.emb.scopesView hl).1
      refine ⟨φ, D, k, ?_, .refl P, H.see _⟩
      simp only [Act.step, Gor.scopeVars_at, e3, ev, Option.some.injEq, Prod.mk.injEq, true_and]
      rfl

/-! ## Schedules -/

/-- Other nodes of the large heap change. -/
theorem Pl.other (P : Pl φ D h k) (hs : k.size ≤ k'.size) (same : ∀ a, D a → k'.cells[φ a]? = k.cells[φ a]?) : Pl φ D h k' :=
  ⟨Nat.le_trans P.le hs, P.lt, P.inj, fun ha => (same _ ha).trans (P.cell ha), P.nextC, P.prevC⟩

theorem together_sim (progs : Nat → Prog) : ∀ (sched : List Nat) (k : Heap) (H : Nat → Heap) (G : Nat → Gor) (φ : Nat → Addr → Addr) (D : Nat → Addr → Prop),
    (∀ i, Pl (φ i) (D i) (H i) k) → (∀ i, Holds (D i) (G i)) → (∀ i j a b, i ≠ j → D i a → D j b → φ i a ≠ φ j b) →
    (∀ i, ∃ r, solo (progs i) (sched.count i) (H i) (G i) = some r) →
    ∃ k' gs', together progs sched k (fun i => (G i).at (φ i)) = some (k', gs') ∧
      (∀ i h' g', solo (progs i) (sched.count i) (H i) (G i) = some (h', g') → (gs' i).seen = g'.seen) ∧ k.size ≤ k'.size ∧
      ∀ b, b < k.size → (∀ i a, D i a → φ i a ≠ b) → k'.cells[b]? = k.cells[b]?
  | [], k, H, G, φ, D, pl, ho, dis, ok => by
    refine ⟨k, _, rfl, fun i h' g' e => ?_, Nat.le_refl _, fun _ _ _ => rfl⟩
    simp only [List.count_nil, solo, Option.some.injEq, Prod.mk.injEq] at e
    rw [← e.2]
    rfl
  | i :: sched, k, H, G, φ, D, pl, ho, dis, ok => by
    have ci : (i :: sched).count i = sched.count i + 1 := List.count_cons_self
    have cj : ∀ j, j ≠ i → (i :: sched).count j = sched.count j := fun j hj => List.count_cons_of_ne (Ne.symm hj)
    obtain ⟨r, er⟩ := ok i
    rw [ci, solo] at er
    cases es : (progs i (G i).seen).step (H i) (G i) with
    | none => rw [es] at er; cases er
    | some x =>
      obtain ⟨h1, g1⟩ := x
      rw [es] at er
      simp only at er
      obtain ⟨φ1, D1, k1, e1, Gr, H1⟩ := Act.sim (pl i) (ho i) _ es
      let H' : Nat → Heap := fun j => if j = i then h1 else H j
      let G' : Nat → Gor := fun j => if j = i then g1 else G j
      let φ' : Nat → Addr → Addr := fun j => if j = i then φ1 else φ j
      let D' : Nat → Addr → Prop := fun j => if j = i then D1 else D j
      have other : ∀ j, j ≠ i → ∀ a, D j a → k1.cells[φ j a]? = k.cells[φ j a]? := by
        intro j hj a ha
        exact Gr.fr.frame _ ((pl j).lt' ha) (fun c hc => dis i j c a (Ne.symm hj) hc ha)
      have apart : ∀ j, j ≠ i → ∀ a b, D1 a → D j b → φ1 a ≠ φ j b := by
        intro j hj a b ha hb e
        by_cases hd : D i a
        · rw [Gr.old hd] at e
          exact dis i j a b (Ne.symm hj) hd hb e
        · have := Gr.new ha hd
          have := (pl j).lt' hb
          omega
      obtain ⟨k', gs', e2, seen, sz, fr⟩ := together_sim progs sched k1 H' G' φ' D' (by
          intro j
          by_cases hj : j = i
          · simp only [H', φ', D', hj, if_true]; exact Gr.pl
          · simp only [H', φ', D', hj, if_false]
            exact (pl j).other Gr.fr.size (other j hj)) (by
          intro j
          by_cases hj : j = i
          · simp only [G', D', hj, if_true]; exact H1
          · simp only [G', D', hj, if_false]; exact ho j) (by
          intro j l a b hjl ha hb
          by_cases hj : j = i
          · by_cases hl : l = i
            · exact absurd (hj.trans hl.symm) hjl
            · simp only [φ', D', hj, hl, if_true, if_false] at ha hb ⊢
              exact apart l hl a b ha hb
          · by_cases hl : l = i
            · simp only [φ', D', hj, hl, if_true, if_false] at ha hb ⊢
              exact fun e => apart j hj b a hb ha e.symm
            · simp only [φ', D', hj, hl, if_false] at ha hb ⊢
              exact dis j l a b hjl ha hb) (by
          intro j
          by_cases hj : j = i
          · simp only [H', G', hj, if_true]; exact ⟨r, er⟩
          · simp only [H', G', hj, if_false]
            have := ok j
            rwa [cj j hj] at this)
      refine ⟨k', gs', ?_, ?_, Nat.le_trans Gr.fr.size sz, ?_⟩
      · rw [together]
        simp only [show ((G i).at (φ i)).seen = (G i).seen from rfl, e1]
        rw [← e2]
        congr 1
        funext j
        by_cases hj : j = i <;> simp [G', φ', hj]
      · intro j h' g' e
        by_cases hj : j = i
        · subst hj
          rw [ci, solo, es] at e
          exact seen j h' g' (by simpa [H', G'] using e)
        · rw [cj j hj] at e
          exact seen j h' g' (by simpa [H', G', hj] using e)
      · intro b hb hd
        rw [fr b (Nat.lt_of_lt_of_le hb Gr.fr.size) ?_, Gr.fr.frame b hb (hd i)]
        intro j a ha e
        by_cases hj : j = i
        · simp only [φ', D', hj, if_true] at ha e
          by_cases h0 : D i a
          · exact hd i a h0 ((Gr.old h0).symm.trans e)
          · have := Gr.new ha h0; omega
        · simp only [φ', D', hj, if_false] at ha e
          exact hd j a ha e

end Goast
