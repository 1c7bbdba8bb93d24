import Verif.Proofs.Seg
import Verif.Spec.History

/-!
# One step of a history
-/

namespace Goast
namespace Heap

theorem wf_empty : WF Heap.empty where
  inverse a b := by simp [next, prev, Heap.empty]
  irrefl a := by simp [next, Heap.empty]

theorem ranked_empty : Ranked Heap.empty := ⟨fun _ => 0, by simp [next, Heap.empty]⟩

theorem newNodes_wf {h : Heap} (w : WF h) (L : Int) (ts : List Bytes) : WF (h.newNodes L ts).1 := by
  cases ts with
  | nil => exact w
  | cons t ts =>
    have w1 := wf_newNode w L t []
    have e := newNode_eq h L t []
    simp only [newNodes]
    refine (newNodesLoop_post ts _ _ L w1 ?_ ?_).wf
    · rw [e]; simp
    · rw [e]
      show (h.extend _).next (some h.size) = none
      rw [next_extend_unlinked (by simp), next_of_ge (Nat.le_refl _)]

/-- What a `Combine` call does to the heap: a kind, some isolations, a text. -/
theorem combineNext_some {h : Heap} {n : Ptr} {k : Kind} {ms : List Ptr} {h' : Heap} {r : Ptr}
    (e : h.combineNext n k ms = some (h', r)) :
    ∃ ns t, (∀ m ∈ ns, m ∈ ms) ∧ h' = (((h.setKind n k).isolateAll ns).setText r t) ∧ (r = n ∨ r ∈ ms) := by
  unfold combineNext at e
  rcases ms with _ | ⟨m, ms⟩
  · simp only [Option.some.injEq, Prod.mk.injEq] at e
    obtain ⟨rfl, rfl⟩ := e
    rcases n with _ | a
    · exact ⟨[], [], by simp, by simp [isolateAll, setKind, setText], .inl rfl⟩
    · refine ⟨[], (h.setKind (some a) k).text (some a), by simp, ?_, .inl rfl⟩
      simp only [isolateAll, List.foldl_nil]
      generalize h.setKind (some a) k = h1
      simp only [setText, text, modify]
      have key : ∀ (l : List NodeRec) (a : Nat), l.modify a (fun r => { r with text :=
          (match l[a]? with | none => [] | some r => r.text) }) = l := by
        intro l
        induction l with
        | nil => intro a; simp
        | cons r l ih =>
          intro a
          cases a with
          | zero => simp
          | succ a => simpa using ih a
      exact congrArg Heap.mk (key h1.cells a).symm
  · simp only [combineLoop_eq] at e
    rcases n with _ | a
    · rcases m with _ | a
      · simp at e
      · simp only [Option.some.injEq, Prod.mk.injEq] at e
        obtain ⟨rfl, rfl⟩ := e
        refine ⟨realNodes (some a) ms, _, ?_, rfl, .inr (by simp)⟩
        intro m hm
        exact List.mem_cons_of_mem _ (List.mem_filter.1 hm).1
    · simp only [Option.some.injEq, Prod.mk.injEq] at e
      obtain ⟨rfl, rfl⟩ := e
      refine ⟨realNodes (some a) (m :: ms), _, ?_, rfl, .inl rfl⟩
      intro m hm
      exact (List.mem_filter.1 hm).1

theorem combinePrev_some {h : Heap} {n : Ptr} {k : Kind} {ms : List Ptr} {h' : Heap} {r : Ptr}
    (e : h.combinePrev n k ms = some (h', r)) :
    ∃ ns t, (∀ m ∈ ns, m ∈ ms) ∧ h' = (((h.setKind n k).isolateAll ns).setText r t) ∧ (r = n ∨ r ∈ ms) := by
  rcases ms with _ | ⟨m, ms⟩
  · exact combineNext_some e
  · unfold combinePrev at e
    simp only [combineLoop_eq] at e
    rcases n with _ | a
    · rcases m with _ | a
      · simp at e
      · simp only [Option.some.injEq, Prod.mk.injEq] at e
        obtain ⟨rfl, rfl⟩ := e
        refine ⟨realNodes (some a) ms, _, ?_, rfl, .inr (by simp)⟩
        intro m hm
        exact List.mem_cons_of_mem _ (List.mem_filter.1 hm).1
    · simp only [Option.some.injEq, Prod.mk.injEq] at e
      obtain ⟨rfl, rfl⟩ := e
      refine ⟨realNodes (some a) (m :: ms), _, ?_, rfl, .inl rfl⟩
      intro m hm
      exact (List.mem_filter.1 hm).1

theorem copy_single (h : Heap) (a : Addr) :
    h.copy (some a) false = some (h.extend [copyCell h a none none], some h.size) := rfl

theorem valid_setKind {h : Heap} {n k} {p : Ptr} : Valid (h.setKind n k) p ↔ Valid h p := by
  simp [Valid]

theorem wf_copy {h h' : Heap} (w : WF h) {n r : Ptr} {b : Bool} (v : Valid h n)
    (e : h.copy n b = some (h', r)) : WF h' := by
  rcases n with _ | a
  · cases e; exact w
  · cases b with
    | false => rw [copy_single] at e; cases e; exact wf_extend_unlinked w (by simp [copyCell]) (by simp [copyCell])
    | true =>
      obtain ⟨lb, lf, hb, hf⟩ := lists_of_copy h w a (v a rfl) _ e
      rw [copy_eq h hb hf] at e
      cases e
      exact wf_extend_copyCells w a lb lf

theorem wf_apply {h h' : Heap} (w : WF h) (op : Op) (v : ∀ p ∈ op.args, Valid h p)
    (e : op.apply h = some h') : WF h' := by
  cases op <;> simp only [Op.apply, Option.some.injEq, Op.args, List.mem_cons, List.not_mem_nil, or_false,
    forall_eq_or_imp, forall_eq] at e v
  case newNode => subst e; exact wf_newNode w ..
  case newNodes => subst e; exact newNodes_wf w ..
  case insertNext => subst e; exact wf_insertNext w v.1 v.2
  case insertPrev => subst e; exact wf_insertPrev w v.1 v.2
  case replaceNext => subst e; exact wf_replaceNext w v.1 v.2
  case replacePrev => subst e; exact wf_replacePrev w v.1 v.2
  case takeNext => subst e; exact wf_takeNext w v
  case takePrev => subst e; exact wf_takePrev w v
  case removeNext => subst e; exact wf_removeNext w v
  case removePrev => subst e; exact wf_removePrev w v
  case isolate => subst e; exact wf_isolate w v
  case combineNext n k ms =>
    cases hc : h.combineNext n k ms with
    | none => rw [hc] at e; cases e
    | some r =>
      rw [hc] at e; cases e
      obtain ⟨ns, t, h1, h2, h3⟩ := combineNext_some hc
      show WF r.1
      rw [h2]
      exact wf_setText (wf_isolateAll ns (wf_setKind w n k) (fun m hm => valid_setKind.2 (v.2 m (h1 m hm)))) _ _
  case combinePrev n k ms =>
    cases hc : h.combinePrev n k ms with
    | none => rw [hc] at e; cases e
    | some r =>
      rw [hc] at e; cases e
      obtain ⟨ns, t, h1, h2, h3⟩ := combinePrev_some hc
      show WF r.1
      rw [h2]
      exact wf_setText (wf_isolateAll ns (wf_setKind w n k) (fun m hm => valid_setKind.2 (v.2 m (h1 m hm)))) _ _
  case copy n r =>
    cases hc : h.copy n r with
    | none => rw [hc] at e; cases e
    | some r =>
      rw [hc] at e; cases e
      exact wf_copy w v hc
  case setKind => subst e; exact wf_setKind w ..
  case setText => subst e; exact wf_setText w ..

/-! ## Acyclicity -/

theorem ranked_of_links {h h' : Heap} (r : Ranked h) (hn : ∀ p, h'.next p = h.next p) : Ranked h' :=
  r.of_sub fun a b hab => by rw [hn] at hab; exact hab

theorem acyclic_extends {h h' : Heap} (ac : Acyclic h) (ex : Extends h h')
    (hn : ∀ x, h.size ≤ x → x < h'.size → ∃ l, Fwd h' (some x) l) : Acyclic h' := by
  intro a ha
  by_cases hs : a < h.size
  · obtain ⟨l, f⟩ := ac a hs
    exact ⟨l, f.congr (fun a ha => Nat.lt_of_lt_of_le (f.lt a ha) ex.1) (fun a ha => (ex.2 a (f.lt a ha)).1)⟩
  · exact hn a (by omega) ha

theorem extends_extend (h : Heap) (rs) : Extends h (h.extend rs) :=
  ⟨by simp, fun a ha => ⟨next_extend_lt ha, prev_extend_lt ha, by
    simp only [data, line_extend_lt ha, kind_extend_lt ha, text_extend_lt ha]⟩⟩

theorem mem_copyAddrs {s nb nf x : Nat} : x ∈ copyAddrs s nb nf ↔ s ≤ x ∧ x < s + 1 + nb + nf := by
  simp only [copyAddrs, List.mem_append, List.mem_reverse, List.mem_range'_1, List.mem_cons]
  omega

theorem acyclic_copy {h h' : Heap} (w : WF h) (ac : Acyclic h) {n r : Ptr} {b : Bool} (v : Valid h n)
    (e : h.copy n b = some (h', r)) : Acyclic h' := by
  rcases n with _ | a
  · cases e; exact ac
  · cases b with
    | false =>
      rw [copy_single] at e; cases e
      refine acyclic_extends ac (extends_extend h _) ?_
      intro x hx hx'
      refine ⟨[x], .cons hx' ?_⟩
      rw [next_extend_unlinked (by simp [copyCell]), next_of_ge hx]
      exact .nil
    | true =>
      obtain ⟨lb, lf, hb, hf⟩ := lists_of_copy h w a (v a rfl) _ e
      rw [copy_eq h hb hf] at e
      cases e
      have c := (chain_copyCells w a lb lf).1
      refine acyclic_extends ac (extends_extend h _) ?_
      intro x hx hx'
      rw [size_extend, length_copyCells] at hx'
      have : x ∈ copyAddrs h.size lb.length lf.length := mem_copyAddrs.2 (by omega)
      obtain ⟨l₁, l₂, e⟩ := List.append_of_mem this
      rw [e] at c
      exact ⟨_, Fwd.drop l₁ c.fwd⟩

theorem acyclic_newNodes {h : Heap} (w : WF h) (ac : Acyclic h) (L : Int) (ts : List Bytes) :
    Acyclic (h.newNodes L ts).1 := by
  cases ts with
  | nil => exact ac
  | cons t ts =>
    have w1 := wf_newNode w L t []
    have e := newNode_eq h L t []
    have hsz : (h.newNode L t []).1.size = h.size + 1 := by rw [e]; simp
    have hadr : (h.newNode L t []).2 = h.size := by rw [e]
    have post := newNodesLoop_post ts (h.newNode L t []).1 (h.newNode L t []).2 L w1 (by omega) (by
      rw [e]
      show (h.extend _).next (some h.size) = none
      rw [next_extend_unlinked (by simp), next_of_ge (Nat.le_refl _)])
    simp only [newNodes]
    generalize newNodesLoop _ _ _ _ = h' at post
    have ex := extends_extend h [⟨L, ([] : List Kind).headD (Kind.new t), t, none, none⟩]
    refine acyclic_extends ac ⟨?_, ?_⟩ ?_
    · rw [post.size]; omega
    · intro x hx
      have d := post.data_old x (by omega)
      rw [post.next_old x (by omega) (by omega), post.prev_old x (by omega)]
      simp only [data, d]
      rw [e]
      exact ex.2 x hx
    · intro x hx hx'
      rw [post.size] at hx'
      have f := post.fwd
      rw [hadr, hsz] at f
      have : x ∈ h.size :: List.range' (h.size + 1) ts.length := by
        simp only [List.mem_cons, List.mem_range'_1]; omega
      obtain ⟨l₁, l₂, e⟩ := List.append_of_mem this
      rw [e] at f
      exact ⟨_, Fwd.drop l₁ f⟩

theorem acyclic_apply {h h' : Heap} (w : WF h) (ac : Acyclic h) (op : Op) (nr : ¬ op.isReplace)
    (v : ∀ p ∈ op.args, Valid h p) (e : op.apply h = some h') : Acyclic h' := by
  have w' := wf_apply w op v e
  have r := ac.ranked w
  cases op <;> simp only [Op.apply, Option.some.injEq, Op.args, List.mem_cons, List.not_mem_nil, or_false,
    forall_eq_or_imp, forall_eq] at e v
  case newNode L t ks =>
    subst e
    refine Ranked.fwd w' (ranked_of_links r fun p => ?_)
    rw [newNode_eq]
    exact next_extend_unlinked (by simp) p
  case newNodes => subst e; exact acyclic_newNodes w ac _ _
  case insertNext => subst e; exact Ranked.fwd w' (ranked_insertNext w r v.1 v.2)
  case insertPrev => subst e; exact Ranked.fwd w' (ranked_insertPrev w r v.1 v.2)
  case replaceNext => exact absurd trivial nr
  case replacePrev => exact absurd trivial nr
  case takeNext => subst e; exact Ranked.fwd w' (ranked_takeNext w r v)
  case takePrev => subst e; exact Ranked.fwd w' (ranked_takePrev w r v)
  case removeNext => subst e; exact Ranked.fwd w' (ranked_removeNext w r v)
  case removePrev => subst e; exact Ranked.fwd w' (ranked_removePrev w r v)
  case isolate => subst e; exact Ranked.fwd w' (ranked_isolate w r v)
  case combineNext n k ms =>
    cases hc : h.combineNext n k ms with
    | none => rw [hc] at e; cases e
    | some x =>
      rw [hc] at e; cases e
      obtain ⟨ns, t, h1, h2, h3⟩ := combineNext_some hc
      refine Ranked.fwd w' ?_
      show Ranked x.1
      rw [h2]
      exact ranked_of_links (ranked_isolateAll ns (wf_setKind w n k) (ranked_of_links r (by simp))
        (fun m hm => valid_setKind.2 (v.2 m (h1 m hm)))) (by simp)
  case combinePrev n k ms =>
    cases hc : h.combinePrev n k ms with
    | none => rw [hc] at e; cases e
    | some x =>
      rw [hc] at e; cases e
      obtain ⟨ns, t, h1, h2, h3⟩ := combinePrev_some hc
      refine Ranked.fwd w' ?_
      show Ranked x.1
      rw [h2]
      exact ranked_of_links (ranked_isolateAll ns (wf_setKind w n k) (ranked_of_links r (by simp))
        (fun m hm => valid_setKind.2 (v.2 m (h1 m hm)))) (by simp)
  case copy n b =>
    cases hc : h.copy n b with
    | none => rw [hc] at e; cases e
    | some x =>
      rw [hc] at e; cases e
      exact acyclic_copy w ac v hc
  case setKind => subst e; exact Ranked.fwd w' (ranked_of_links r (by simp))
  case setText => subst e; exact Ranked.fwd w' (ranked_of_links r (by simp))

end Heap
end Goast
