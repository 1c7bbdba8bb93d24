import Verif.Proofs.History

/-!
# Frame: operations on nodes outside a link-closed region do not touch the region
-/

set_option linter.unusedSimpArgs false

namespace Goast

/-- No link leads out of `R`, and `R` holds allocated nodes only. -/
structure Closed (h : Heap) (R : Addr → Prop) : Prop where
  lt : ∀ a, R a → a < h.size
  next : ∀ a b, R a → h.next (some a) = some b → R b
  prev : ∀ a b, R a → h.prev (some a) = some b → R b

/-- Nothing about the nodes of `R` differs between `h` and `h'`. -/
def SameOn (R : Addr → Prop) (h h' : Heap) : Prop :=
  ∀ a, R a → h'.next (some a) = h.next (some a) ∧ h'.prev (some a) = h.prev (some a) ∧ data h' a = data h a

theorem SameOn.closed {R : Addr → Prop} {h h' : Heap} (s : SameOn R h h') (c : Closed h R)
    (hs : h.size ≤ h'.size) : Closed h' R where
  lt a ra := Nat.lt_of_lt_of_le (c.lt a ra) hs
  next a b ra e := c.next a b ra (by rw [← (s a ra).1]; exact e)
  prev a b ra e := c.prev a b ra (by rw [← (s a ra).2.1]; exact e)

theorem SameOn.of_links {R : Addr → Prop} {h h' : Heap} (sd : SameData h h')
    (hl : ∀ a, R a → h'.next (some a) = h.next (some a) ∧ h'.prev (some a) = h.prev (some a)) :
    SameOn R h h' := fun a ra => ⟨(hl a ra).1, (hl a ra).2, by
      have := sd.2 (some a); simp only [data, this]⟩

theorem SameOn.trans {R : Addr → Prop} {h₁ h₂ h₃ : Heap} (a : SameOn R h₁ h₂) (b : SameOn R h₂ h₃) :
    SameOn R h₁ h₃ := fun x rx => ⟨(b x rx).1.trans (a x rx).1, (b x rx).2.1.trans (a x rx).2.1,
      (b x rx).2.2.trans (a x rx).2.2⟩

theorem SameOn.of_extends {R : Addr → Prop} {h h' : Heap} (e : Extends h h') (c : Closed h R) : SameOn R h h' :=
  fun a ra => e.2 a (c.lt a ra)

namespace Heap

variable {h : Heap} {R : Addr → Prop}

/-- `p` is not a node of `R`. -/
def Out (R : Addr → Prop) (p : Ptr) : Prop := ∀ a, R a → p ≠ some a

theorem frame_insertNext (w : WF h) (c : Closed h R) {n m : Ptr} (hn : Valid h n) (hm : Valid h m)
    (on : Out R n) (om : Out R m) : SameOn R h (h.insertNext n m).1 := by
  by_cases h1 : n = m ∨ h.next n = m
  · simp only [insertNext, h1, if_true]; exact fun a _ => ⟨rfl, rfl, rfl⟩
  · have e := insertNext_links w hn hm (fun hh => h1 (.inl hh)) (fun hh => h1 (.inr hh))
    have i := w.inverse
    refine .of_links (sameData_insertNext ..) ?_
    intro a ra
    have c1 := c.next a; have c2 := c.prev a
    have o1 := on a ra; have o2 := om a ra
    rw [(e a).1, (e a).2]
    rcases n with _ | n <;> rcases m with _ | m <;> (try simp only [next_none, prev_none] at *) <;>
      unfold Out at * <;> grind

theorem frame_insertPrev (w : WF h) (c : Closed h R) {n m : Ptr} (hn : Valid h n) (hm : Valid h m)
    (on : Out R n) (om : Out R m) : SameOn R h (h.insertPrev n m).1 := by
  by_cases h1 : n = m ∨ h.prev n = m
  · simp only [insertPrev, h1, if_true]; exact fun a _ => ⟨rfl, rfl, rfl⟩
  · have e := insertPrev_links w hn hm (fun hh => h1 (.inl hh)) (fun hh => h1 (.inr hh))
    have i := w.inverse
    refine .of_links (sameData_insertPrev ..) ?_
    intro a ra
    have c1 := c.next a; have c2 := c.prev a
    have o1 := on a ra; have o2 := om a ra
    rw [(e a).1, (e a).2]
    rcases n with _ | n <;> rcases m with _ | m <;> (try simp only [next_none, prev_none] at *) <;>
      unfold Out at * <;> grind

theorem frame_replaceNext (w : WF h) (c : Closed h R) {n m : Ptr} (hn : Valid h n) (hm : Valid h m)
    (on : Out R n) (om : Out R m) : SameOn R h (h.replaceNext n m).1 := by
  by_cases h1 : n = m ∨ h.next n = m
  · simp only [replaceNext, h1, if_true]; exact fun a _ => ⟨rfl, rfl, rfl⟩
  · have e := replaceNext_links w hn hm (fun hh => h1 (.inl hh)) (fun hh => h1 (.inr hh))
    have i := w.inverse
    refine .of_links (sameData_replaceNext ..) ?_
    intro a ra
    have c1 := c.next a; have c2 := c.prev a
    have o1 := on a ra; have o2 := om a ra
    rw [(e a).1, (e a).2]
    rcases n with _ | n <;> rcases m with _ | m <;> (try simp only [next_none, prev_none] at *) <;>
      unfold Out at * <;> grind

theorem frame_replacePrev (w : WF h) (c : Closed h R) {n m : Ptr} (hn : Valid h n) (hm : Valid h m)
    (on : Out R n) (om : Out R m) : SameOn R h (h.replacePrev n m).1 := by
  by_cases h1 : n = m ∨ h.prev n = m
  · simp only [replacePrev, h1, if_true]; exact fun a _ => ⟨rfl, rfl, rfl⟩
  · have e := replacePrev_links w hn hm (fun hh => h1 (.inl hh)) (fun hh => h1 (.inr hh))
    have i := w.inverse
    refine .of_links (sameData_replacePrev ..) ?_
    intro a ra
    have c1 := c.next a; have c2 := c.prev a
    have o1 := on a ra; have o2 := om a ra
    rw [(e a).1, (e a).2]
    rcases n with _ | n <;> rcases m with _ | m <;> (try simp only [next_none, prev_none] at *) <;>
      unfold Out at * <;> grind

theorem out_next (w : WF h) (c : Closed h R) {n : Ptr} (on : Out R n) : Out R (h.next n) := by
  intro a ra hh
  rcases n with _ | n
  · cases hh
  · exact on n (c.prev a n ra ((w.inverse n a).1 hh)) rfl

theorem out_prev (w : WF h) (c : Closed h R) {n : Ptr} (on : Out R n) : Out R (h.prev n) := by
  intro a ra hh
  rcases n with _ | n
  · cases hh
  · exact on n (c.next a n ra ((w.inverse a n).2 hh)) rfl

theorem frame_takeNext (w : WF h) (c : Closed h R) {n : Ptr} (hn : Valid h n) (on : Out R n) :
    SameOn R h (h.takeNext n).1 := by
  have e := takeNext_links w hn
  have o1 := out_next w c on
  have o2 := out_next w c o1
  refine .of_links (sameData_takeNext ..) ?_
  intro a ra
  rw [(e a).1, (e a).2, if_neg (Ne.symm (on a ra)), if_neg (Ne.symm (o1 a ra)), if_neg (Ne.symm (o1 a ra)),
    if_neg (Ne.symm (o2 a ra))]
  exact ⟨rfl, rfl⟩

theorem frame_takePrev (w : WF h) (c : Closed h R) {n : Ptr} (hn : Valid h n) (on : Out R n) :
    SameOn R h (h.takePrev n).1 := by
  have e := takePrev_links w hn
  have o1 := out_prev w c on
  have o2 := out_prev w c o1
  refine .of_links (sameData_takePrev ..) ?_
  intro a ra
  rw [(e a).1, (e a).2]
  simp only [if_neg (Ne.symm (on a ra)), if_neg (Ne.symm (o1 a ra)), if_neg (Ne.symm (o2 a ra)), and_self]

theorem frame_removeNext (w : WF h) (c : Closed h R) {n : Ptr} (hn : Valid h n) (on : Out R n) :
    SameOn R h (h.removeNext n).1 := by
  have e := removeNext_links w hn
  have o1 := out_next w c on
  refine .of_links (sameData_removeNext ..) ?_
  intro a ra
  rw [(e a).1, (e a).2, if_neg (Ne.symm (on a ra)), if_neg (Ne.symm (o1 a ra))]
  exact ⟨rfl, rfl⟩

theorem frame_removePrev (w : WF h) (c : Closed h R) {n : Ptr} (hn : Valid h n) (on : Out R n) :
    SameOn R h (h.removePrev n).1 := by
  have e := removePrev_links w hn
  have o1 := out_prev w c on
  refine .of_links (sameData_removePrev ..) ?_
  intro a ra
  rw [(e a).1, (e a).2, if_neg (Ne.symm (on a ra)), if_neg (Ne.symm (o1 a ra))]
  exact ⟨rfl, rfl⟩

theorem frame_isolate (w : WF h) (c : Closed h R) {n : Ptr} (hn : Valid h n) (on : Out R n) :
    SameOn R h (h.isolate n) := by
  have e := isolate_links w hn
  have o1 := out_prev w c on
  have o2 := out_next w c on
  refine .of_links (sameData_isolate ..) ?_
  intro a ra
  rw [(e a).1, (e a).2, if_neg, if_neg]
  · exact ⟨rfl, rfl⟩
  · rintro (hh | hh)
    · exact on a ra hh.symm
    · exact o2 a ra hh.symm
  · rintro (hh | hh)
    · exact on a ra hh.symm
    · exact o1 a ra hh.symm

theorem frame_setKind {n : Ptr} (v : Valid h n) (on : Out R n) (k : Kind) : SameOn R h (h.setKind n k) := by
  intro a ra
  refine ⟨by simp, by simp, ?_⟩
  rcases n with _ | n
  · rfl
  · have := Ne.symm (on a ra)
    simp only [data, line_setKind, text_setKind, kind_setKind h n k (some a) (v n rfl), if_neg this]

theorem frame_setText {n : Ptr} (v : Valid h n) (on : Out R n) (t : Bytes) : SameOn R h (h.setText n t) := by
  intro a ra
  refine ⟨by simp, by simp, ?_⟩
  rcases n with _ | n
  · rfl
  · have := Ne.symm (on a ra)
    simp only [data, line_setText, kind_setText, text_setText h n t (some a) (v n rfl), if_neg this]

theorem frame_isolateAll (ms : List Ptr) : ∀ {h : Heap}, WF h → Closed h R → (∀ m ∈ ms, Valid h m) →
    (∀ m ∈ ms, Out R m) → SameOn R h (h.isolateAll ms) := by
  induction ms with
  | nil => intro h _ _ _ _ a _; exact ⟨rfl, rfl, rfl⟩
  | cons m ms ih =>
    intro h w c hv ho
    have s := frame_isolate w c (hv m (by simp)) (ho m (by simp))
    have sd := (sameData_isolate h m).1
    refine s.trans (ih (wf_isolate w (hv m (by simp))) (s.closed c (by omega)) ?_ fun m' hm' => ho m' (by simp [hm']))
    intro m' hm' a ha
    have := hv m' (by simp [hm']) a ha
    omega

theorem size_isolateAll (ms : List Ptr) (h : Heap) : (h.isolateAll ms).size = h.size :=
  (sameData_isolateAll ms h).1

theorem size_newNodes (w : WF h) (L : Int) (ts : List Bytes) : h.size ≤ (h.newNodes L ts).1.size ∧
    Extends h (h.newNodes L ts).1 := by
  cases ts with
  | nil => exact ⟨Nat.le_refl _, Nat.le_refl _, fun _ _ => ⟨rfl, rfl, rfl⟩⟩
  | cons t ts =>
    have w1 := wf_newNode w L t []
    have e := newNode_eq h L t []
    have hsz : (h.newNode L t []).1.size = h.size + 1 := by rw [e]; simp
    have hadr : (h.newNode L t []).2 = h.size := by rw [e]
    have post := newNodesLoop_post ts (h.newNode L t []).1 (h.newNode L t []).2 L w1 (by omega) (by
      rw [e]
      show (h.extend _).next (some h.size) = none
      rw [next_extend_unlinked (by simp), next_of_ge (Nat.le_refl _)])
    simp only [newNodes]
    generalize newNodesLoop _ _ _ _ = h' at post
    have ex := extends_extend h [⟨L, ([] : List Kind).headD (Kind.new t), t, none, none⟩]
    have hle : h.size ≤ h'.size := by rw [post.size]; omega
    refine ⟨hle, hle, ?_⟩
    intro x hx
    have d := post.data_old x (by omega)
    rw [post.next_old x (by omega) (by omega), post.prev_old x (by omega)]
    simp only [data, d]
    rw [e]
    exact ex.2 x hx

theorem copy_extends {n r : Ptr} {b : Bool} {h' : Heap} (w : WF h) (v : Valid h n)
    (e : h.copy n b = some (h', r)) : Extends h h' := by
  rcases n with _ | a
  · cases e; exact ⟨Nat.le_refl _, fun _ _ => ⟨rfl, rfl, rfl⟩⟩
  · cases b with
    | false => rw [copy_single] at e; cases e; exact extends_extend h _
    | true =>
      obtain ⟨lb, lf, hb, hf⟩ := lists_of_copy h w a (v a rfl) _ e
      rw [copy_eq h hb hf] at e
      cases e
      exact extends_extend h _

theorem frame_apply {h' : Heap} (w : WF h) (c : Closed h R) (op : Op) (v : ∀ p ∈ op.args, Valid h p)
    (o : ∀ p ∈ op.args, Out R p) (e : op.apply h = some h') : SameOn R h h' ∧ h.size ≤ h'.size := by
  cases op <;> simp only [Op.apply, Option.some.injEq, Op.args, List.mem_cons, List.not_mem_nil, or_false,
    forall_eq_or_imp, forall_eq] at e v o
  case newNode L t ks =>
    subst e
    rw [newNode_eq]
    exact ⟨.of_extends (extends_extend h _) c, by simp⟩
  case newNodes L ts => subst e; exact ⟨.of_extends (size_newNodes w L ts).2 c, (size_newNodes w L ts).1⟩
  case insertNext n m =>
    subst e; exact ⟨frame_insertNext w c v.1 v.2 o.1 o.2, Nat.le_of_eq (sameData_insertNext h n m).1.symm⟩
  case insertPrev n m =>
    subst e; exact ⟨frame_insertPrev w c v.1 v.2 o.1 o.2, Nat.le_of_eq (sameData_insertPrev h n m).1.symm⟩
  case replaceNext n m =>
    subst e; exact ⟨frame_replaceNext w c v.1 v.2 o.1 o.2, Nat.le_of_eq (sameData_replaceNext h n m).1.symm⟩
  case replacePrev n m =>
    subst e; exact ⟨frame_replacePrev w c v.1 v.2 o.1 o.2, Nat.le_of_eq (sameData_replacePrev h n m).1.symm⟩
  case takeNext n => subst e; exact ⟨frame_takeNext w c v o, Nat.le_of_eq (sameData_takeNext h n).1.symm⟩
  case takePrev n => subst e; exact ⟨frame_takePrev w c v o, Nat.le_of_eq (sameData_takePrev h n).1.symm⟩
  case removeNext n => subst e; exact ⟨frame_removeNext w c v o, Nat.le_of_eq (sameData_removeNext h n).1.symm⟩
  case removePrev n => subst e; exact ⟨frame_removePrev w c v o, Nat.le_of_eq (sameData_removePrev h n).1.symm⟩
  case isolate n => subst e; exact ⟨frame_isolate w c v o, Nat.le_of_eq (sameData_isolate h n).1.symm⟩
  case combineNext n k ms =>
    cases hc : h.combineNext n k ms with
    | none => rw [hc] at e; cases e
    | some r =>
      rw [hc] at e; cases e
      obtain ⟨ns, t, h1, h2, h3⟩ := combineNext_some hc
      show SameOn R h r.1 ∧ _ ≤ r.1.size
      rw [h2]
      have s1 := frame_setKind v.1 o.1 k
      have c1 := s1.closed c (by simp)
      have s2 := frame_isolateAll ns (wf_setKind w n k) c1 (fun m hm => valid_setKind.2 (v.2 m (h1 m hm)))
        (fun m hm => o.2 m (h1 m hm))
      refine ⟨(s1.trans s2).trans (frame_setText ?_ ?_ t), by simp [size_isolateAll]⟩
      · intro a ha
        rw [size_isolateAll, size_setKind]
        rcases h3 with h3 | h3
        · rw [h3] at ha; exact v.1 a ha
        · exact v.2 _ h3 a ha
      · rcases h3 with h3 | h3
        · rw [h3]; exact o.1
        · exact o.2 _ h3
  case combinePrev n k ms =>
    cases hc : h.combinePrev n k ms with
    | none => rw [hc] at e; cases e
    | some r =>
      rw [hc] at e; cases e
      obtain ⟨ns, t, h1, h2, h3⟩ := combinePrev_some hc
      show SameOn R h r.1 ∧ _ ≤ r.1.size
      rw [h2]
      have s1 := frame_setKind v.1 o.1 k
      have c1 := s1.closed c (by simp)
      have s2 := frame_isolateAll ns (wf_setKind w n k) c1 (fun m hm => valid_setKind.2 (v.2 m (h1 m hm)))
        (fun m hm => o.2 m (h1 m hm))
      refine ⟨(s1.trans s2).trans (frame_setText ?_ ?_ t), by simp [size_isolateAll]⟩
      · intro a ha
        rw [size_isolateAll, size_setKind]
        rcases h3 with h3 | h3
        · rw [h3] at ha; exact v.1 a ha
        · exact v.2 _ h3 a ha
      · rcases h3 with h3 | h3
        · rw [h3]; exact o.1
        · exact o.2 _ h3
  case copy n b =>
    cases hc : h.copy n b with
    | none => rw [hc] at e; cases e
    | some r =>
      rw [hc] at e; cases e
      have := copy_extends w v hc
      exact ⟨.of_extends this c, this.1⟩
  case setKind n k => subst e; exact ⟨frame_setKind v o k, by simp⟩
  case setText n t => subst e; exact ⟨frame_setText v o t, by simp⟩

theorem frame_run {h' : Heap} (w : WF h) (c : Closed h R)
    (r : Run (fun op => ∀ p ∈ op.args, Out R p) h h') : SameOn R h h' := by
  have : WF h' ∧ SameOn R h h' ∧ h.size ≤ h'.size := by
    induction r with
    | refl => exact ⟨w, fun _ _ => ⟨rfl, rfl, rfl⟩, Nat.le_refl _⟩
    | step op _ o v e ih =>
      obtain ⟨w1, s1, l1⟩ := ih
      have := frame_apply w1 (s1.closed c l1) op v o e
      exact ⟨wf_apply w1 op v e, s1.trans this.1, Nat.le_trans l1 this.2⟩
  exact this.2.1

end Heap
end Goast
