import Verif.Proofs.Alike

/-! # Proofs: the resetters do not depend on addresses -/

set_option linter.unusedSimpArgs false
set_option linter.unusedVariables false

namespace Goast

variable {α β γ δ : Type}

/-- Code with the captured variable `buf` that takes the same steps on corresponding nodes. -/
def SameR (ρ : Corr) (p : RCode α) (q : RCode β) (V : α → β → Prop) : Prop :=
  ∀ b c, PtrsRel ρ b c → Same ρ (p b) (q c) (fun x y => V x.1 y.1 ∧ PtrsRel ρ x.2 y.2)

variable {ρ : Corr}

theorem SameR.then {V : α → β → Prop} {W : γ → δ → Prop} {f : α → RCode γ} {g : β → RCode δ} {p : RCode α} {q : RCode β} (h : SameR ρ p q V)
    (hk : ∀ x y, V x y → SameR ρ (f x) (g y) W) : SameR ρ (p >>= f) (q >>= g) W := by
  intro b c hb
  show Same ρ (p b >>= fun r => f r.1 r.2) (q c >>= fun r => g r.1 r.2) _
  exact Same.then (h b c hb) (fun x y e => hk x.1 y.1 e.1 x.2 y.2 e.2)

theorem SameR.pure {V : α → β → Prop} {x : α} {y : β} (h : V x y) : SameR ρ (Pure.pure x : RCode α) (Pure.pure y : RCode β) V :=
  fun _ _ hb => Same.pure ⟨h, hb⟩

theorem SameR.ite {V : α → β → Prop} {c c' : Prop} [Decidable c] [Decidable c'] {p p' : RCode α} {q q' : RCode β} (hc : c ↔ c')
    (h : c → SameR ρ p q V) (h' : ¬ c → SameR ρ p' q' V) : SameR ρ (if c then p else p') (if c' then q else q') V := by
  by_cases e : c
  · simp only [e, hc.1 e, if_true]; exact h e
  · have e' : ¬ c' := fun x => e (hc.2 x)
    simp only [e, e', if_false]; exact h' e

theorem SameR.weaken {V V' : α → β → Prop} {p : RCode α} {q : RCode β} (h : SameR ρ p q V) (hv : ∀ x y, V x y → V' x y) : SameR ρ p q V' :=
  fun b c hb => Same.weaken (h b c hb) (fun x y e => ⟨hv _ _ e.1, e.2⟩)

theorem sameR_run {V : α → β → Prop} {p : Code α} {q : Code β} (h : Same ρ p q V) : SameR ρ (RCode.run p) (RCode.run q) V :=
  fun _ _ hb => Same.then h (fun _ _ e => Same.pure ⟨e, hb⟩)

theorem sameR_panic {V : α → β → Prop} {q : RCode β} : SameR ρ (RCode.run .panic : RCode α) q V := fun _ _ _ => Alike.panic _

theorem sameR_kind {n m : Ptr} (h : PtrRel ρ n m) : SameR ρ (RCode.kind n) (RCode.kind m) (fun x y => x = y) := sameR_run (same_kind h)

/-- Read a kind, and go on with it. -/
theorem sameR_kind_then {n m : Ptr} (h : PtrRel ρ n m) {W : γ → δ → Prop} {f : Kind → RCode γ} {g : Kind → RCode δ}
    (hk : ∀ k, SameR ρ (f k) (g k) W) : SameR ρ (RCode.kind n >>= f) (RCode.kind m >>= g) W :=
  SameR.then (sameR_kind h) (by rintro k _ rfl; exact hk k)

theorem sameR_next {n m : Ptr} (h : PtrRel ρ n m) : SameR ρ (RCode.next n) (RCode.next m) (PtrRel ρ) := sameR_run (same_next h)

theorem sameR_setKind {n m : Ptr} (h : PtrRel ρ n m) (k : Kind) : SameR ρ (RCode.setKind n k) (RCode.setKind m k) (fun _ _ => True) :=
  sameR_run (same_setKind h k)

theorem same_debugTextLoop : ∀ (c : Nat) {n m : Ptr} (buf : Bytes), PtrRel ρ n m →
    Same ρ (RCode.debugTextLoop c n buf) (RCode.debugTextLoop c m buf) (fun _ _ => True)
  | c, none, none, buf, _ => by cases c <;> exact Same.pure trivial
  | _, none, some _, _, h => h.elim
  | _, some _, none, _, h => h.elim
  | 0, some _, some _, _, _ => Same.pure trivial
  | c + 1, some a, some b, buf, h => by
    refine Same.then (same_text h) ?_
    rintro t _ rfl
    refine Same.ite Iff.rfl (fun _ => Same.pure trivial) (fun _ => ?_)
    exact Same.then (same_next h) (fun _ _ e => same_debugTextLoop c _ e)

theorem sameR_debugText {n m : Ptr} (h : PtrRel ρ n m) : SameR ρ (RCode.debugText n) (RCode.debugText m) (fun _ _ => True) :=
  sameR_run (Same.then (same_debugTextLoop 6 [] h) (fun _ _ _ => Same.pure trivial))

theorem sameR_runHook {n m : Ptr} (h : PtrRel ρ n m) (k : Hook) : SameR ρ (RCode.runHook n k) (RCode.runHook m k) (fun _ _ => True) := by
  cases k with
  | appendBuf => exact fun b c hb => Same.pure ⟨trivial, hb.appendUnrepeatable h⟩
  | rawToParamType =>
    exact sameR_kind_then h fun k => SameR.ite Iff.rfl (fun _ => sameR_setKind h _) (fun _ => SameR.pure trivial)

theorem sameR_handleHook {n m : Ptr} (h : PtrRel ρ n m) : ∀ (ks : List Hook), SameR ρ (RCode.handleHook n ks) (RCode.handleHook m ks) (fun _ _ => True)
  | [] => SameR.pure trivial
  | k :: ks => SameR.then (sameR_runHook h k) (fun _ _ _ => sameR_handleHook h ks)

variable {F F' : Nat}

theorem sameR_iter (hF : F ≤ F') {σ τ : Type} {fn : σ → Ptr → RCode (σ × Bool)} {gn : τ → Ptr → RCode (τ × Bool)} {S : σ → τ → Prop}
    (hf : ∀ s t n m, S s t → PtrRel ρ n m → SameR ρ (fn s n) (gn t m) (fun x y => S x.1 y.1 ∧ x.2 = y.2)) {s : σ} {t : τ} (hs : S s t)
    {n m : Ptr} (h : PtrRel ρ n m) :
    SameR ρ (RCode.iter F fn s n) (RCode.iter F' gn t m) (fun x y => S x.1 y.1 ∧ PtrRel ρ x.2 y.2) := by
  intro b c hb
  unfold RCode.iter
  refine Same.then (same_loop (S := fun x y => S x.1 y.1 ∧ PtrsRel ρ x.2 y.2) (fun _ _ => same_next) ?_ F F' (s, b) (t, c) n m hF ⟨hs, hb⟩ h)
    (fun x y e => Same.pure ⟨⟨e.1.1, e.2⟩, e.1.2⟩)
  rintro ⟨s, b⟩ ⟨t, c⟩ n m ⟨hs, hb⟩ h
  exact Same.then (hf s t n m hs h b c hb) (fun x y e => Same.pure ⟨⟨e.1.1, e.2⟩, e.1.2⟩)

/-- A loop whose captured variables are no pointers. -/
theorem sameR_iter_eq (hF : F ≤ F') {σ : Type} {fn gn : σ → Ptr → RCode (σ × Bool)}
    (hf : ∀ s n m, PtrRel ρ n m → SameR ρ (fn s n) (gn s m) (fun x y => x = y)) (s : σ) {n m : Ptr} (h : PtrRel ρ n m) :
    SameR ρ (RCode.iter F fn s n) (RCode.iter F' gn s m) (fun x y => x.1 = y.1 ∧ PtrRel ρ x.2 y.2) :=
  sameR_iter hF (S := fun x y => x = y) (by rintro s _ n m rfl h; exact (hf s n m h).weaken (by rintro x _ rfl; exact ⟨rfl, rfl⟩)) rfl h

theorem sameR_findNext (hF : F ≤ F') {n m : Ptr} (h : PtrRel ρ n m) (target : List Kind) (opt : FindOpt) (hooks : List Hook) :
    SameR ρ (RCode.findNext F n target opt hooks) (RCode.findNext F' m target opt hooks) (PtrRel ρ) := by
  refine SameR.then (sameR_iter_eq hF ?_ _ h) (fun x y e => SameR.pure e.2)
  intro c n m h
  refine SameR.then (sameR_handleHook h hooks) (fun _ _ _ => ?_)
  exact sameR_kind_then h fun k => sameR_kind_then h fun k' => SameR.pure rfl

theorem sameR_skipNestNext (hF : F ≤ F') {n m : Ptr} (h : PtrRel ρ n m) (l r : Kind) (hooks : List Hook) :
    SameR ρ (RCode.skipNestNext F n l r hooks) (RCode.skipNestNext F' m l r hooks) (PtrRel ρ) := by
  refine sameR_kind_then h fun k => ?_
  refine SameR.then (V := PtrRel ρ) ?_ (fun n m h => ?_)
  · refine SameR.ite Iff.rfl (fun _ => ?_) (fun _ => SameR.pure h)
    exact SameR.then (sameR_handleHook h hooks) (fun _ _ _ => SameR.then (sameR_findNext hF h _ _ _) (fun _ _ e => sameR_next e))
  · refine SameR.then (sameR_iter_eq hF ?_ 1 h) (fun x y e => SameR.pure e.2)
    intro c n m h
    refine SameR.then (sameR_handleHook h hooks) (fun _ _ _ => sameR_kind_then h fun k => ?_)
    exact SameR.ite Iff.rfl (fun _ => SameR.pure rfl) (fun _ => SameR.ite Iff.rfl (fun _ => SameR.pure rfl) (fun _ => SameR.pure rfl))

/-- Decisions that correspond. -/
def CtlRel (ρ : Corr) : Ctl → Ctl → Prop
  | .stop, .stop => True
  | .cont, .cont => True
  | .jump p, .jump q => PtrRel ρ p q
  | _, _ => False

theorem sameR_jumpLoop (hF : F ≤ F') {σ : Type} (consume : Bool) (hooks : List Hook) {body body' : σ → Ptr → RCode (σ × Ctl)}
    (hb : ∀ s n m, PtrRel ρ n m → SameR ρ (body s n) (body' s m) (fun x y => x.1 = y.1 ∧ CtlRel ρ x.2 y.2)) (s : σ) {n m : Ptr} (h : PtrRel ρ n m) :
    SameR ρ (RCode.jumpLoop F consume hooks body s n) (RCode.jumpLoop F' consume hooks body' s m) (PtrRel ρ) := by
  refine SameR.then (sameR_iter hF (S := fun (j j' : JState σ) => j.skipAll = j'.skipAll ∧ PtrRel ρ j.jumpTo j'.jumpTo ∧ j.s = j'.s) ?_
    (s := ⟨false, none, s⟩) (t := ⟨false, none, s⟩) ⟨rfl, trivial, rfl⟩ h) (fun x y e => SameR.pure e.2)
  rintro ⟨sk, jt, s⟩ ⟨_, jt', _⟩ n m ⟨rfl, hj, rfl⟩ h
  unfold RCode.jumpStep
  refine SameR.then (sameR_handleHook h hooks) (fun _ _ _ => ?_)
  refine SameR.ite Iff.rfl (fun _ => SameR.pure ⟨⟨rfl, hj, rfl⟩, rfl⟩) (fun _ => ?_)
  refine SameR.ite (by rw [ne_eq, ne_eq, ne_eq, ne_eq]; rw [show (jt = none) = (jt' = none) from propext hj.none_iff]
                       rw [show (jt = n) = (jt' = m) from propext (hj.eq_iff h)]) (fun _ => SameR.pure ⟨⟨rfl, hj, rfl⟩, rfl⟩) (fun _ => ?_)
  refine SameR.ite (by rw [ne_eq, ne_eq]; rw [show (jt = none) = (jt' = none) from propext hj.none_iff])
    (fun _ => SameR.pure ⟨⟨rfl, trivial, rfl⟩, rfl⟩) (fun _ => ?_)
  refine SameR.then (hb s n m h) ?_
  rintro ⟨s, c⟩ ⟨_, c'⟩ ⟨rfl, hc⟩
  refine SameR.pure ?_
  cases c <;> cases c' <;> try exact hc.elim
  · exact ⟨⟨rfl, trivial, rfl⟩, rfl⟩
  · exact ⟨⟨rfl, trivial, rfl⟩, rfl⟩
  · exact ⟨⟨by simp only [RCode.ctl, PtrRel.none_iff hc], hc, rfl⟩, rfl⟩

theorem sameR_toJump {σ : Type} {p q : RCode Ptr} (h : SameR ρ p q (PtrRel ρ)) (s : σ) :
    SameR ρ (RCode.toJump p s) (RCode.toJump q s) (fun x y => x.1 = y.1 ∧ CtlRel ρ x.2 y.2) :=
  SameR.then h (fun _ _ e => SameR.pure ⟨rfl, e⟩)

theorem sameR_ctl {σ : Type} (s : σ) {c : Ctl} (hc : CtlRel ρ c c) :
    SameR ρ (Pure.pure (s, c) : RCode (σ × Ctl)) (Pure.pure (s, c)) (fun x y => x.1 = y.1 ∧ CtlRel ρ x.2 y.2) := SameR.pure ⟨rfl, hc⟩

theorem sameR_setKind_ctl {σ : Type} {n m : Ptr} (h : PtrRel ρ n m) (k : Kind) (s : σ) {c : Ctl} (hc : CtlRel ρ c c) :
    SameR ρ (do RCode.setKind n k; Pure.pure (s, c) : RCode (σ × Ctl)) (do RCode.setKind m k; Pure.pure (s, c))
      (fun x y => x.1 = y.1 ∧ CtlRel ρ x.2 y.2) := SameR.then (sameR_setKind h k) (fun _ _ _ => SameR.pure ⟨rfl, hc⟩)

theorem PtrsRel.last {n m : Ptr} {ns ms : List Ptr} (h : PtrsRel ρ (n :: ns) (m :: ms)) :
    PtrRel ρ ((n :: ns).getLast (by simp)) ((m :: ms).getLast (by simp)) := by
  rcases PtrsRel.getLast? h with ⟨e, -⟩ | ⟨p, q, e, e', hpq⟩
  · simp at e
  · rw [List.getLast?_eq_some_getLast (by simp)] at e e'
    simp only [Option.some.injEq] at e e'
    rw [e, e']
    exact hpq

theorem same_deferCombine (k : Kind) : ∀ {b c : List Ptr}, PtrsRel ρ b c → Same ρ (RCode.deferCombine b k) (RCode.deferCombine c k) (fun _ _ => True)
  | [], [], _ => Same.pure trivial
  | [], _ :: _, h => h.elim
  | _ :: _, [], h => h.elim
  | n :: ns, m :: ms, h => by
    unfold RCode.deferCombine
    refine Same.then (same_next h.last) (fun x y e => ?_)
    refine Same.then (same_combineNext h.1 k h.2) (fun z u e' => ?_)
    exact Same.then (same_replaceNext e' e) (fun _ _ _ => Same.pure trivial)

theorem sameR_curlyRun (hF : F ≤ F') {n m : Ptr} (h : PtrRel ρ n m) (hooks : List Hook) :
    SameR ρ (RCode.curlyRun F n hooks) (RCode.curlyRun F' m hooks) (PtrRel ρ) :=
  SameR.then (sameR_debugText h) (fun _ _ _ => sameR_skipNestNext hF h _ _ hooks)

theorem sameR_squareRun (hF : F ≤ F') {n m : Ptr} (h : PtrRel ρ n m) (hooks : List Hook) :
    SameR ρ (RCode.squareRun F n hooks) (RCode.squareRun F' m hooks) (PtrRel ρ) :=
  SameR.then (sameR_debugText h) (fun _ _ _ => sameR_skipNestNext hF h _ _ hooks)

theorem sameR_validParamCount (hF : F ≤ F') {n m : Ptr} (h : PtrRel ρ n m) :
    SameR ρ (RCode.validParamCount F n) (RCode.validParamCount F' m) (fun x y => x = y) := by
  refine SameR.then (sameR_iter_eq hF ?_ 0 h) (fun x y e => SameR.pure e.1)
  intro c n m h
  refine sameR_kind_then h fun k => ?_
  cases k <;> exact SameR.pure rfl

theorem sameR_isTemporaryFunc (hF : F ≤ F') {n m : Ptr} (h : PtrRel ρ n m) :
    SameR ρ (RCode.isTemporaryFunc F n) (RCode.isTemporaryFunc F' m) (fun x y => x = y) := by
  refine SameR.then (sameR_findNext hF h _ _ _) (fun n m h => sameR_kind_then h fun k => ?_)
  refine SameR.ite Iff.rfl (fun _ => SameR.pure rfl) (fun _ => ?_)
  exact SameR.then (sameR_next h) (fun n m h => sameR_kind_then h fun k => SameR.pure rfl)

theorem sameR_isThisLineFunction (hF : F ≤ F') {n m : Ptr} (h : PtrRel ρ n m) :
    SameR ρ (RCode.isThisLineFunction F n) (RCode.isThisLineFunction F' m) (fun x y => x = y) := by
  refine SameR.then (sameR_iter_eq hF ?_ false h) (fun x y e => SameR.pure e.1)
  intro c n m h
  refine sameR_kind_then h fun k => ?_
  cases k <;> exact SameR.pure rfl

theorem sameR_getRowNameCount (hF : F ≤ F') {n m : Ptr} (h : PtrRel ρ n m) :
    SameR ρ (RCode.getRowNameCount F n) (RCode.getRowNameCount F' m) (fun x y => x = y) := by
  refine SameR.then (sameR_iter_eq hF ?_ _ h) (fun x y e => SameR.pure (by rw [e.1]))
  intro c n m h
  exact sameR_kind_then h fun k => SameR.pure rfl

/-- The resetters that call each other. -/
structure SameAll (ρ : Corr) (F F' d d' : Nat) : Prop where
  paren : ∀ skip rcv n m hooks, PtrRel ρ n m → SameR ρ (RCode.parenRun F d skip rcv n hooks) (RCode.parenRun F' d' skip rcv m hooks) (PtrRel ρ)
  param : ∀ rcv n m hooks, PtrRel ρ n m → SameR ρ (RCode.parenParam F d rcv n hooks) (RCode.parenParam F' d' rcv m hooks) (PtrRel ρ)
  func : ∀ cfg n m hooks, PtrRel ρ n m → SameR ρ (RCode.funcRun F d cfg n hooks) (RCode.funcRun F' d' cfg m hooks) (PtrRel ρ)
  general : ∀ n m ks hooks, PtrRel ρ n m → SameR ρ (RCode.generalFunc F d n ks hooks) (RCode.generalFunc F' d' m ks hooks) (PtrRel ρ)
  parameter : ∀ n m hooks, PtrRel ρ n m → SameR ρ (RCode.parameterFunc F d n hooks) (RCode.parameterFunc F' d' m hooks) (PtrRel ρ)
  single : ∀ n m hooks, PtrRel ρ n m → SameR ρ (RCode.singleReturn F d n hooks) (RCode.singleReturn F' d' m hooks) (PtrRel ρ)

theorem sameR_funcBody (hF : F ≤ F') {paren paren' : Ptr → RCode Ptr} {general general' : RCode Ptr}
    (hp : ∀ n m, PtrRel ρ n m → SameR ρ (paren n) (paren' m) (PtrRel ρ)) (hg : SameR ρ general general' (PtrRel ρ)) (nm : Bool) {n m : Ptr}
    (h : PtrRel ρ n m) (hooks : List Hook) :
    SameR ρ (RCode.funcBody F paren general nm n hooks) (RCode.funcBody F' paren' general' nm m hooks) (PtrRel ρ) := by
  refine sameR_jumpLoop hF _ _ ?_ _ h
  rintro s n m h
  refine SameR.then (V := fun x y => x = y) ?_ ?_
  · exact SameR.ite Iff.rfl (fun _ => sameR_kind_then h fun k => SameR.pure rfl) (fun _ => SameR.pure rfl)
  · rintro det _ rfl
    match det with
    | none => exact sameR_ctl _ trivial
    | some true => exact sameR_toJump (hp _ _ h) _
    | some false =>
      exact sameR_kind_then h fun k => SameR.ite Iff.rfl (fun _ => sameR_ctl _ trivial) (fun _ => sameR_toJump hg _)

theorem sameAll_succ (hF : F ≤ F') {d d' : Nat} (A : SameAll ρ F F' d d') : SameAll ρ F F' (d + 1) (d' + 1) where
  paren := by
    intro skip rcv n m hooks h
    unfold RCode.parenRun
    refine SameR.then (sameR_debugText h) (fun _ _ _ => ?_)
    refine SameR.ite Iff.rfl (fun _ => sameR_skipNestNext hF h _ _ _) (fun _ => sameR_kind_then h fun k => ?_)
    refine SameR.ite Iff.rfl (fun _ => SameR.then (sameR_handleHook h _) (fun _ _ _ => sameR_next h)) (fun _ => ?_)
    refine sameR_jumpLoop hF _ _ (fun s n m h => ?_) _ h
    refine sameR_kind_then h fun k => ?_
    cases k
    case parenR | comment | comma | parenL | tab | newLine | space => exact sameR_ctl _ trivial
    all_goals exact sameR_toJump (A.param _ _ _ _ h) _
  param := by
    intro rcv n m hooks h
    unfold RCode.parenParam
    refine SameR.then (sameR_debugText h) (fun _ _ _ => SameR.then (sameR_validParamCount hF h) ?_)
    rintro count _ rfl
    refine sameR_jumpLoop hF _ _ (fun s n m h => ?_) _ h
    refine sameR_kind_then h fun k => ?_
    cases k
    case squareL => exact sameR_toJump (sameR_squareRun hF h _) _
    case func_ => exact sameR_toJump (A.func _ _ _ _ h) _
    case raw | paramType | paramName =>
      exact SameR.ite Iff.rfl (fun _ => sameR_setKind_ctl h _ _ trivial)
        (fun _ => SameR.ite Iff.rfl (fun _ => sameR_setKind_ctl h _ _ trivial) (fun _ => sameR_setKind_ctl h _ _ trivial))
    all_goals exact sameR_ctl _ trivial
  func := by
    intro cfg n m hooks h
    unfold RCode.funcRun
    refine SameR.then (sameR_debugText h) (fun _ _ _ => ?_)
    refine SameR.ite Iff.rfl (fun _ => A.parameter _ _ _ h) (fun _ => SameR.ite Iff.rfl (fun _ => A.general _ _ _ _ h) (fun _ => ?_))
    refine SameR.then (sameR_isTemporaryFunc hF h) ?_
    rintro b _ rfl
    refine SameR.ite Iff.rfl (fun _ => A.general _ _ _ _ h) (fun _ => SameR.ite Iff.rfl (fun _ => ?_) (fun _ => ?_))
    · refine sameR_kind_then h fun k => SameR.then (sameR_handleHook h _) (fun _ _ _ => SameR.then (sameR_next h) (fun n m h => ?_))
      exact SameR.ite Iff.rfl (fun _ => SameR.pure h)
        (fun _ => sameR_funcBody hF (fun _ _ h => A.paren _ _ _ _ _ h) (A.general _ _ _ _ h) _ h _)
    · exact sameR_funcBody hF (fun _ _ h => A.paren _ _ _ _ _ h) (A.general _ _ _ _ h) _ h _
  general := by
    intro n m ks hooks h
    unfold RCode.generalFunc
    refine SameR.then (sameR_debugText h) (fun _ _ _ => sameR_kind_then h fun k => ?_)
    refine SameR.then (V := PtrRel ρ) ?_ (fun n m h => ?_)
    · exact SameR.ite Iff.rfl (fun _ => SameR.then (sameR_handleHook h _) (fun _ _ _ => sameR_next h)) (fun _ => SameR.pure h)
    · refine sameR_jumpLoop hF _ _ (fun s n m h => ?_) _ h
      refine sameR_kind_then h fun k => SameR.ite Iff.rfl (fun _ => sameR_ctl _ (by split <;> trivial)) (fun _ => ?_)
      refine sameR_kind_then h fun k => ?_
      cases k
      case raw => exact SameR.ite Iff.rfl (fun _ => sameR_setKind_ctl h _ _ trivial) (fun _ => sameR_ctl _ trivial)
      case space => exact SameR.ite Iff.rfl (fun _ => sameR_toJump (A.single _ _ _ h) _) (fun _ => sameR_ctl _ trivial)
      case parenL => exact sameR_toJump (A.paren _ _ _ _ _ h) _
      case curlyL => exact sameR_toJump (sameR_curlyRun hF h _) _
      case squareL => exact sameR_toJump (sameR_squareRun hF h _) _
      all_goals exact sameR_ctl _ trivial
  parameter := by
    intro n m hooks h
    unfold RCode.parameterFunc
    refine SameR.then (sameR_debugText h) (fun _ _ _ => SameR.then (A.general _ _ _ _ h) (fun n m h => sameR_kind_then h fun k => ?_))
    exact SameR.ite Iff.rfl (fun _ => SameR.then (sameR_handleHook h _) (fun _ _ _ => sameR_next h)) (fun _ => SameR.pure h)
  single := by
    intro n m hooks h
    unfold RCode.singleReturn
    refine SameR.then (sameR_debugText h) (fun _ _ _ => sameR_kind_then h fun k => ?_)
    refine SameR.ite Iff.rfl (fun _ => SameR.then (sameR_handleHook h _) (fun _ _ _ => sameR_next h)) (fun _ => ?_)
    refine SameR.then (sameR_next h) (fun n m h => SameR.then (sameR_findNext hF h _ _ _) (fun f g hfg => sameR_kind_then hfg fun k => ?_))
    have body : SameR ρ (do
        let r ← RCode.iter F (fun (buf : List Ptr) a => do
          RCode.handleHook a hooks
          let k ← RCode.kind a
          match k with
          | .newLine | .space | .curlyL => pure (buf, false)
          | .comment => pure (buf, true)
          | _ => pure (appendUnrepeatable buf [a], true)) [] n
        RCode.run (RCode.deferCombine r.1 .paramType)
        pure r.2) (do
        let r ← RCode.iter F' (fun (buf : List Ptr) a => do
          RCode.handleHook a hooks
          let k ← RCode.kind a
          match k with
          | .newLine | .space | .curlyL => pure (buf, false)
          | .comment => pure (buf, true)
          | _ => pure (appendUnrepeatable buf [a], true)) [] m
        RCode.run (RCode.deferCombine r.1 .paramType)
        pure r.2) (PtrRel ρ) := by
      refine SameR.then (sameR_iter hF (S := PtrsRel ρ) (s := []) (t := []) ?_ trivial h) (fun x y e => ?_)
      · intro s t n m hs h
        refine SameR.then (sameR_handleHook h _) (fun _ _ _ => sameR_kind_then h fun k => ?_)
        cases k
        case newLine | space | curlyL | comment => exact SameR.pure ⟨hs, rfl⟩
        all_goals exact SameR.pure ⟨hs.appendUnrepeatable h, rfl⟩
      · exact SameR.then (sameR_run (same_deferCombine _ e.1)) (fun _ _ _ => SameR.pure e.2)
    cases k
    case parenL => exact A.paren _ _ _ _ _ h
    case func_ => exact A.parameter _ _ _ h
    all_goals exact body

theorem sameAll (hF : F ≤ F') : ∀ (d d' : Nat), d ≤ d' → SameAll ρ F F' d d'
  | 0, _, _ => by
    constructor <;> intros <;> exact sameR_panic
  | d + 1, 0, h => absurd h (by omega)
  | d + 1, d' + 1, h => sameAll_succ hF (sameAll hF d d' (by omega))

variable {d d' : Nat}

theorem sameR_get : SameR ρ (get : RCode (List Ptr)) (get : RCode (List Ptr)) (PtrsRel ρ) := fun _ _ hb => Same.pure ⟨hb, hb⟩

theorem sameR_set {b c : List Ptr} (h : PtrsRel ρ b c) : SameR ρ (set b : RCode PUnit) (set c : RCode PUnit) (fun _ _ => True) :=
  fun _ _ _ => Same.pure ⟨trivial, h⟩

theorem sameR_paramRun (hF : F ≤ F') (hd : d ≤ d') {n m : Ptr} (h : PtrRel ρ n m) :
    SameR ρ (RCode.paramRun F d n) (RCode.paramRun F' d' m) (PtrRel ρ) := by
  have A := sameAll (ρ := ρ) hF d d' hd
  unfold RCode.paramRun
  refine SameR.then (sameR_debugText h) (fun _ _ _ => SameR.then sameR_get (fun saved saved' hs => SameR.then (sameR_set trivial) (fun _ _ _ => ?_)))
  refine SameR.then (sameR_jumpLoop hF _ _ (fun s n m h => ?_) _ h) (fun n m h => ?_)
  · refine sameR_kind_then h fun k => SameR.ite Iff.rfl (fun _ => sameR_ctl _ trivial) (fun _ => sameR_kind_then h fun k => ?_)
    cases k
    case parenL => exact sameR_toJump (A.paren _ _ _ _ _ h) _
    case curlyL => exact sameR_toJump (sameR_curlyRun hF h _) _
    case squareL => exact sameR_toJump (sameR_squareRun hF h _) _
    case func_ => exact sameR_toJump (A.func _ _ _ _ h) _
    case comment => exact sameR_ctl _ trivial
    all_goals exact SameR.then (sameR_runHook h _) (fun _ _ _ => sameR_ctl _ trivial)
  · exact SameR.then sameR_get (fun b c hb => SameR.then (sameR_run (same_deferCombine _ hb)) (fun _ _ _ => SameR.then (sameR_set hs)
      (fun _ _ _ => SameR.pure h)))

theorem sameR_interfaceRun (hF : F ≤ F') (hd : d ≤ d') {n m : Ptr} (h : PtrRel ρ n m) :
    SameR ρ (RCode.interfaceRun F d n) (RCode.interfaceRun F' d' m) (PtrRel ρ) := by
  have A := sameAll (ρ := ρ) hF d d' hd
  unfold RCode.interfaceRun
  refine SameR.then (sameR_debugText h) (fun _ _ _ => SameR.then (sameR_findNext hF h _ _ _) (fun n m h => ?_))
  refine sameR_jumpLoop hF _ _ (fun s n m h => sameR_kind_then h fun k => ?_) _ h
  have rest : SameR ρ (do
      let b ← RCode.isThisLineFunction F n
      if b then RCode.toJump (RCode.funcRun F d { isInterfaceDefinition := true } n []) ()
      else
        let k ← RCode.kind n
        if k = .raw then RCode.setKind n .typeName
        RCode.toJump (RCode.findNext F n [.newLine, .curlyR]
          { isOutsideParenthesis := true, isOutsideCurlyBracket := true, isOutsideSquareBracket := true } []) ()) (do
      let b ← RCode.isThisLineFunction F' m
      if b then RCode.toJump (RCode.funcRun F' d' { isInterfaceDefinition := true } m []) ()
      else
        let k ← RCode.kind m
        if k = .raw then RCode.setKind m .typeName
        RCode.toJump (RCode.findNext F' m [.newLine, .curlyR]
          { isOutsideParenthesis := true, isOutsideCurlyBracket := true, isOutsideSquareBracket := true } []) ())
      (fun x y => x.1 = y.1 ∧ CtlRel ρ x.2 y.2) := by
    refine SameR.then (sameR_isThisLineFunction hF h) ?_
    rintro b _ rfl
    refine SameR.ite Iff.rfl (fun _ => sameR_toJump (A.func _ _ _ _ h) _) (fun _ => sameR_kind_then h fun k => ?_)
    exact SameR.ite Iff.rfl (fun _ => SameR.then (sameR_setKind h _) (fun _ _ _ => sameR_toJump (sameR_findNext hF h _ _ _) _))
      (fun _ => sameR_toJump (sameR_findNext hF h _ _ _) _)
  cases k
  case curlyR | tab | comment | newLine | space | curlyL => exact sameR_ctl _ trivial
  all_goals exact rest

theorem sameR_structRow (hF : F ≤ F') (hd : d ≤ d') {n m : Ptr} (h : PtrRel ρ n m) :
    SameR ρ (RCode.structRow F d n) (RCode.structRow F' d' m) (PtrRel ρ) := by
  have A := sameAll (ρ := ρ) hF d d' hd
  unfold RCode.structRow
  refine SameR.then (sameR_debugText h) (fun _ _ _ => SameR.then (sameR_getRowNameCount hF h) ?_)
  rintro count _ rfl
  refine sameR_jumpLoop hF _ _ (fun s n m h => sameR_kind_then h fun k => ?_) _ h
  cases k
  case raw => exact SameR.ite Iff.rfl (fun _ => sameR_setKind_ctl h _ _ trivial) (fun _ => sameR_setKind_ctl h _ _ trivial)
  case func_ => exact sameR_toJump (A.func _ _ _ _ h) _
  all_goals exact sameR_ctl _ trivial

theorem sameR_structRun (hF : F ≤ F') (hd : d ≤ d') {n m : Ptr} (h : PtrRel ρ n m) :
    SameR ρ (RCode.structRun F d n) (RCode.structRun F' d' m) (PtrRel ρ) := by
  unfold RCode.structRun
  refine SameR.then (sameR_debugText h) (fun _ _ _ => SameR.then (sameR_findNext hF h _ _ _) (fun n m h => SameR.then (sameR_next h) (fun n m h => ?_)))
  refine sameR_jumpLoop hF _ _ (fun s n m h => sameR_kind_then h fun k => ?_) _ h
  cases k
  case curlyR | comment | curlyL | newLine => exact sameR_ctl _ trivial
  all_goals exact sameR_toJump (sameR_structRow hF hd h) _

theorem sameR_typeRun (hF : F ≤ F') (hd : d ≤ d') {n m : Ptr} (h : PtrRel ρ n m) :
    SameR ρ (RCode.typeRun F d n) (RCode.typeRun F' d' m) (PtrRel ρ) := by
  have A := sameAll (ρ := ρ) hF d d' hd
  unfold RCode.typeRun
  refine SameR.then (sameR_debugText h) (fun _ _ _ => sameR_kind_then h fun k => ?_)
  refine SameR.ite Iff.rfl (fun _ => sameR_next h) (fun _ => ?_)
  refine sameR_jumpLoop hF _ _ (fun s n m h => sameR_kind_then h fun k => ?_) _ h
  refine SameR.ite Iff.rfl (fun _ => ?_) (fun _ => SameR.ite Iff.rfl (fun _ => ?_) (fun _ => ?_))
  · cases k
    case raw => exact sameR_setKind_ctl h _ _ trivial
    all_goals exact sameR_ctl _ trivial
  · cases k
    case squareL => exact sameR_toJump (sameR_squareRun hF h _) _
    all_goals exact sameR_ctl _ trivial
  · cases k
    case interface_ => exact sameR_toJump (sameR_interfaceRun hF hd h) _
    case struct_ => exact sameR_toJump (sameR_structRun hF hd h) _
    case func_ => exact sameR_toJump (A.func _ _ _ _ h) _
    case raw => exact sameR_toJump (sameR_paramRun hF hd h) _
    case squareL => exact sameR_toJump (sameR_squareRun hF h _) _
    all_goals exact sameR_ctl _ trivial

theorem sameR_resetKind (hF : F ≤ F') (hd : d ≤ d') {n m : Ptr} (h : PtrRel ρ n m) :
    SameR ρ (RCode.resetKind F d n) (RCode.resetKind F' d' m) (fun _ _ => True) := by
  have A := sameAll (ρ := ρ) hF d d' hd
  refine sameR_kind_then h fun k => ?_
  cases k
  case func_ => exact SameR.then (A.func _ _ _ _ h) (fun _ _ _ => SameR.pure trivial)
  case type_ => exact SameR.then (sameR_typeRun hF hd h) (fun _ _ _ => SameR.pure trivial)
  all_goals exact SameR.pure trivial

end Goast
