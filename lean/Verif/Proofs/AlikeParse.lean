import Verif.Proofs.AlikeReset

/-! # Proofs: `ParseScope` does not depend on addresses -/

set_option linter.unusedSimpArgs false
set_option linter.unusedVariables false

namespace Goast

variable {α β γ δ : Type} {ρ : Corr} {F F' : Nat}

/-- Results after which all earlier nodes still correspond. -/
def Later (ρ : Corr) (Q : Corr → α → β → Prop) : Corr → α → β → Prop := fun ρ' x y => ρ.le ρ' ∧ Q ρ' x y

theorem Alike.later {Q : Corr → α → β → Prop} {ρ : Corr} {p : Code α} {q : Code β} (h : Alike Q ρ p q) : Alike (Later ρ Q) ρ p q :=
  Alike.mono h fun ρ' x y l e => ⟨l, e⟩

theorem Same.alike {V : α → β → Prop} {Q : Corr → α → β → Prop} {p : Code α} {q : Code β} (h : Same ρ p q V) (hv : ∀ x y, V x y → Q ρ x y) :
    Alike Q ρ p q := Alike.mono h (by rintro ρ' x y - ⟨rfl, v⟩; exact hv x y v)

theorem Alike.pure {Q : Corr → α → β → Prop} {x : α} {y : β} (h : Q ρ x y) : Alike Q ρ (Pure.pure x : Code α) (Pure.pure y : Code β) := Alike.ret h

theorem alike_newNode (line : Int) (text : Bytes) (kinds : List Kind) :
    Alike (fun ρ' x y => PtrRel ρ' x y) ρ (Code.newNode line text kinds) (Code.newNode line text kinds) := by
  unfold Code.newNode
  cases kinds with
  | nil => exact Alike.alloc (by intro f; cases f <;> first | rfl | trivial) fun a b ha hb => Alike.ret (Or.inr ⟨rfl, rfl⟩)
  | cons k ks => exact Alike.alloc (by intro f; cases f <;> first | rfl | trivial) fun a b ha hb => Alike.ret (Or.inr ⟨rfl, rfl⟩)

/-- The variables of one `Run` correspond. -/
structure LocalRel (ρ : Corr) (l l' : Local) : Prop where
  head : PtrRel ρ l.head l'.head
  cur : PtrRel ρ l.cur l'.cur
  bufLine : l.bufLine = l'.bufLine

theorem LocalRel.mono {ρ ρ' : Corr} (h : ρ.le ρ') {l l' : Local} (e : LocalRel ρ l l') : LocalRel ρ' l l' :=
  ⟨e.head.mono h, e.cur.mono h, e.bufLine⟩

theorem same_insertNode (hF : F ≤ F') {l l' : Local} (hl : LocalRel ρ l l') {n m : Ptr} (h : PtrRel ρ n m) :
    Same ρ (Code.insertNode F l n) (Code.insertNode F' l' m) (LocalRel ρ) := by
  refine Same.ite h.none_iff (fun _ => Same.pure hl) (fun _ => ?_)
  have hh : PtrRel ρ (if l.head = none then n else l.head) (if l'.head = none then m else l'.head) := by
    by_cases e : l.head = none
    · rw [if_pos e, if_pos (hl.head.none_iff.1 e)]; exact h
    · rw [if_neg e, if_neg (fun x => e (hl.head.none_iff.2 x))]; exact hl.head
  have rest : Same ρ (do let cur ← Code.last F n; pure { l with head := if l.head = none then n else l.head, cur })
      (do let cur ← Code.last F' m; pure { l' with head := if l'.head = none then m else l'.head, cur }) (LocalRel ρ) :=
    Same.then (same_last hF h) fun x y e => Same.pure ⟨hh, e, hl.bufLine⟩
  refine Same.ite (by rw [ne_eq, ne_eq, hl.cur.none_iff]) (fun _ => ?_) (fun _ => rest)
  exact Same.then (same_replaceNext hl.cur h) fun _ _ _ => rest

/-- What `pushNode` returns: the cursor is the same. -/
def PushRel (ρ : Corr) (x y : Code.Cursor × Local) : Prop := x.1 = y.1 ∧ LocalRel ρ x.2 y.2

theorem alike_pushNode (hF : F ≤ F') (s : Code.Cursor) {l l' : Local} (hl : LocalRel ρ l l') (useLine : Bool) (kinds : List Kind) :
    Alike PushRel ρ (Code.pushNode F s l useLine kinds) (Code.pushNode F' s l' useLine kinds) := by
  refine Alike.ite Iff.rfl (fun _ => Alike.pure ⟨rfl, hl⟩) (fun _ => ?_)
  rw [hl.bufLine]
  refine Alike.bind (alike_newNode _ _ _) (fun ρ' n m le hn => ?_)
  exact Same.bind (same_insertNode hF (hl.mono le) hn) fun x y e => Alike.pure ⟨rfl, ⟨e.head, e.cur, rfl⟩⟩

theorem alike_newInsert (hF : F ≤ F') (line : Int) (text : Bytes) (s : Code.Cursor) {l l' : Local} (hl : LocalRel ρ l l') :
    Alike PushRel ρ (do let n ← Code.newNode line text; let l ← Code.insertNode F l n; pure (s, l))
      (do let n ← Code.newNode line text; let l ← Code.insertNode F' l' n; pure (s, l)) := by
  refine Alike.bind (alike_newNode _ _ _) (fun ρ' n m le hn => ?_)
  exact Same.bind (same_insertNode hF (hl.mono le) hn) fun x y e => Alike.pure ⟨rfl, e⟩

theorem alike_runLoop (hF : F ≤ F') (ord : Nat → List (Bytes × Ext)) (text : Bytes) : ∀ (fuel : Nat) (e : Ext) (s : Code.Cursor) (l l' : Local) (ρ : Corr),
    LocalRel ρ l l' → Alike (fun ρ' x y => x.1 = y.1 ∧ PtrRel ρ' x.2 y.2) ρ (Code.runLoop ord text F fuel e s l) (Code.runLoop ord text F' fuel e s l')
  | 0, _, _, _, _, _, _ => Alike.panic _
  | fuel + 1, e, s, l, l', ρ, hl => by
    have ih := alike_runLoop hF ord text fuel
    unfold Code.runLoop
    split
    · refine Alike.bind (alike_pushNode hF s hl _ _) ?_
      rintro ρ' ⟨x, l₁⟩ ⟨_, l₂⟩ le ⟨rfl, h⟩
      exact Alike.pure ⟨rfl, h.head⟩
    · rename_i char _
      split
      · rename_i ee _
        refine Alike.bind (alike_pushNode hF s hl _ _) ?_
        rintro ρ' ⟨x, l₁⟩ ⟨_, l₂⟩ le ⟨rfl, h⟩
        refine Alike.bind (Q := PushRel) ?_ ?_
        · refine Alike.ite Iff.rfl (fun _ => Alike.pure ⟨rfl, h⟩) (fun _ => ?_)
          dsimp only
          rw [h.bufLine]
          exact alike_newInsert hF _ _ _ h
        · rintro ρ' ⟨x, l₁⟩ ⟨_, l₂⟩ le' ⟨rfl, h⟩
          refine Alike.bind (ih _ _ _ _ _ ⟨trivial, trivial, rfl⟩) ?_
          rintro ρ'' ⟨x', n⟩ ⟨_, m⟩ le'' ⟨rfl, hn⟩
          refine Same.bind (same_insertNode hF (h.mono le'') hn) ?_
          rintro l₃ l₄ h'
          exact ih _ _ _ _ _ h'
      · refine Alike.ite Iff.rfl (fun _ => ih _ _ _ _ _ hl) (fun _ => ?_)
        refine Alike.ite Iff.rfl (fun _ => ?_) (fun _ => ?_)
        · refine Alike.bind (Q := PushRel) ?_ ?_
          · refine Alike.ite Iff.rfl (fun _ => alike_pushNode hF _ hl _ _) (fun _ => ?_)
            refine Alike.bind (alike_pushNode hF s hl _ _) ?_
            rintro ρ' ⟨x, l₁⟩ ⟨_, l₂⟩ le ⟨rfl, h⟩
            exact alike_newInsert hF _ _ _ h
          · rintro ρ' ⟨x, l₁⟩ ⟨_, l₂⟩ le ⟨rfl, h⟩
            exact Alike.pure ⟨rfl, h.head⟩
        · refine Alike.bind (Q := PushRel) ?_ ?_
          · refine Alike.ite Iff.rfl (fun _ => ?_) (fun _ => Alike.pure ⟨rfl, hl⟩)
            refine Alike.bind (alike_pushNode hF s hl _ _) ?_
            rintro ρ' ⟨x, l₁⟩ ⟨_, l₂⟩ le ⟨rfl, h⟩
            exact alike_newInsert hF _ _ _ h
          · rintro ρ' ⟨x, l₁⟩ ⟨_, l₂⟩ le ⟨rfl, h⟩
            exact ih _ _ _ _ _ h

theorem alike_extract (hF : F ≤ F') (ord : Nat → List (Bytes × Ext)) (text : Bytes) :
    Alike PtrRel ρ (Code.extract ord F text) (Code.extract ord F' text) := by
  refine Alike.bind (alike_runLoop hF ord text _ _ _ _ _ _ ⟨trivial, trivial, rfl⟩) ?_
  rintro ρ' ⟨x, n⟩ ⟨_, m⟩ le ⟨rfl, h⟩
  exact Alike.pure h

/-- Lists of scopes that correspond one by one: kinds and lines are the same, the nodes correspond. -/
def ScopesRel (ρ : Corr) : List ScopeRec → List ScopeRec → Prop
  | [], [] => True
  | x :: xs, y :: ys => (x.line = y.line ∧ x.kind = y.kind ∧ PtrRel ρ x.node y.node) ∧ ScopesRel ρ xs ys
  | _, _ => False

theorem ScopesRel.append {ρ : Corr} : ∀ {ps qs ps' qs' : List ScopeRec}, ScopesRel ρ ps qs → ScopesRel ρ ps' qs' → ScopesRel ρ (ps ++ ps') (qs ++ qs')
  | [], [], _, _, _, h' => h'
  | [], _ :: _, _, _, h, _ => h.elim
  | _ :: _, [], _, _, h, _ => h.elim
  | _ :: _, _ :: _, _, _, h, h' => ⟨h.1, ScopesRel.append h.2 h'⟩

/-- The variables of `ParseScope` correspond. -/
structure VarsRel (ρ : Corr) (s t : Code.ParseVars) : Prop where
  scs : ScopesRel ρ s.scs t.scs
  head : PtrRel ρ s.head t.head
  k : s.k = t.k
  line : s.line = t.line

theorem same_tryAppendScope {s t : Code.ParseVars} (h : VarsRel ρ s t) : Same ρ (Code.tryAppendScope s) (Code.tryAppendScope t) (VarsRel ρ) := by
  refine Same.then (V := VarsRel ρ) ?_ ?_
  · refine Same.ite (by rw [h.k]) (fun _ => ?_) (fun _ => Same.pure h)
    refine Same.then (same_line h.head) ?_
    rintro x _ rfl
    exact Same.pure ⟨h.scs.append ⟨⟨rfl, h.k, h.head⟩, trivial⟩, h.head, h.k, h.line⟩
  · intro s t h
    refine Same.then (same_prev h.head) fun x y e => ?_
    refine Same.ite (by rw [ne_eq, ne_eq, e.none_iff]) (fun _ => ?_) (fun _ => Same.pure h)
    exact Same.then (same_removePrev h.head) fun _ _ _ => Same.pure h

theorem same_parseStep {s t : Code.ParseVars} (h : VarsRel ρ s t) {n m : Ptr} (hn : PtrRel ρ n m) :
    Same ρ (Code.parseStep s n) (Code.parseStep t m) (fun x y => VarsRel ρ x.1 y.1 ∧ x.2 = y.2) := by
  refine Same.then (same_line hn) ?_
  rintro x _ rfl
  refine Same.ite (by rw [h.line]) (fun _ => Same.pure ⟨h, rfl⟩) (fun _ => ?_)
  refine Same.then (same_line hn) ?_
  rintro x _ rfl
  refine Same.then (same_text hn) ?_
  rintro t' _ rfl
  have h' : VarsRel ρ { s with line := x } { t with line := x } := ⟨h.scs, h.head, h.k, rfl⟩
  refine Same.ite Iff.rfl (fun _ => Same.pure ⟨h', rfl⟩) (fun _ => ?_)
  exact Same.then (same_tryAppendScope h') fun u v e => Same.pure ⟨⟨e.scs, hn, rfl, e.line⟩, rfl⟩

theorem same_resetAll (hF : F ≤ F') {d d' : Nat} (hd : d ≤ d') : ∀ {xs ys : List ScopeRec}, ScopesRel ρ xs ys →
    Same ρ (Code.resetAll F d xs) (Code.resetAll F' d' ys) (fun _ _ => True)
  | [], [], _ => Same.pure trivial
  | [], _ :: _, h => h.elim
  | _ :: _, [], h => h.elim
  | x :: xs, y :: ys, h => Same.then (sameR_resetKind hF hd h.1.2.2 [] [] trivial) fun _ _ _ => same_resetAll hF hd h.2

theorem alike_parseScope (hF : F ≤ F') (ord : Nat → List (Bytes × Ext)) (sl : Int) (text : Bytes) :
    Alike ScopesRel ρ (Code.parseScope ord F sl text) (Code.parseScope ord F' sl text) := by
  refine Alike.bind (alike_extract hF ord text) fun ρ n m le h => ?_
  refine Same.bind (same_loop (S := VarsRel ρ) (fun _ _ => same_next) (fun s t n m hs hn => same_parseStep hs hn) F F' _ _ n m hF
    ⟨trivial, h, rfl, rfl⟩ h) fun x y e => ?_
  refine Same.bind (same_tryAppendScope e.1) fun s t e => ?_
  exact Same.bind (same_resetAll hF (by omega) e.scs) fun _ _ _ => Alike.pure e.scs

end Goast
