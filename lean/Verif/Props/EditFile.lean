import Verif.Props.EditPrev
import Verif.Props.Iterate
import Verif.Props.Generate
import Verif.Props.SurviveCheck

/-!
# C61: parse, edit, save for the files whose text survives
-/

namespace Goast
open Heap

variable {st : AState} {f : AstRec} {lss : List (List Addr)}

/-- New nodes that belong to no scope change nothing. -/
theorem Doc.extends (d : Doc st f lss) {h' : Heap} (w : WF h') (ex : Extends st.heap h') : Doc (st.edited h') f lss :=
  ⟨w, d.nodes.extends ex, d.nodup⟩

theorem Doc.text_extends (d : Doc st f lss) {h' : Heap} (ex : Extends st.heap h') {l : List Addr} (hl : ∀ x ∈ l, x ∈ lss.flatten) :
    textOf h' l = textOf st.heap l := by
  refine textOf_frame fun x hx => ?_
  obtain ⟨m, hm, hx⟩ := List.mem_flatten.1 (hl x hx)
  have := (ex.2 x (d.nodes.lt m hm x hx)).2.2
  exact congrArg (fun y : Int × Kind × Bytes => y.2.2) this

/-- **C61** Parse, edit, save, for every formatted file whose sections keep their text (C64): package clause, imports, functions with comments in their bodies, types,
...  `ParseAst` returns an `Ast`; its nodes, one after another, make up the file; and for each of them, after `SetText(t)`, or after a new node with
text `t` was made and put behind it (`InsertNext`), `Save` writes the file with that piece replaced, or with `t` added behind it. -/
theorem C61_file (env : Env) (spare : Nat) (fs : FS) (st : AState) (w : WF st.heap) (ac : Acyclic st.heap) {file name data : Bytes}
    (hs : ∀ g ∈ (sectionsOf 0 data).2, Survives g) (hl : (sectionsOf 0 data).1 = [])
    (hp : ∃ g ∈ (sectionsOf 0 data).2, ∃ t, g.head? = some t ∧ b!"package".isPrefixOf t.2)
    (hn : IsGoName file name) (hf : fs name = some data)
    (o1 : env.openDenied name = false) (o2 : env.readFails name = false) (o3 : env.formatSource data = some data) :
    ∃ st' ast lss, parseAst env spare fs st file = some (.ok (st', ast)) ∧ Doc st' ast lss ∧ Saves st' ast data ∧ textOf st'.heap lss.flatten = data ∧
      ∀ n ∈ lss.flatten, ∃ pre post, data = pre ++ st'.heap.text (some n) ++ post ∧
        (∀ t, Saves (st'.edited (st'.heap.setText (some n) t)) ast (pre ++ t ++ post)) ∧
        (∀ L t, Saves (st'.edited ((st'.heap.newNode L t).1.insertNext (some n) (some (st'.heap.newNode L t).2)).1) ast
          (pre ++ st'.heap.text (some n) ++ t ++ post)) := by
  obtain ⟨st', ast, e, _⟩ := C64_save { env with mkdirOk := fun _ => true, createOk := fun _ => true, writeFailsAfter := fun _ _ => none }
    spare fs st w ac hs hl hp hn hf o1 o2 o3 rfl rfl rfl
  have e : parseAst env spare fs st file = some (.ok (st', ast)) := e
  obtain ⟨lss, dt, d, hr, hps⟩ := C61_parsed w ac e
  have hd : dt = data := by
    have : readFile env fs file = .ok data := by
      simp only [readFile, goName_unique hn, hf, o1, o2, o3, Bool.false_eq_true, if_false]
    rw [this] at hr
    simpa using hr.symm
  subst hd
  have tx : allText st'.heap lss = dt := by
    obtain ⟨h', scs, q1, saved, q2, q3⟩ := C64_text mapOrder_id w ac 0 dt hs
    have q1 : parseScope st.heap 0 dt = some (h', scs) := q1
    rw [hps] at q1
    simp only [Option.some.injEq, Prod.mk.injEq] at q1
    obtain ⟨rfl, rfl⟩ := q1
    rw [hl] at q3
    rw [scopesText_eq d.nodes] at q2
    cases q2
    simpa [tokText] using q3
  refine ⟨st', ast, lss, e, d, tx ▸ d.saves, ?_, ?_⟩
  · rw [← tx]
    rfl
  intro n hn
  obtain ⟨l, hl, hx⟩ := List.mem_flatten.1 hn
  obtain ⟨A, D, rfl⟩ := List.append_of_mem hl
  obtain ⟨B, C, rfl⟩ := List.append_of_mem hx
  refine ⟨allText st'.heap A ++ textOf st'.heap B, textOf st'.heap C ++ allText st'.heap D, ?_, fun t => ?_, fun L t => ?_⟩
  · rw [← tx, allText_append, allText_cons, textOf_app, textOf_cons']
    simp only [List.append_assoc]
  · have := (C61_setText d t).2
    simpa only [List.append_assoc] using this
  · obtain ⟨n1, ex, w', _, n2⟩ := newNode_post d.wf L t
    have d1 : Doc (st'.edited (st'.heap.newNode L t).1) ast (A ++ (B ++ n :: C) :: D) := d.extends w' ex
    have nt : (st'.heap.newNode L t).1.text (some (st'.heap.newNode L t).2) = t := by
      rw [newNode_eq]
      simp [Heap.text, Heap.extend, Heap.size]
    have := (C61_insertNext d1 (m := (st'.heap.newNode L t).2) (by
      rw [show (st'.edited (st'.heap.newNode L t).1).heap = (st'.heap.newNode L t).1 from rfl, n1, n2]; omega) (by
      intro hm
      obtain ⟨l', hl', hm'⟩ := List.mem_flatten.1 hm
      have := d.nodes.lt l' hl' _ hm'
      omega)).2
    rw [show (st'.edited (st'.heap.newNode L t).1).heap = (st'.heap.newNode L t).1 from rfl, nt] at this
    have tl : ∀ l, (∀ x ∈ l, x ∈ (A ++ (B ++ n :: C) :: D).flatten) → textOf (st'.heap.newNode L t).1 l = textOf st'.heap l :=
      fun l hl => d.text_extends ex hl
    have eA : allText (st'.heap.newNode L t).1 A = allText st'.heap A := tl A.flatten (by intro x hx; simp [hx])
    have eD : allText (st'.heap.newNode L t).1 D = allText st'.heap D := tl D.flatten (by intro x hx; simp [hx])
    have en : (st'.heap.newNode L t).1.text (some n) = st'.heap.text (some n) := by
      have := tl [n] (by intro x hx; simp at hx; simp [hx])
      simpa [textOf] using this
    rw [eA, eD, en, tl B (by intro x hx; simp [hx]), tl C (by intro x hx; simp [hx])] at this
    simp only [List.append_assoc] at this ⊢
    exact this

/-- Such a file. -/
example : keepsText b!"package a\n\nimport \"fmt\"\n\n// F prints.\nfunc F(a int) {\n\tfmt.Println(a) // here\n}\n" = true := by decide +kernel

end Goast
