import Verif.Model.SaveSteps

/-!
# Programs that save files, killed at any moment
-/

namespace Goast

/-- A call of `SaveFile`. -/
structure SaveCall where
  file : Bytes
  data : Bytes
  auto : List Bool

/-- The calls one after another, each to its end. -/
def saveAll (env : Env) : FS → List SaveCall → FS
  | fs, [] => fs
  | fs, c :: cs => saveAll env (saveFile env fs c.file c.data c.auto).1 cs

/-- The process makes the calls one after another and is killed after `n` changes on disk. -/
def killed (env : Env) (split : Bytes → List Bytes) (fs : FS) (calls : List SaveCall) (n : Nat) : FS :=
  runEffects fs ((calls.flatMap fun c => saveEffects env split c.file c.data c.auto).take n)

/-- `es` is an interleaving of the lists `ess`: the order of each of them is kept. -/
inductive Interleaved {α : Type} : List (List α) → List α → Prop
  | done {ess : List (List α)} : (∀ l ∈ ess, l = []) → Interleaved ess []
  | step {pre post : List (List α)} {e : α} {l es : List α} : Interleaved (pre ++ l :: post) es → Interleaved (pre ++ (e :: l) :: post) (e :: es)

end Goast
