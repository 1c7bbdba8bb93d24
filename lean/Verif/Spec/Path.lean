import Verif.Model.Basic

/-!
# What a path means

A path names a place: a list of names, from the root on.  A relative path starts at the working directory `cwd`.
Empty parts and `.` change nothing, `..` goes up (at the root it stays there).  Links are not looked at.
-/

namespace Goast.PathSpec

/-- The parts of a path between its slashes. -/
def parts : Bytes → List Bytes
  | [] => [[]]
  | c :: r =>
    if c = 47 then [] :: parts r
    else match parts r with
      | p :: ps => (c :: p) :: ps
      | [] => [[c]]

/-- One part of a path, seen from a place. -/
def step (place : List Bytes) (part : Bytes) : List Bytes :=
  if part = [] then place
  else if part = b!"." then place
  else if part = b!".." then place.dropLast
  else place ++ [part]

/-- The place a path names, in the working directory `cwd`. -/
def place (cwd : List Bytes) (path : Bytes) : List Bytes :=
  (parts path).foldl step (if path.head? = some 47 then [] else cwd)

/-- Following the parts of a path from `cur`, through directories, one comes to `q` with the parts `rest` left. -/
inductive Follows (dirs : List Bytes → Bool) : List Bytes → List Bytes → List Bytes → List Bytes → Prop
  | start {cur ps} : Follows dirs cur ps cur ps
  | enter {cur part ps q rest} : dirs cur = true → Follows dirs (step cur part) ps q rest → Follows dirs cur (part :: ps) q rest

end Goast.PathSpec
