import Verif.Model.Path
import Verif.Spec.Path

/-!
# `SaveFile` on a file system with directories

In Model/File the calls of package `os` succeed or fail as `Env` says.  Here is a file system with directories, as Unix has it, where nothing
but its contents makes a call fail (permissions, space and links are left out).
-/

namespace Goast

open PathSpec

/-- The directories and the files, by their places. -/
structure Tree where
  dirs : List Bytes → Bool
  files : List Bytes → Option Bytes

namespace Tree

/-- The root is a directory, everything lies in a directory, and nothing is both a directory and a file. -/
structure Ok (t : Tree) : Prop where
  root : t.dirs [] = true
  up : ∀ p n, t.dirs (p ++ [n]) = true ∨ (t.files (p ++ [n])).isSome → t.dirs p = true
  one : ∀ p, t.dirs p = true → t.files p = none

/-- The system takes the parts of a path one by one: what it stands in must be a directory. -/
def look (t : Tree) : List Bytes → List Bytes → Option (List Bytes)
  | cur, [] => some cur
  | cur, part :: ps => if t.dirs cur then look t (step cur part) ps else none

/-- The place a name leads to. -/
def lookup (t : Tree) (cwd : List Bytes) (name : Bytes) : Option (List Bytes) :=
  t.look (if name.head? = some 47 then [] else cwd) (parts name)

/-- helper.go:42-52: `os.Open` or `io.ReadAll` fails though there is something: a file where the path goes on (ENOTDIR), or the whole path leads
to a directory (EISDIR).  Nothing there at all is ENOENT. -/
def stuck (t : Tree) : List Bytes → List Bytes → Bool
  | cur, [] => t.dirs cur
  | cur, part :: ps => if t.dirs cur then stuck t (step cur part) ps else (t.files cur).isSome

/-- helper.go:42-52 `os.Open` and `io.ReadAll`: the contents of a file. -/
def read (t : Tree) (cwd : List Bytes) (name : Bytes) : Option Bytes := (t.lookup cwd name).bind t.files

/-- A directory is made. -/
def addDir (t : Tree) (p : List Bytes) : Tree := { t with dirs := fun q => q = p || t.dirs q }

/-- A file gets these contents. -/
def put (t : Tree) (p : List Bytes) (data : Bytes) : Tree := { t with files := fun q => if q = p then some data else t.files q }

/-- helper.go:90 `os.MkdirAll(dir, 0777)` on the place of `dir`, its last name first; `none` is an error.  (Go 1.23, os/path.go: an existing
directory is fine, a file is an error, otherwise the parent is made and then the directory.  It cuts the path at its separators; `dir` is the result
of `filepath.Dir` and has `..` only at its beginning, where every part leads to a directory that exists.) -/
def mkdirAll (t : Tree) : List Bytes → Option Tree
  | [] => some t
  | n :: up =>
    if t.dirs (up.reverse ++ [n]) then some t
    else if (t.files (up.reverse ++ [n])).isSome then none
    else (mkdirAll t up).map (·.addDir (up.reverse ++ [n]))

/-- helper.go:61-105 `SaveFile` (the formatter as in `Env`, the rest of `Env` is not used). -/
def save (env : Env) (cwd : List Bytes) (t : Tree) (file data : Bytes) (autoImport : List Bool) : Tree × Option Err :=
  if data.length = 0 then (t, some .saveEmptyData)
  else
    let file := goFileName file
    let formatted := formattedData env file data autoImport
    match t.mkdirAll (place cwd (Path.dir file)).reverse with
    | none => (t, some .mkdir)
    | some t =>
      match t.lookup cwd file with
      | none => (t, some .create)
      | some p => if t.dirs p then (t, some .create) else (t.put p formatted, none)

end Tree

end Goast
