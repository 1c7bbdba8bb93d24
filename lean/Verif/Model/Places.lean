import Verif.Model.File
import Verif.Spec.Path

/-!
# Files that are known by several names

In Model/File a file is its name.  Here files lie at places (Spec/Path), and the operating system looks a name up from the working
directory.  Links are not modelled, and directories are not either (they are in Model/Tree): the system refuses a name that leads through a directory that does not
exist (`a/../x.go` without a directory `a`), which is an error in `Env`; it never takes such a name for another file.
-/

namespace Goast

open PathSpec

/-- The files as seen through their names: what `os.Open` and `os.Create` (helper.go:42, 94) find under a name. -/
def byName (cwd : List Bytes) (disk : List Bytes → Option Bytes) : FS := fun name => disk (place cwd name)

/-- helper.go:61-105 `SaveFile` on files that lie at places: what `saveFile` does to the one name it opens happens at the place of that name. -/
def saveAt (env : Env) (cwd : List Bytes) (disk : List Bytes → Option Bytes) (file data : Bytes) (autoImport : List Bool) :
    (List Bytes → Option Bytes) × Option Err :=
  let r := saveFile env (byName cwd disk) file data autoImport
  (fun p => if p = place cwd (goFileName file) then r.1 (goFileName file) else disk p, r.2)

end Goast
