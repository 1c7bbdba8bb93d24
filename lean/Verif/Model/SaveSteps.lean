import Verif.Model.Ast

/-!
# `SaveFile` step by step

`saveFile` (Model/File.lean) says what `SaveFile` has done when it returns.  Here are the changes it makes on disk one by one, so
that one can say what is there if the process is killed between two of them, or if two processes save at the same time.
Directories are not part of `FS`.
-/

namespace Goast

/-- One change on disk. -/
inductive Effect
  /-- helper.go:90 `os.MkdirAll(dir, 0777)`: no file changes -/
  | mkdir (dir : Bytes)
  /-- helper.go:94 `os.Create(file)`: the file is empty now -/
  | create (file : Bytes)
  /-- helper.go:100, part of `f.Write(formatted)`: these bytes are put at this offset -/
  | write (file : Bytes) (off : Nat) (chunk : Bytes)
deriving DecidableEq, Repr

/-- The content of a file after some bytes were written at an offset; a hole is filled with zero bytes. -/
def writeAt (c : Bytes) (off : Nat) (chunk : Bytes) : Bytes :=
  c.take off ++ List.replicate (off - c.length) 0 ++ chunk ++ c.drop (off + chunk.length)

/-- The files after a change.  (A file that has been removed meanwhile, while it was open, does not occur: nothing in /repo removes files.) -/
def Effect.apply (fs : FS) : Effect → FS
  | .mkdir _ => fs
  | .create f => fs.put f []
  | .write f off chunk => fs.put f (writeAt ((fs f).getD []) off chunk)

/-- helper.go:100 `f.Write`: the kernel takes the bytes in pieces, one behind the other, starting at offset 0 (the file was just opened). -/
def writeEffects (file : Bytes) : Nat → List Bytes → List Effect
  | _, [] => []
  | off, c :: cs => .write file off c :: writeEffects file (off + c.length) cs

/-- helper.go:61-105 `SaveFile`: the changes it makes, in order.  `split` says in which pieces the bytes are taken. -/
def saveEffects (env : Env) (split : Bytes → List Bytes) (file data : Bytes) (autoImport : List Bool) : List Effect :=
  if data.length = 0 then []
  else
    let file := goFileName file
    let formatted := formattedData env file data autoImport
    if !env.mkdirOk (env.dir file) then []
    else if !env.createOk file then [.mkdir (env.dir file)]
    else .mkdir (env.dir file) :: .create file ::
      writeEffects file 0 (split (match env.writeFailsAfter file formatted with
        | some k => formatted.take k
        | none => formatted))

/-- The files after some changes. -/
def runEffects (fs : FS) (es : List Effect) : FS := es.foldl Effect.apply fs

end Goast
