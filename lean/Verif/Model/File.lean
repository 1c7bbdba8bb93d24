import Verif.Model.Helper

/-!
# Model of `ReadFile` and `SaveFile` of `/repo/helper/helper.go`

The operating system and the two Go libraries called (`go/format`, `golang.org/x/tools/imports`)
are parameters: `Env` says how they answer, and every theorem quantifies over all of `Env`.
Logging (`slog.Error`) is not modelled.
-/

namespace Goast

/-- The error values /repo can return, up to wrapping. -/
inductive Err
  | notExist          -- an OS error for which `errors.Is(err, os.ErrNotExist)` holds
  | os                -- any other OS error of `os.Open` / `io.ReadAll`
  | badSource         -- an error of `format.Source`
  | saveEmptyData     -- helper.go:63
  | mkdir             -- helper.go:91
  | create            -- helper.go:96
  | write             -- helper.go:101
  | ErrNotExist       -- ast.go:17
  | ErrNoPackage      -- ast.go:16
deriving DecidableEq, Repr

/-- The files that exist, with their contents. -/
abbrev FS := Bytes → Option Bytes

/-- How the operating system and the libraries answer. -/
structure Env where
  /-- `format.Source`; `none` is an error. -/
  formatSource : Bytes → Option Bytes
  /-- `imports.Process(file, data, nil)`; `none` is an error. -/
  importsProcess : Bytes → Bytes → Option Bytes
  /-- `os.Open` fails for another reason than that there is no such file (permissions, a file in the place of a directory, …). -/
  openDenied : Bytes → Bool
  /-- `io.ReadAll` fails. -/
  readFails : Bytes → Bool
  /-- `os.MkdirAll(dir, 0777)` succeeds. -/
  mkdirOk : Bytes → Bool
  /-- `os.Create(file)` succeeds (it truncates an existing file). -/
  createOk : Bytes → Bool
  /-- `f.Write(data)`: `none` when all was written, `some k` when it failed after `k` bytes. -/
  writeFailsAfter : Bytes → Bytes → Option Nat
  /-- `filepath.Dir`, `filepath.Base`, `filepath.Ext`. -/
  dir : Bytes → Bytes
  base : Bytes → Bytes
  ext : Bytes → Bytes

/-- helper.go:38-40 and 66-68: the name actually opened or written. -/
def goFileName (file : Bytes) : Bytes :=
  if !hasSuffix file b!".go" then file ++ b!".go" else file

/-- helper.go:37-59 `ReadFile`. -/
def readFile (env : Env) (fs : FS) (file : Bytes) : Except Err Bytes :=
  let file := goFileName file
  if env.openDenied file then .error .os
  else match fs file with
    | none => .error .notExist
    | some buf =>
      if env.readFails file then .error .os
      else match env.formatSource buf with
        | none => .error .badSource
        | some formatted => .ok formatted

/-- helper.go:70-87: the bytes to be written.  A failing formatter falls back to the raw data. -/
def formattedData (env : Env) (file data : Bytes) (autoImport : List Bool) : Bytes :=
  if autoImport.length ≠ 0 && autoImport.headD false then
    (env.importsProcess file data).getD data
  else (env.formatSource data).getD data

/-- Replace the contents of one file. -/
def FS.put (fs : FS) (file data : Bytes) : FS := fun f => if f = file then some data else fs f

/-- helper.go:61-105 `SaveFile`: the file system afterwards, and the error (`none` is nil). -/
def saveFile (env : Env) (fs : FS) (file data : Bytes) (autoImport : List Bool) :
    FS × Option Err :=
  if data.length = 0 then (fs, some .saveEmptyData)
  else
    let file := goFileName file
    let formatted := formattedData env file data autoImport
    if !env.mkdirOk (env.dir file) then (fs, some .mkdir)
    else if !env.createOk file then (fs, some .create)
    else
      let fs := fs.put file []
      match env.writeFailsAfter file formatted with
      | some k => (fs.put file (formatted.take k), some .write)
      | none => (fs.put file formatted, none)

end Goast
