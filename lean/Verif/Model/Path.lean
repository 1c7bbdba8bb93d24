import Verif.Model.File

/-!
# Model of the functions of Go's `path/filepath` that `/repo` calls

ast.go:88-90 calls `filepath.Dir`, `filepath.Base` and `filepath.Ext`, helper.go:89 calls `filepath.Dir`.  In `Env` they are
arbitrary functions; here they are what Go's standard library (Go 1.23, `internal/filepathlite/path.go`, `path/filepath/path.go`)
computes on Unix: the separator is `/` and there are no volume names, so the branches for those are left out.
`out` is the part of `lazybuf` that is in use (its `w` is the length); that it is allocated lazily is not modelled.
-/

namespace Goast.Path

/-- `os.IsPathSeparator` on Unix. -/
def isSep (c : UInt8) : Bool := c == 47

/-- `filepathlite.Clean`: `out.w--; for out.w > dotdot && !IsPathSeparator(out.index(out.w)) { out.w-- }`, from `out.w` on. -/
def backUp (out : Bytes) (dotdot : Nat) : Nat → Nat
  | 0 => 0
  | w + 1 => if w > dotdot && !isSep (out.getD w 0) then backUp out dotdot w else w

/-- `filepathlite.Clean`: the loop `for r < n`; `rest` is `path[r:]`.  `fuel` bounds the rounds; each takes at least one byte. -/
def cleanLoop (rooted : Bool) : Nat → Bytes → Bytes → Nat → Bytes
  | 0, _, out, _ => out
  | fuel + 1, rest, out, dotdot =>
    match rest with
    | [] => out
    | c :: r =>
      if isSep c then cleanLoop rooted fuel r out dotdot
      else if c == 46 && (r.isEmpty || isSep (r.headD 0)) then cleanLoop rooted fuel r out dotdot
      else if c == 46 && r.headD 0 == 46 && ((r.drop 1).isEmpty || isSep ((r.drop 1).headD 0)) then
        if out.length > dotdot then cleanLoop rooted fuel (r.drop 1) (out.take (backUp out dotdot out.length)) dotdot
        else if !rooted then
          let out := (if out.length > 0 then out ++ b!"/" else out) ++ b!".."
          cleanLoop rooted fuel (r.drop 1) out out.length
        else cleanLoop rooted fuel (r.drop 1) out dotdot
      else
        let out := if (rooted && out.length != 1) || (!rooted && out.length != 0) then out ++ b!"/" else out
        cleanLoop rooted fuel (rest.dropWhile (!isSep ·)) (out ++ rest.takeWhile (!isSep ·)) dotdot

/-- `filepathlite.Clean`. -/
def clean (path : Bytes) : Bytes :=
  match path with
  | [] => b!"."
  | c :: r =>
    let out := if isSep c then cleanLoop true path.length r b!"/" 1 else cleanLoop false path.length path [] 0
    if out.length = 0 then b!"." else out

/-- The part of `path` behind its last separator (the loops `for i >= 0 && !IsPathSeparator(path[i])` of `Dir` and `Base`). -/
def lastPart (path : Bytes) : Bytes := (path.reverse.takeWhile (!isSep ·)).reverse

/-- `filepathlite.Dir`: `Clean(path[:i+1])`, `i` the place of the last separator. -/
def dir (path : Bytes) : Bytes := clean (path.take (path.length - (lastPart path).length))

/-- `filepathlite.Base`. -/
def base (path : Bytes) : Bytes :=
  if path = [] then b!"."
  else
    let path := (path.reverse.dropWhile isSep).reverse
    let path := lastPart path
    if path = [] then b!"/" else path

/-- `filepathlite.Ext`: from the end, to the first dot that comes before a separator. -/
def ext (path : Bytes) : Bytes :=
  let l := lastPart path
  if l.contains 46 then b!"." ++ (l.reverse.takeWhile (· != 46)).reverse else []

/-- An environment whose `filepath` functions are those of Go on Unix. -/
def OnUnix (env : Env) : Prop := env.dir = dir ∧ env.base = base ∧ env.ext = ext

end Goast.Path
