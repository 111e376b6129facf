import Verif.Model.Storage
/-
The file names given to the os package by /repo/storage/storage.go, and the two functions of path/filepath that make them (Unix).
-/

namespace Drip.Paths
open Metainfo

/-- The parts between slashes (used by `filepath.Clean` in storage.go:342, 345, 354). -/
def parts : Bytes → List Bytes
  | [] => [[]]
  | c :: cs =>
    match parts cs with
    | [] => [[c]]
    | p :: ps => if c = 47 then [] :: p :: ps else (c :: p) :: ps

/-- `strings.Join(l, "/")`, used by `filepath.Join` (storage.go:345). -/
def unparts : List Bytes → Bytes
  | [] => []
  | [p] => p
  | p :: q :: ps => p ++ 47 :: unparts (q :: ps)

/-- The loop of `filepath.Clean` (storage.go:345 via Join), part by part: empty parts and `.` are dropped, `..` removes the
part before it; where there is none it is dropped in a rooted path and kept otherwise. -/
def cleanLoop (rooted : Bool) (out : List Bytes) : List Bytes → List Bytes
  | [] => out
  | p :: ps =>
    if p = b!"" ∨ p = b!"." then cleanLoop rooted out ps
    else if p = b!".." then
      if out ≠ [] ∧ out.getLast? ≠ some b!".." then cleanLoop rooted out.dropLast ps
      else if rooted then cleanLoop rooted out ps
      else cleanLoop rooted (out ++ [p]) ps
    else cleanLoop rooted (out ++ [p]) ps

/-- `filepath.Clean` (storage.go:345 via Join). -/
def clean (path : Bytes) : Bytes :=
  if path.head? = some 47 then 47 :: unparts (cleanLoop true [] (parts path))
  else
    let out := cleanLoop false [] (parts path)
    if out = [] then b!"." else unparts out

/-- `filepath.Join` (storage.go:342, 345, 354): leading empty elements are ignored. -/
def join : List Bytes → Bytes
  | [] => []
  | e :: es => if e = [] then join es else clean (unparts (e :: es))

/-- storage.go:341-345: the name given to `os.Create` for a file, `temp` being the temporary directory. -/
def created (temp : Bytes) (f : File) : Bytes := join (temp :: f.path)

/-- storage.go:354: the name the temporary directory gets. -/
def targetPath (targetDir : Bytes) (info : Info) : Bytes := join [targetDir, info.name]

/-- storage.go:193-194: the name a file is read from afterwards. -/
def readPath (targetDir : Bytes) (info : Info) (f : File) : Bytes := join (targetDir :: info.name :: f.path)

end Drip.Paths
