import Verif.Model.Storage
import Verif.Spec.Storage
/-
What a finished download looks like on disk.
-/

namespace Drip.Storage
open Metainfo Spec

/-- A directory with the files of the torrent and no others, each once; each holds its part of the content `X` (of files with the same path: the last one). -/
structure Tree (files : List File) (X : Bytes) (l : List (List Bytes × Bytes)) : Prop where
  once : (l.map Prod.fst).Nodup
  only : ∀ x ∈ l, ∃ f ∈ files, f.path = x.1
  each : ∀ (k : Nat) (f : File), files[k]? = some f → LastWithPath files k → (f.path, slice X (fileStart files k) f.length.toNat) ∈ l

/-- The target holds the content `X`: a file with these bytes, or a directory in which each file holds its part. -/
def Holds (info : Info) (X : Bytes) : Target → Prop
  | .file c => info.files = [] ∧ c = X
  | .dir l => info.files ≠ [] ∧ Tree info.files X l

end Drip.Storage
