import Verif.Spec.BencodeAny
import Verif.Model.Basic
/-
What becomes of a variable that is decoded into a second time.
-/

namespace Drip.Spec
open Bencode (Val Ty)

/-- The entry of a key is replaced, or added at the end. -/
def setEntry {α : Type} (k : Bytes) (v : α) : List (Bytes × α) → List (Bytes × α)
  | [] => [(k, v)]
  | (k', w) :: es => if k' = k then (k', v) :: es else (k', w) :: setEntry k v es

/-- A map after the entries of another one were put into it. -/
def union {α : Type} (old new : List (Bytes × α)) : List (Bytes × α) := new.foldl (fun m e => setEntry e.1 e.2 m) old

mutual
/-- A variable of type `any` that holds the first value, after the second was decoded into it. A number and a string cannot be replaced: the variable's value is not addressable, and setting it panics. A
value of another kind is an error. The entries of a map are put into the old map. -/
def again : BVal → BVal → Res BVal
  | .int _, .int _ => .panic
  | .str _, .str _ => .panic
  | .list old, .list new => againL old new >>= fun x => .ok (.list x)
  | .dict old, .dict new => .ok (.dict (union old new))
  | _, _ => .err .syntax
/-- The elements of a list are decoded into the old ones, the remaining old ones stay; the list cannot grow. -/
def againL : List BVal → List BVal → Res (List BVal)
  | old, [] => .ok old
  | [], _ :: _ => .panic
  | o :: old, n :: new => again o n >>= fun x => againL old new >>= fun xs => .ok (x :: xs)
end

mutual
/-- A variable of a type of texts, numbers, lists and maps of them that holds `old`, after a text was decoded into it that gives `new` in a new variable. -/
def over : Ty → Val → Val → Val
  | .slice t, .slice old, .slice new => .slice (overs t old new)
  | .map _, .map old, .map new => .map (union old new)
  | _, _, new => new
/-- The elements of lists: those that both lists have, then those of the longer one. -/
def overs (t : Ty) : List Val → List Val → List Val
  | old, [] => old
  | [], new => new
  | o :: old, n :: new => over t o n :: overs t old new
end

/-- Types of texts, numbers, lists of such types, and maps. -/
inductive Simple : Ty → Prop
  | str : Simple .str
  | bytes : Simple .bytes
  | int (bits : Nat) : Simple (.int bits)
  | uint (bits : Nat) : Simple (.uint bits)
  | slice {t : Ty} : Simple t → Simple (.slice t)
  | map (t : Ty) : Simple (.map t)

end Drip.Spec
