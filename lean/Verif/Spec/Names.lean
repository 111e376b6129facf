import Verif.Spec.Bencode
import Verif.Model.Bencode.Types
/-
The names of struct fields in dictionaries: what the tag of a field says.
-/

namespace Drip.Spec
open Bencode

/-- The tag begins with `name`, up to the first comma. -/
def TagName (tag name : Bytes) : Prop := 44 ∉ name ∧ (tag = name ∨ ∃ rest, tag = name ++ 44 :: rest)

/-- The capital letters of ASCII replaced by small ones. -/
def Lower (s k : Bytes) : Prop :=
  s.length = k.length ∧ ∀ (i : Nat) (a b : UInt8), s[i]? = some a → k[i]? = some b →
    (a ∈ b!"ABCDEFGHIJKLMNOPQRSTUVWXYZ" ∧ b.toNat = a.toNat + 32) ∨ (a ∉ b!"ABCDEFGHIJKLMNOPQRSTUVWXYZ" ∧ b = a)

/-- The key of a field: the name in the tag, or else the name of the field; in lower case. -/
def Key (h : Hdr) (k : Bytes) : Prop := ∃ name, TagName h.tag name ∧ ((name ≠ [] ∧ Lower name k) ∨ (name = [] ∧ Lower h.name k))

/-- The field is stored: it is exported and its tag is not `-`. -/
def Stored (h : Hdr) : Prop := h.exported = true ∧ h.tag ≠ b!"-"

/-- A struct without embedded fields, whose fields have names and different keys. -/
structure Ordinary (fs : List (Hdr × Ty)) : Prop where
  flat : ∀ f ∈ fs, f.1.anon = false
  named : ∀ f ∈ fs, f.1.name ≠ [] ∧ f.1.name.length ≤ 2 ^ 48 ∧ f.1.tag.length ≤ 2 ^ 48
  distinct : ∀ (i j : Nat) (f g : Hdr × Ty) (k : Bytes), fs[i]? = some f → fs[j]? = some g → Stored f.1 → Stored g.1 → Key f.1 k → Key g.1 k → i = j

end Drip.Spec
