import Verif.Model.Bencode.Fields
/-
Which fields of a struct can supply a dictionary key, independently of the search in `getFieldsForStruct`.
-/

namespace Drip.Spec
open Bencode

/-- The part of a tag before the first comma, in lower case. -/
def tagName (h : Hdr) : Bytes := toLower (h.tag.takeWhile (· ≠ 44))

/-- The key of a field: its tag name if there is one, else its name, in lower case. -/
def fieldKey (h : Hdr) : Bytes := if tagName h = [] then toLower h.name else tagName h

/-- The type is a struct, or a named type that is one. -/
def IsStruct (t : Ty) : Prop := ∃ id fs, t.under = .struct id fs

/-- The type or the type it points to. -/
def target : Ty → Ty
  | .ptr t => t
  | t => t

/-- The field takes part: it is exported, or is an embedded (pointer to a) struct; and is not tagged `-`. -/
def Visible (h : Hdr) (t : Ty) : Prop := (h.exported ∨ (h.anon ∧ IsStruct (target t))) ∧ h.tag ≠ b!"-"

/-- The field is an untagged embedded (pointer to a) struct: its fields are promoted. -/
def Embeds (h : Hdr) (t : Ty) : Prop := h.anon ∧ IsStruct (target t) ∧ tagName h = []

/-- `t` (or what it points to) is a struct with identity `id` whose field number `j` has header `h` and type `ft`. -/
def FieldAt (t : Ty) (id j : Nat) (h : Hdr) (ft : Ty) : Prop :=
  ∃ fs, (target t).under = .struct id fs ∧ fs[j]? = some (h, ft)

/-- `Cand t p h ft`: following the index path `p` through promoted fields of `t` leads to the field `h : ft`, which is
visible and is not itself promoted. Its embedding depth is the length of `p`. -/
inductive Cand : Ty → List Nat → Hdr → Ty → Prop
  | here {t id j h ft} : FieldAt t id j h ft → Visible h ft → ¬ Embeds h ft → Cand t [j] h ft
  | there {t id j h ft p h' ft'} : FieldAt t id j h ft → Visible h ft → Embeds h ft → Cand ft p h' ft' →
      Cand t (j :: p) h' ft'

/-- `Reach t p u`: the promoted struct `u` lies at path `p` below `t`. -/
inductive Reach : Ty → List Nat → Ty → Prop
  | here {t} : Reach t [] t
  | there {t p u id j h ft} : Reach t p u → FieldAt u id j h ft → Visible h ft → Embeds h ft → Reach t (p ++ [j]) ft

/-- Struct identities determine the fields, among the structs below `t`. -/
def IdsOk (t : Ty) : Prop :=
  ∀ p u q w id fs gs, Reach t p u → Reach t q w → (target u).under = .struct id fs → (target w).under = .struct id gs → fs = gs

/-- Every struct type is promoted by one path only. -/
def OnePath (t : Ty) : Prop :=
  ∀ p u q w id fs gs, Reach t p u → Reach t q w → (target u).under = .struct id fs → (target w).under = .struct id gs → p = q

/-- The field at path `p` is the one that belongs to its key, by the rule of `encoding/json`: no candidate with the key is at a smaller depth, and among those at
the same depth it is the only one or the only one with a tag. -/
def Dominant (t : Ty) (p : List Nat) (h : Hdr) : Prop :=
  ∀ q h' ft', Cand t q h' ft' → fieldKey h' = fieldKey h → p.length < q.length ∨ q = p ∨ (q.length = p.length ∧ tagName h ≠ [] ∧ tagName h' = [])

end Drip.Spec
