import Verif.Spec.Bencode
/-
Which texts bring a decoder down that allocates whatever length it reads: those that are well-formed up to an impossible length.
-/

namespace Drip.Spec

/-- The text of a length (a number of 64 bits) that cannot be: it is negative, or more than can be allocated. -/
def Impossible (s : Bytes) : Prop := ∃ n : Int, SNumeral s n ∧ -2 ^ 63 ≤ n ∧ n < 2 ^ 63 ∧ (n < 0 ∨ 2 ^ 48 < n)

/-- The last key of a dictionary's entries. -/
def lastKey (last : Bytes) : List (Bytes × Bytes × CTree) → Bytes
  | [] => last
  | (_, k, _) :: es => lastKey k es

/-- The text begins with values that are well-formed up to an impossible length: that of a string (the text of a length begins with a digit there), that of a string somewhere in a list or in the value of
an entry of a dictionary, after well-formed elements and entries, or that of a key (where it may be negative), after well-formed entries. What follows does not matter. -/
inductive Fatal : Bytes → Prop
  | str {s rest : Bytes} : Impossible s → (∃ c r, s = c :: r ∧ Digit c) → Fatal (s ++ 58 :: rest)
  | list {ts : List CTree} {bs : Bytes} : Valids true (2 ^ 63) ts → Fatal bs → Fatal (108 :: (prints ts ++ bs))
  | key {es : List (Bytes × Bytes × CTree)} {s rest : Bytes} : ValidEs true (2 ^ 63) [] es → Impossible s → Fatal (100 :: (printEs es ++ (s ++ 58 :: rest)))
  | value {es : List (Bytes × Bytes × CTree)} {l k bs : Bytes} : ValidEs true (2 ^ 63) [] es → LenText l k → BLt (lastKey [] es) k → Fatal bs →
      Fatal (100 :: (printEs es ++ (l ++ 58 :: k ++ bs)))

end Drip.Spec
