import Verif.Spec.Numeral
/-
Bencoding, independently of the model of the Go package: values, their canonical encoding, and the concrete syntax
(which also covers non-canonical inputs that the decoder tolerates).
-/

namespace Drip.Spec

/-- Abstract bencode values. -/
inductive BVal where
  | int (n : Int)
  | str (b : Bytes)
  | list (vs : List BVal)
  | dict (es : List (Bytes × BVal))
  deriving Repr

/-- Lexicographic order on byte strings. -/
def BLt : Bytes → Bytes → Prop
  | _, [] => False
  | [], _ :: _ => True
  | a :: as, b :: bs => a.toNat < b.toNat ∨ (a = b ∧ BLt as bs)

/-- Keys strictly increasing, all above `last`. -/
def KeysAbove {α : Type} : Bytes → List (Bytes × α) → Prop
  | _, [] => True
  | last, (k, _) :: es => BLt last k ∧ KeysAbove k es

/-- Keys strictly increasing. -/
def KeysIncreasing {α : Type} : List (Bytes × α) → Prop
  | [] => True
  | (k, _) :: es => KeysAbove k es

/-- The decimal text of a natural number, most significant digit first. -/
def decNat (n : Nat) : Bytes :=
  if n < 10 then [UInt8.ofNat (48 + n)] else decNat (n / 10) ++ [UInt8.ofNat (48 + n % 10)]

/-- The decimal text of an integer. -/
def decInt (n : Int) : Bytes := if n < 0 then 45 :: decNat n.natAbs else decNat n.natAbs

mutual
/-- Canonical encoding. -/
def benc : BVal → Bytes
  | .int n => 105 :: decInt n ++ [101]
  | .str b => decNat b.length ++ 58 :: b
  | .list vs => 108 :: bencs vs ++ [101]
  | .dict es => 100 :: bencEs es ++ [101]
def bencs : List BVal → Bytes
  | [] => []
  | v :: vs => benc v ++ bencs vs
def bencEs : List (Bytes × BVal) → Bytes
  | [] => []
  | (k, v) :: es => decNat k.length ++ 58 :: k ++ benc v ++ bencEs es
end

mutual
/-- Dictionary keys are strictly increasing, at every depth. -/
def BVal.Sorted : BVal → Prop
  | .int _ => True
  | .str _ => True
  | .list vs => Sorteds vs
  | .dict es => KeysIncreasing es ∧ SortedEs es
def Sorteds : List BVal → Prop
  | [] => True
  | v :: vs => v.Sorted ∧ Sorteds vs
def SortedEs : List (Bytes × BVal) → Prop
  | [] => True
  | (_, v) :: es => v.Sorted ∧ SortedEs es
end

/-- Concrete syntax: the text of integers and of string lengths is kept. -/
inductive CTree where
  | int (s : Bytes) (n : Int)
  | str (l : Bytes) (b : Bytes)
  | list (ts : List CTree)
  | dict (es : List (Bytes × Bytes × CTree))
  deriving Repr

mutual
/-- The text. -/
def CTree.print : CTree → Bytes
  | .int s _ => 105 :: s ++ [101]
  | .str l b => l ++ 58 :: b
  | .list ts => 108 :: prints ts ++ [101]
  | .dict es => 100 :: printEs es ++ [101]
def prints : List CTree → Bytes
  | [] => []
  | t :: ts => t.print ++ prints ts
def printEs : List (Bytes × Bytes × CTree) → Bytes
  | [] => []
  | (l, k, t) :: es => l ++ 58 :: k ++ t.print ++ printEs es
end

mutual
/-- The value. -/
def CTree.abs : CTree → BVal
  | .int _ n => .int n
  | .str _ b => .str b
  | .list ts => .list (abss ts)
  | .dict es => .dict (absEs es)
def abss : List CTree → List BVal
  | [] => []
  | t :: ts => t.abs :: abss ts
def absEs : List (Bytes × Bytes × CTree) → List (Bytes × BVal)
  | [] => []
  | (_, k, t) :: es => (k, t.abs) :: absEs es
end

/-- `l` is the text of the length of `b`, with an optional sign, possibly with leading zeros, within the allocation
limit. -/
def LenText (l b : Bytes) : Prop := SNumeral l b.length ∧ b.length ≤ 2 ^ 48

mutual
/-- Well-formed concrete syntax, as far as the decoder is concerned: integer texts are signed numerals without leading
zeros in the range `-2^63 … hi-1`; with `strict`, strings in value position start with a digit; dictionary keys are
strictly increasing and not empty. -/
def CTree.Valid (strict : Bool) (hi : Int) : CTree → Prop
  | .int s n => SNumeral s n ∧ ¬ LeadingZero s ∧ -2 ^ 63 ≤ n ∧ n < hi
  | .str l b => LenText l b ∧ (strict = true → ∃ c r, l = c :: r ∧ Digit c)
  | .list ts => Valids strict hi ts
  | .dict es => ValidEs strict hi [] es
def Valids (strict : Bool) (hi : Int) : List CTree → Prop
  | [] => True
  | t :: ts => t.Valid strict hi ∧ Valids strict hi ts
def ValidEs (strict : Bool) (hi : Int) : Bytes → List (Bytes × Bytes × CTree) → Prop
  | _, [] => True
  | last, (l, k, t) :: es => LenText l k ∧ BLt last k ∧ t.Valid strict hi ∧ ValidEs strict hi k es
end

mutual
/-- How many values are within each other, the outermost and the innermost included. -/
def CTree.levels : CTree → Nat
  | .int _ _ => 1
  | .str _ _ => 1
  | .list ts => levelss ts + 1
  | .dict es => levelsEs es + 1
def levelss : List CTree → Nat
  | [] => 0
  | t :: ts => max t.levels (levelss ts)
def levelsEs : List (Bytes × Bytes × CTree) → Nat
  | [] => 0
  | (_, _, t) :: es => max t.levels (levelsEs es)
end

end Drip.Spec
