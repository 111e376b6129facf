import Verif.Model.Basic
/-
Decimal numerals, independently of the model of strconv.
-/

namespace Drip.Spec

/-- An ASCII decimal digit. -/
def Digit (b : UInt8) : Prop := 48 ≤ b.toNat ∧ b.toNat ≤ 57

/-- The number a digit string denotes. -/
def natVal (s : Bytes) : Nat := s.foldl (fun a b => a * 10 + (b.toNat - 48)) 0

/-- `s` is a non-empty string of digits that denotes `n`. -/
def Numeral (s : Bytes) (n : Nat) : Prop := s ≠ [] ∧ (∀ b ∈ s, Digit b) ∧ natVal s = n

/-- `s` is a numeral of `n` with an optional sign `+` or `-`. -/
def SNumeral (s : Bytes) (n : Int) : Prop :=
  (∃ m, Numeral s m ∧ n = m) ∨ (∃ ds m, s = 43 :: ds ∧ Numeral ds m ∧ n = m) ∨
  (∃ ds m, s = 45 :: ds ∧ Numeral ds m ∧ n = -(m : Int))

/-- The numeral without superfluous zeros. -/
def MinimalNat (s : Bytes) (n : Nat) : Prop := Numeral s n ∧ (s.head? = some 48 → s = [48])

/-- The canonical text of an integer: no plus sign, no superfluous zeros, no `-0`. -/
def Minimal (s : Bytes) (n : Int) : Prop :=
  (0 ≤ n ∧ MinimalNat s n.toNat) ∨ (n < 0 ∧ ∃ ds, s = 45 :: ds ∧ MinimalNat ds n.natAbs)

/-- A zero in front of further digits, directly at the start or after a minus sign; `-0` counts. -/
def LeadingZero (s : Bytes) : Prop := (∃ b r, s = 48 :: b :: r) ∨ (∃ r, s = 45 :: 48 :: r)

end Drip.Spec
