import Verif.Spec.Bencode
import Verif.Model.Bencode.Types
/-
The Go value that stands for a bencode value in a variable of type `any`.
-/

namespace Drip.Spec
open Bencode (Val Ty)

mutual
/-- int (64 bits), string, []any, map[string]any. -/
def toAny : BVal → Val
  | .int n => .iface (.int 64) (.int n)
  | .str b => .iface .str (.str b)
  | .list vs => .iface (.slice .any) (.slice (toAnys vs))
  | .dict es => .iface (.map .any) (.map (toAnyEs es))
def toAnys : List BVal → List Val
  | [] => []
  | v :: vs => toAny v :: toAnys vs
def toAnyEs : List (Bytes × BVal) → List (Bytes × Val)
  | [] => []
  | (k, v) :: es => (k, toAny v) :: toAnyEs es
end

mutual
/-- What fits: int64 integers, strings of at most 2^48 bytes, dictionary keys strictly increasing and not empty. -/
def BVal.Fits : BVal → Prop
  | .int n => -2 ^ 63 ≤ n ∧ n < 2 ^ 63
  | .str b => b.length ≤ 2 ^ 48
  | .list vs => FitsL vs
  | .dict es => FitsD [] es
def FitsL : List BVal → Prop
  | [] => True
  | v :: vs => v.Fits ∧ FitsL vs
/-- `last` is the preceding key; it is empty for the first one. -/
def FitsD : Bytes → List (Bytes × BVal) → Prop
  | _, [] => True
  | last, (k, v) :: es => BLt last k ∧ k.length ≤ 2 ^ 48 ∧ v.Fits ∧ FitsD k es
end

/-- The `bits`-bit two's complement reading of `n`. -/
def Wraps (bits : Nat) (n m : Int) : Prop :=
  -2 ^ (bits - 1) ≤ m ∧ m < 2 ^ (bits - 1) ∧ ∃ k : Int, n = m + k * 2 ^ bits

end Drip.Spec
