import Verif.Model.Bitfield
import Verif.Model.KernelRfl
/-
The tables of /repo/bitfield/bitfield_test.go, evaluated in the model. The test "does not contain" (lines 21-26) also
asks for the bits 16 and 32 of a bitfield of two bytes: `Has` (bitfield.go:13-17) has no bounds check, so that this test
of the repository panics; the model agrees with the code (C04).
-/

namespace Drip.Tests.Bitfield
open Drip Drip.Bitfield

def b2 : Bytes := [0b10101010, 0b11001100]

example : [0, 2, 4, 6, 8, 9, 12, 13].map (has b2) = List.replicate 8 (.ok true) := by kernel_rfl
example : [1, 3, 5, 7, 10, 11, 14, 15].map (has b2) = List.replicate 8 (.ok false) := by kernel_rfl
example : [16, 32].map (has b2) = [.panic, .panic] := by kernel_rfl
example : addAll (new 16) [0, 2, 4, 6, 8, 9, 12, 13] = .ok b2 := by kernel_rfl
example : items b2 = [0, 2, 4, 6, 8, 9, 12, 13] := by kernel_rfl
example : difference [] [0b01, 0x1] = [] := by kernel_rfl
example : difference [0x00, 0xff] [0xff] = [0x00, 0xff] := by kernel_rfl
example : difference [0xff] [0x00, 0xff] = [0xff] := by kernel_rfl
example : difference [0b11001100, 0b11110000, 0xff] [0b10101010, 0b01101101] = [0b01000100, 0b10010000, 0xff] := by
  kernel_rfl

end Drip.Tests.Bitfield
