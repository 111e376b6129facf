import Verif.Spec.Tracker
import Mathlib.Data.List.Forall2
/-
The texts of IP addresses: RFC 4291, section 2.2 (which texts stand for an address) and RFC 5952 (the one that is recommended).
An address is 16 bytes; IPv4 addresses are the mapped ones.
-/

namespace Drip.Spec

/-- The IPv4-mapped address. -/
def mapped (a b c d : UInt8) : Bytes := [0, 0, 0, 0, 0, 0, 0, 0, 0, 0, 255, 255, a, b, c, d]

/-- A hexadecimal digit of either case and its value. -/
def HexOf (c : UInt8) (v : Nat) : Prop :=
  (v < 10 ∧ c.toNat = 48 + v) ∨ (10 ≤ v ∧ v < 16 ∧ (c.toNat = 87 + v ∨ c.toNat = 55 + v))

/-- One to four hexadecimal digits and the two bytes they stand for. -/
def Hextet (t : Bytes) (hi lo : UInt8) : Prop :=
  t ≠ [] ∧ t.length ≤ 4 ∧ ∃ ds, List.Forall₂ HexOf t ds ∧ ds.foldl (fun v d => v * 16 + d) 0 = hi.toNat * 256 + lo.toNat

/-- Groups of digits with colons between them, and the bytes they stand for. -/
inductive Hextets : Bytes → Bytes → Prop
  | one {t : Bytes} {hi lo : UInt8} : Hextet t hi lo → Hextets t [hi, lo]
  | cons {t u bs : Bytes} {hi lo : UInt8} : Hextet t hi lo → Hextets u bs → Hextets (t ++ 58 :: u) (hi :: lo :: bs)

/-- The same, where the last four bytes may be written as an IPv4 address. -/
inductive Groups : Bytes → Bytes → Prop
  | one {t : Bytes} {hi lo : UInt8} : Hextet t hi lo → Groups t [hi, lo]
  | v4 {a b c d : UInt8} : Groups (dotted a b c d) [a, b, c, d]
  | cons {t u bs : Bytes} {hi lo : UInt8} : Hextet t hi lo → Groups u bs → Groups (t ++ 58 :: u) (hi :: lo :: bs)

/-- The text `s` stands for the address `ip`. A double colon stands for one or more groups of zeros. -/
inductive IsAddress : Bytes → Bytes → Prop
  | v4 {a b c d : UInt8} : IsAddress (dotted a b c d) (mapped a b c d)
  | full {s ip : Bytes} : Groups s ip → ip.length = 16 → IsAddress s ip
  | gap {t u xs ys : Bytes} : (t = [] ∧ xs = [] ∨ Hextets t xs) → (u = [] ∧ ys = [] ∨ Groups u ys) → xs.length + ys.length < 16 →
      IsAddress (t ++ 58 :: 58 :: u) (xs ++ List.replicate (16 - (xs.length + ys.length)) 0 ++ ys)

/-- A group as RFC 5952 wants it: no leading zeros, small letters. -/
def ShortHextet (t : Bytes) (hi lo : UInt8) : Prop :=
  Hextet t hi lo ∧ (∀ c ∈ t, ¬ (65 ≤ c.toNat ∧ c.toNat ≤ 70)) ∧ (t.head? = some 48 → t = [48])

/-- Such groups with colons between them; there may be none. -/
inductive ShortHextets : Bytes → Bytes → Prop
  | nil : ShortHextets [] []
  | one {t : Bytes} {hi lo : UInt8} : ShortHextet t hi lo → ShortHextets t [hi, lo]
  | cons {t u bs : Bytes} {hi lo : UInt8} : ShortHextet t hi lo → ShortHextets u bs → bs ≠ [] → ShortHextets (t ++ 58 :: u) (hi :: lo :: bs)

/-- `k` groups of zeros, beginning with group number `p`. -/
def ZeroGroups (ip : Bytes) (p k : Nat) : Prop := 2 * (p + k) ≤ ip.length ∧ (ip.drop (2 * p)).take (2 * k) = List.replicate (2 * k) 0

/-- The recommended text of an address: IPv4 addresses with dots; of others the first of the longest runs of at least two groups of zeros is a
double colon. -/
inductive Recommended : Bytes → Bytes → Prop
  | v4 {a b c d : UInt8} : Recommended (mapped a b c d) (dotted a b c d)
  | full {ip t : Bytes} : ip.length = 16 → (∀ a b c d, ip ≠ mapped a b c d) → (∀ p k, ZeroGroups ip p k → k < 2) → ShortHextets t ip → Recommended ip t
  | gap {ip t u : Bytes} {p n : Nat} : ip.length = 16 → (∀ a b c d, ip ≠ mapped a b c d) → 2 ≤ n → ZeroGroups ip p n →
      (∀ q k, ZeroGroups ip q k → k < n ∨ k = n ∧ p ≤ q) → ShortHextets t (ip.take (2 * p)) → ShortHextets u (ip.drop (2 * (p + n))) →
      Recommended ip (t ++ 58 :: 58 :: u)

/-- The lower 16 bits of a number, in network byte order. -/
def low16 (n : Int) : Bytes := [UInt8.ofNat ((n % 65536).toNat / 256), UInt8.ofNat ((n % 65536).toNat % 256)]

/-- The compact form (BEP 23) of peers, given as texts of addresses and ports: four bytes of address and two of the port. Only IPv4 addresses have one. -/
inductive CompactForm : List (Bytes × Int) → Bytes → Prop
  | nil : CompactForm [] []
  | cons {text : Bytes} {port : Int} {a b c d : UInt8} {ps : List (Bytes × Int)} {s : Bytes} : IsAddress text (mapped a b c d) → CompactForm ps s →
      CompactForm ((text, port) :: ps) ([a, b, c, d] ++ low16 port ++ s)

end Drip.Spec
