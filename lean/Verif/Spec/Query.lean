import Verif.Model.Basic
/-
URL queries, independently of the model: which texts stand for which list of parameters.
-/

namespace Drip.Spec

/-- A hexadecimal digit and its value. -/
def HexDigit (c : UInt8) (n : Nat) : Prop :=
  (48 ≤ c.toNat ∧ c.toNat ≤ 57 ∧ c.toNat = 48 + n) ∨ (97 ≤ c.toNat ∧ c.toNat ≤ 102 ∧ c.toNat = 87 + n) ∨
    (65 ≤ c.toNat ∧ c.toNat ≤ 70 ∧ c.toNat = 55 + n)

/-- `QEnc eq s t`: the text `t` stands for the bytes `s`: `%XX` for any byte, `+` for a space, and any byte but `%`, `+`, `&`
and `;` for itself (`=` only if `eq`). -/
inductive QEnc (eq : Bool) : Bytes → Bytes → Prop
  | nil : QEnc eq [] []
  | lit {b s t} : b ≠ 37 → b ≠ 43 → b ≠ 38 → b ≠ 59 → (b = 61 → eq = true) → QEnc eq s t → QEnc eq (b :: s) (b :: t)
  | plus {s t} : QEnc eq s t → QEnc eq (32 :: s) (43 :: t)
  | pct {b h l s t} : HexDigit h (b.toNat / 16) → HexDigit l (b.toNat % 16) → QEnc eq s t → QEnc eq (b :: s) (37 :: h :: l :: t)

/-- The text of one parameter: `key=value`, or `key` for an empty value. -/
inductive QPair : Bytes × Bytes → Bytes → Prop
  | full {k v k' v'} : QEnc false k k' → QEnc true v v' → QPair (k, v) (k' ++ 61 :: v')
  | bare {k k'} : QEnc false k k' → k' ≠ [] → QPair (k, []) k'

/-- The text of a list of parameters, separated by `&`; empty texts between separators are ignored. -/
inductive QPairs : List (Bytes × Bytes) → Bytes → Prop
  | nil : QPairs [] []
  | last {p t} : QPair p t → QPairs [p] t
  | cons {p t ps q} : QPair p t → QPairs ps q → QPairs (p :: ps) (t ++ 38 :: q)
  | skip {ps q} : QPairs ps q → QPairs ps (38 :: q)

/-- The bytes that a form encoding leaves as they are: letters, digits and four others. -/
def leftAlone (b : UInt8) : Bool := (Char.ofNat b.toNat).isAlphanum || (b!"-_.~").contains b

/-- The form encoding (application/x-www-form-urlencoded): a plus for a space, and `%XX` with upper-case digits for the other bytes. -/
def formText (s : Bytes) : Bytes := s.flatMap fun b =>
  if leftAlone b then [b] else if b = 32 then b!"+" else b!"%" ++ [(b!"0123456789ABCDEF").getD (b.toNat / 16) 0, (b!"0123456789ABCDEF").getD (b.toNat % 16) 0]

/-- The encoding of a list of parameters whose keys need no encoding. -/
def formPairs (ps : List (Bytes × Bytes)) : Bytes := (b!"&").intercalate (ps.map fun p => p.1 ++ b!"=" ++ formText p.2)

end Drip.Spec
