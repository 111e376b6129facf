import Verif.Spec.Fields
import Verif.Spec.Marshal
/-
Values that survive Marshal and Unmarshal.
-/

namespace Drip.Spec
open Bencode

/-- The field's tag asks to leave the field out when it is empty: one of the options after the first comma is
`omitempty`. -/
def OmitEmpty (h : Hdr) : Prop := ∃ name opts rest, h.tag = name ++ [44] ++ opts ++ b!"omitempty" ++ rest ∧ 44 ∉ name ∧
  (opts = [] ∨ ∃ o, opts = o ++ [44]) ∧ (rest = [] ∨ ∃ r, rest = 44 :: r)

/-- A field with a key of its own: exported, not embedded, not tagged `-`, with a key that is not empty. -/
def PlainField (h : Hdr) : Prop :=
  h.exported = true ∧ h.anon = false ∧ h.tag ≠ b!"-" ∧ fieldKey h ≠ [] ∧ (fieldKey h).length ≤ 2 ^ 48

/-- A field that is not marshalled: tagged `-`, or neither exported nor embedded. -/
def Hidden (h : Hdr) : Prop := h.tag = b!"-" ∨ (h.exported = false ∧ h.anon = false)

instance (h : Hdr) : Decidable (Hidden h) := inferInstanceAs (Decidable (_ ∨ _))

/-- The fields that are marshalled. -/
def shown (fs : List (Hdr × Ty)) : List (Hdr × Ty) := fs.filter fun f => !decide (Hidden f.1)

/-- Every field is hidden or has a key of its own, and the keys are different. -/
def PlainStruct (fs : List (Hdr × Ty)) : Prop :=
  (∀ f ∈ fs, Hidden f.1 ∨ PlainField f.1) ∧ ((shown fs).map (fieldKey ·.1)).Nodup

/-- The dynamic types that Unmarshal chooses for `any`. -/
def AnyTy (t : Ty) : Prop := t = .int 64 ∨ t = .str ∨ t = .slice .any ∨ t = .map .any

/-- `RT none t v`: the value `v : t` is round-trippable. `RT (some h) t v`: it is so as a struct field with header `h`: it is
hidden or left out and the zero value, or round-trippable and not left out, or a pointer to a round-trippable value. -/
inductive RT : Option Hdr → Ty → Val → Prop
  | str {b} : b.length ≤ 2 ^ 48 → RT none .str (.str b)
  | bytes {b} : b.length ≤ 2 ^ 48 → RT none .bytes (.bytes b)
  | int {bits i} : 0 < bits → bits ≤ 64 → -2 ^ (bits - 1) ≤ i → i < 2 ^ (bits - 1) → RT none (.int bits) (.int i)
  | uint {bits n} : bits ≤ 64 → n < 2 ^ bits → RT none (.uint bits) (.uint n)
  | slice {et es} : (∀ e ∈ es, RT none et e) → RT none (.slice et) (.slice es)
  | array {n et es} : es.length = n → (∀ e ∈ es, RT none et e) → RT none (.array n et) (.array es)
  | map {et} {es : List (Bytes × Val)} : (es.map (·.1)).Nodup → (∀ e ∈ es, e.1 ≠ [] ∧ e.1.length ≤ 2 ^ 48) →
      (∀ e ∈ es, RT none et e.2) → RT none (.map et) (.map es)
  | any {t v} : AnyTy t → RT none t v → RT none .any (.iface t v)
  | struct {id} {fs : List (Hdr × Ty)} {vs : List Val} : vs.length = fs.length → PlainStruct fs →
      (∀ (i : Nat) (h : Hdr) (ft : Ty) (fv : Val), fs[i]? = some (h, ft) → vs[i]? = some fv → RT (some h) ft fv) →
      RT none (.struct id fs) (.struct vs)
  | zeroField {h ft} : (Nil (zero ft) ∨ (OmitEmpty h ∧ EmptyVal (zero ft))) → RT (some h) ft (zero ft)
  | hidden {h ft} : Hidden h → RT (some h) ft (zero ft)
  | field {h ft fv} : ¬ Hidden h → RT none ft fv → ¬ (OmitEmpty h ∧ EmptyVal fv) → RT (some h) ft fv
  | ptrField {h et ev} : ¬ Hidden h → RT none et ev → RT (some h) (.ptr et) (.ptr ev)

end Drip.Spec
