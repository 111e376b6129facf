import Verif.Spec.Bencode
import Verif.Model.Bencode.Encode
/-
Which bencode value a Go value stands for, independently of the encoder.
-/

namespace Drip.Spec
open Bencode

/-- A nil pointer, interface, slice or map. -/
def Nil : Val → Prop
  | .nilPtr | .nilIface | .nilSlice | .nilBytes | .nilMap => True
  | _ => False

/-- `At fl t v p fl' t' v'`: following the index path `p` from `v : t` through struct fields and pointers to structs
leads to `v' : t'`, with no nil on the way. The flags say whether a value can be addressed and whether it was reached
through an unexported embedded field. -/
inductive At : Flags → Ty → Val → List Nat → Flags → Ty → Val → Prop
  | done {fl t v} : At fl t v [] fl t v
  | field {fl t id fs vs i is h ft fv fl' t' v'} : t.under = .struct id fs → fs[i]? = some (h, ft) → vs[i]? = some fv →
      At { addr := fl.addr, ro := h.anon && !h.exported } ft fv is fl' t' v' → At fl t (.struct vs) (i :: is) fl' t' v'
  | deref {fl et id fs vs i is h ft fv fl' t' v'} : et.under = .struct id fs → fs[i]? = some (h, ft) → vs[i]? = some fv →
      At { addr := true, ro := h.anon && !h.exported } ft fv is fl' t' v' → At fl (.ptr et) (.ptr (.struct vs)) (i :: is) fl' t' v'

/-- Zero, empty or nil: what `omitempty` leaves out. -/
def EmptyVal : Val → Prop
  | .str b | .bytes b => b = []
  | .int i => i = 0
  | .uint n => n = 0
  | .slice es | .array es => es = []
  | .map es => es = []
  | .nilPtr | .nilIface | .nilSlice | .nilBytes | .nilMap => True
  | _ => False

/-- The field is left out: a nil is on the way, or it is nil, or it is empty and marked `omitempty`. -/
def Omitted (fl : Flags) (t : Ty) (v : Val) (f : FieldInfo) : Prop :=
  ∃ p q fl' t' v', f.index = p ++ q ∧ At fl t v p fl' t' v' ∧ (Nil v' ∨ (q = [] ∧ f.omitempty = true ∧ EmptyVal v'))

/-- The bytes a value's own `MarshalBencoding` method returns, for an addressable value of a named type or a pointer to
one. -/
inductive Method (env : Env) : Flags → Ty → Val → Bytes → Prop
  | addr {fl id u v m c} : (env id).marshal = some m → fl.addr = true → fl.ro = false → m v = .ok c →
      Method env fl (.custom id u) v c
  | ptr {fl id u v m c} : (env id).marshal = some m → fl.ro = false → m v = .ok c →
      Method env fl (.ptr (.custom id u)) (.ptr v) c

/-- Whether the method is used. -/
def UsesMethod (env : Env) (fl : Flags) : Ty → Prop
  | .custom id _ => (env id).marshal.isSome = true ∧ fl.addr = true
  | .ptr (.custom id _) => (env id).marshal.isSome = true
  | _ => False

mutual
/-- `Denotes env fl t v b d`: the Go value `v : t` stands for the bencode value `b`, with `d` levels of lists and
dictionaries that are not produced by methods. -/
inductive Denotes (env : Env) : Flags → Ty → Val → BVal → Nat → Prop
  | method {fl t v b} : Method env fl t v (benc b) → Denotes env fl t v b 0
  | named {fl id u v b d} : ¬ UsesMethod env fl (.custom id u) → DenotesK env fl u v b d → Denotes env fl (.custom id u) v b d
  | kind {fl t v b d} : ¬ UsesMethod env fl t → DenotesK env fl t v b d → Denotes env fl t v b d
/-- The same by kind, without methods. -/
inductive DenotesK (env : Env) : Flags → Ty → Val → BVal → Nat → Prop
  | str {fl b} : DenotesK env fl .str (.str b) (.str b) 0
  | bytes {fl b} : DenotesK env fl .bytes (.bytes b) (.str b) 0
  | nilBytes {fl} : DenotesK env fl .bytes .nilBytes (.str []) 0
  | int {fl bits i} : DenotesK env fl (.int bits) (.int i) (.int i) 0
  | uint {fl bits} {n : Nat} : DenotesK env fl (.uint bits) (.uint n) (.int n) 0
  | slice {fl et es bs d} : DenotesL env { addr := true } et es bs d → DenotesK env fl (.slice et) (.slice es) (.list bs) (d + 1)
  | array {fl n et es bs d} : DenotesL env { addr := fl.addr } et es bs d →
      DenotesK env fl (.array n et) (.array es) (.list bs) (d + 1)
  | map {fl et es es' bs d} : es'.Perm es → KeysIncreasing es' → DenotesE env et es' bs d →
      DenotesK env fl (.map et) (.map es) (.dict bs) (d + 1)
  | struct {fl id fs vs bs d} : DenotesF env fl (.struct id fs) (.struct vs) (structFields (.struct id fs)) bs d →
      DenotesK env fl (.struct id fs) (.struct vs) (.dict bs) (d + 1)
  | any {fl dt dv b d} : Denotes env { addr := false, ro := fl.ro } dt dv b d → DenotesK env fl .any (.iface dt dv) b d
  | iface {fl dt dv b d} : Denotes env { addr := false, ro := fl.ro } dt dv b d → DenotesK env fl .iface (.iface dt dv) b d
  | ptr {fl et ev b d} : Denotes env { addr := true, ro := fl.ro } et ev b d → DenotesK env fl (.ptr et) (.ptr ev) b d
/-- List elements. -/
inductive DenotesL (env : Env) : Flags → Ty → List Val → List BVal → Nat → Prop
  | nil {fl t} : DenotesL env fl t [] [] 0
  | cons {fl t v vs b bs d d'} : Denotes env fl t v b d → DenotesL env fl t vs bs d' →
      DenotesL env fl t (v :: vs) (b :: bs) (max d d')
/-- Map entries, in the order of the keys. -/
inductive DenotesE (env : Env) : Ty → List (Bytes × Val) → List (Bytes × BVal) → Nat → Prop
  | nil {t} : DenotesE env t [] [] 0
  | cons {t k v es b bs d d'} : Denotes env { addr := false } t v b d → DenotesE env t es bs d' →
      DenotesE env t ((k, v) :: es) ((k, b) :: bs) (max d d')
/-- Struct fields, in the order of their keys. -/
inductive DenotesF (env : Env) : Flags → Ty → Val → List FieldInfo → List (Bytes × BVal) → Nat → Prop
  | nil {fl t v} : DenotesF env fl t v [] [] 0
  | skip {fl t v f fs bs d} : Omitted fl t v f → DenotesF env fl t v fs bs d → DenotesF env fl t v (f :: fs) bs d
  | cons {fl t v f fs ffl ft fv b bs d d'} : At fl t v f.index ffl ft fv → ¬ Omitted fl t v f → Denotes env ffl ft fv b d →
      DenotesF env fl t v fs bs d' → DenotesF env fl t v (f :: fs) ((f.key, b) :: bs) (max d d')
end

mutual
/-- No nil pointer, interface, slice or map in a list, as a map value, behind a pointer or in an interface. Struct fields
may be nil. -/
def NoNil : Val → Prop
  | .nilPtr | .nilIface | .nilSlice | .nilMap => False
  | .slice es => NoNils es
  | .array es => NoNils es
  | .map es => NoNilEs es
  | .struct fs => NoNilFs fs
  | .ptr v => NoNil v
  | .iface _ v => NoNil v
  | _ => True
def NoNils : List Val → Prop
  | [] => True
  | v :: vs => NoNil v ∧ NoNils vs
def NoNilEs : List (Bytes × Val) → Prop
  | [] => True
  | (_, v) :: vs => NoNil v ∧ NoNilEs vs
def NoNilFs : List Val → Prop
  | [] => True
  | v :: vs => (Nil v ∨ NoNil v) ∧ NoNilFs vs
end

mutual
/-- Maps have each key once, at every depth. -/
def GoMaps : Val → Prop
  | .slice es => GoMapss es
  | .array es => GoMapss es
  | .map es => (es.map (·.1)).Nodup ∧ GoMapsEs es
  | .struct fs => GoMapss fs
  | .ptr v => GoMaps v
  | .iface _ v => GoMaps v
  | _ => True
def GoMapss : List Val → Prop
  | [] => True
  | v :: vs => GoMaps v ∧ GoMapss vs
def GoMapsEs : List (Bytes × Val) → Prop
  | [] => True
  | (_, v) :: vs => GoMaps v ∧ GoMapsEs vs
end

end Drip.Spec
