import Verif.Model.Bencode.Decode
/-
Model of /repo/bencode/encode.go (apart from the field table, see Fields.lean).
-/

namespace Drip.Bencode

/-- The state of an `Encoder` (encode.go:24-27): what has been written and `ptrDepth`. The writer accepts everything
(it is a `bytes.Buffer` in `Marshal`). -/
structure ESt where
  out : Bytes
  depth : Nat
  deriving DecidableEq, Repr

/-- An encoder step: a method of `Encoder` (encode.go:24-27): outcome and the encoder's state afterwards (also after an error, because an `Encoder` can be used
again). -/
abbrev E := ESt → Res Unit × ESt

namespace E
/-- `return nil` (for example encode.go:121). -/
def ok : E := fun s => (.ok (), s)
/-- `if err := a; err != nil { return err }; b` (for example encode.go:111-121). -/
def seq (a b : E) : E := fun s =>
  match a s with
  | (.ok (), s') => b s'
  | r => r
/-- `return err` (for example encode.go:171). -/
def fail (e : Err) : E := fun s => (.err e, s)
/-- A run-time panic (for example in a method, encode.go:102). -/
def panic : E := fun s => (.panic, s)
/-- `e.Write(b)` (encode.go:51-58). -/
def write (b : Bytes) : E := fun s => (.ok (), { s with out := s.out ++ b })
end E

/-- encode.go:29 `ptrDepthLimit`. -/
def ptrDepthLimit : Nat := 1000

/-- The frame shared by encodeSlice, encodeMap and encodeStruct (encode.go:170-185, 195-217, 398-423): depth check,
opening byte, body, `e`, `ptrDepth--`. The decrement is skipped when anything fails. -/
def nested (open_ : UInt8) (body : E) : E := fun s =>
  let s := { s with depth := s.depth + 1 }
  if ptrDepthLimit < s.depth then (.err .depth, s)
  else
    match E.seq (E.write [open_]) (E.seq body (E.write [101])) s with
    | (.ok (), s) => (.ok (), { s with depth := s.depth - 1 })
    | r => r

/-- encode.go:110-136 `encodeString`, `encodeBytes`: three writes. -/
def encString (b : Bytes) : E := E.seq (E.write (natDec b.length)) (E.seq (E.write [58]) (E.write b))

/-- encode.go:138-150 `encodeInt`. -/
def encInt (i : Int) : E := E.seq (E.write [105]) (E.seq (E.write (intDec i)) (E.write [101]))

/-- encode.go:152-164 `encodeUint`. -/
def encUint (n : Nat) : E := E.seq (E.write [105]) (E.seq (E.write (natDec n)) (E.write [101]))

/-- An encoder for a value with the given flags and type (encode.go:62 `encode`). -/
abbrev Enc := Flags → Ty → Val → E

/-- encode.go:176-180: the elements of a slice or array. -/
def encElems (rec : Enc) (fl : Flags) (t : Ty) : List Val → E
  | [] => E.ok
  | v :: vs => E.seq (rec fl t v) (encElems rec fl t vs)

/-- encode.go:205-212: the entries of a map, in the given order; `v.MapIndex(key)` is not addressable. -/
def encEntries (rec : Enc) (t : Ty) : List (Bytes × Val) → E
  | [] => E.ok
  | (k, v) :: es => E.seq (encString k) (E.seq (rec { addr := false } t v) (encEntries rec t es))

/-- encode.go:361-368 `isNil`. -/
def isNil : Val → Bool
  | .nilSlice | .nilBytes | .nilMap | .nilIface | .nilPtr => true
  | _ => false

/-- encode.go:370-381 `isEmptyValue`. Booleans are not represented (kind `Bool` cannot be encoded anyway). -/
def isEmptyValue : Val → Bool
  | .array es => es.isEmpty
  | .map es => es.isEmpty
  | .nilMap => true
  | .slice es => es.isEmpty
  | .nilSlice => true
  | .bytes b => b.isEmpty
  | .nilBytes => true
  | .str b => b.isEmpty
  | .int i => i == 0
  | .uint n => n == 0
  | .nilIface => true
  | .nilPtr => true
  | _ => false

/-- encode.go:389-391: `if fv.Kind() == reflect.Pointer { fv = fv.Elem() }`. -/
def elem1 (fl : Flags) (t : Ty) (v : Val) : Flags × Ty × Val :=
  match t, v with
  | .ptr et, .ptr ev => ({ addr := true, ro := fl.ro }, et, ev)
  | t, v => (fl, t, v)

/-- encode.go:383-395 `fieldByIndex`: flags, type and value of the field; it stops at a nil on the way, which it
returns. `none`: not reached for well-typed values. -/
def fieldByIndex : List Nat → Flags → Ty → Val → Option (Flags × Ty × Val)
  | [], fl, t, v => some (fl, t, v)
  | i :: is, fl, t, v =>
    if isNil v then some (fl, t, v)
    else
      let x := elem1 fl t v
      match x.2.1.under, x.2.2 with
      | .struct _ fs, .struct vs =>
        match fs[i]?, vs[i]? with
        | some (h, ft), some fv => fieldByIndex is { addr := x.1.addr, ro := h.anon && !h.exported } ft fv
        | _, _ => none
      | _, _ => none

/-- encode.go:404-418: the fields of a struct. -/
def encFields (rec : Enc) (fl : Flags) (t : Ty) (v : Val) : List FieldInfo → E
  | [] => E.ok
  | f :: fs =>
    match fieldByIndex f.index fl t v with
    | none => E.panic
    | some (ffl, ft, fv) =>
      if isNil fv then encFields rec fl t v fs
      else if f.omitempty && isEmptyValue fv then encFields rec fl t v fs
      else E.seq (encString f.key) (E.seq (rec ffl ft fv) (encFields rec fl t v fs))

/-- encode.go:97-108 `encodeMarshaler`; `none` is a nil receiver, on which every method of /repo panics. -/
def encMarshaler (ro : Bool) (m : Val → Res Bytes) (v : Option Val) : E :=
  if ro then E.panic
  else match v with
    | none => E.panic
    | some v =>
      match m v with
      | .ok b => E.write b
      | .err e => E.fail e
      | .panic => E.panic

/-- encode.go:69-94, the `switch v.Kind()` of `encode`. -/
def encKind (rec : Enc) (fl : Flags) (t : Ty) (v : Val) : E :=
  match t, v with
  | .str, .str b => encString b
  | .int _, .int i => encInt i
  | .uint _, .uint n => encUint n
  | .bytes, .bytes b => encString b
  | .bytes, .nilBytes => encString []
  | .slice _, .nilSlice => E.ok
  | .slice et, .slice es => nested 108 (encElems rec { addr := true } et es)
  | .array _ et, .array es => nested 108 (encElems rec { addr := fl.addr } et es)
  | .map _, .nilMap => E.ok
  | .map et, .map es => nested 100 (encEntries rec et (sortByKey (·.1) es))
  | .badmap, .nilMap => E.ok
  | .badmap, _ => E.fail .unsupportedType
  | .struct id fs, .struct vs => nested 100 (encFields rec fl (.struct id fs) (.struct vs) (structFields (.struct id fs)))
  | .any, .nilIface => E.ok
  | .iface, .nilIface => E.ok
  | .any, .iface dt dv => rec { addr := false, ro := fl.ro } dt dv
  | .iface, .iface dt dv => rec { addr := false, ro := fl.ro } dt dv
  | .ptr _, .nilPtr => E.ok
  | .ptr et, .ptr ev => rec { addr := true, ro := fl.ro } et ev
  | .unsupported, _ => E.fail .unsupportedType
  | _, _ => E.panic -- not reached for well-typed values

/-- encode.go:62-95 `encode`. -/
def encode (env : Env) : Nat → Enc
  | 0, _, _, _ => E.fail .fuel
  | n + 1, fl, t, v =>
    match t, v with
    | .custom id u, v =>
      match (env id).marshal, fl.addr with
      | some m, true => encMarshaler fl.ro m (some v)
      | _, _ => encKind (encode env n) fl u v
    | .ptr (.custom id u), .ptr ev =>
      match (env id).marshal with
      | some m => encMarshaler fl.ro m (some ev)
      | none => encKind (encode env n) fl (.ptr (.custom id u)) (.ptr ev)
    | .ptr (.custom id u), v =>
      match (env id).marshal with
      | some m => encMarshaler fl.ro m none
      | none => encKind (encode env n) fl (.ptr (.custom id u)) v
    | t, v => encKind (encode env n) fl t v

mutual
/-- Nesting depth of a value; bounds the recursion of encode.go:62-95. -/
def Val.height : Val → Nat
  | .slice es => heights es + 1
  | .array es => heights es + 1
  | .map es => heightsM es + 1
  | .struct es => heights es + 1
  | .ptr v => v.height + 1
  | .iface _ v => v.height + 1
  | _ => 1
/-- The same for the elements of a slice, an array or a struct (encode.go:166-186, 397-424). -/
def heights : List Val → Nat
  | [] => 0
  | v :: vs => max v.height (heights vs)
/-- The same for the elements of a map (encode.go:188-218). -/
def heightsM : List (Bytes × Val) → Nat
  | [] => 0
  | v :: vs => max v.2.height (heightsM vs)
end

/-- encode.go:35-37 `Encoder.Encode(v)` for a `v` of dynamic type `t` (an interface holding a non-nil type). -/
def encodeTop (env : Env) (t : Ty) (v : Val) : E := encode env v.height { addr := false } t v

/-- encode.go:15-22 `Marshal(v)`. -/
def marshal (env : Env) (t : Ty) (v : Val) : Res Bytes :=
  match encodeTop env t v { out := [], depth := 0 } with
  | (.ok (), s) => .ok s.out
  | (.err e, _) => .err e
  | (.panic, _) => .panic

/-- `Marshal(nil)`: `reflect.ValueOf(nil)` is the zero Value and `v.Type()` panics (encode.go:63). -/
def marshalNil : Res Bytes := .panic

end Drip.Bencode
