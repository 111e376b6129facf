import Verif.Model.Bencode.Encode
/-
/repo/bencode/encode.go once more, with an `io.Writer` that can fail (`NewEncoder` takes any writer; `Marshal` uses a buffer, which does not fail: Encode.lean).

A writer takes all bytes, or some of them and returns an error, as the contract of `io.Writer` says. `io.WriteString` (encode.go:57) makes one call.
-/

namespace Drip.Bencode.Writer

/-- The state of an `Encoder` (encode.go:24-27) with what the writer is going to do at its next calls: `none` takes everything, `some (k, e)` takes `k` bytes and returns `e`;
after the end of the list it takes everything. History variables: the error the writer has returned, and the number of calls after that one. -/
structure WSt where
  st : ESt
  fates : List (Option (Nat × Err)) := []
  error : Option Err := none
  late : Nat := 0
  deriving DecidableEq, Repr

/-- An encoder step: a method of `Encoder` (encode.go:24-27). -/
abbrev WE := WSt → Res Unit × WSt

namespace WE
/-- `return nil` (for example encode.go:121). -/
def ok : WE := fun s => (.ok (), s)
/-- `if err := a; err != nil { return err }; b` (for example encode.go:111-121). -/
def seq (a b : WE) : WE := fun s =>
  match a s with
  | (.ok (), s') => b s'
  | r => r
/-- `return err` (for example encode.go:171). -/
def fail (e : Err) : WE := fun s => (.err e, s)
/-- A run-time panic (for example in a method, encode.go:102). -/
def panic : WE := fun s => (.panic, s)
/-- `e.Write(b)` (encode.go:51-58). -/
def write (b : Bytes) : WE := fun s =>
  let s := { s with late := s.late + if s.error.isSome then 1 else 0 }
  match s.fates with
  | some (k, e) :: fs => (.err e, { s with st := { s.st with out := s.st.out ++ b.take k }, fates := fs, error := some e })
  | fs => (.ok (), { s with st := { s.st with out := s.st.out ++ b }, fates := fs.tail })
end WE

/-- The frame shared by encodeSlice, encodeMap and encodeStruct (encode.go:170-185, 195-217, 398-423). -/
def nested (open_ : UInt8) (body : WE) : WE := fun s =>
  let s := { s with st := { s.st with depth := s.st.depth + 1 } }
  if ptrDepthLimit < s.st.depth then (.err .depth, s)
  else
    match WE.seq (WE.write [open_]) (WE.seq body (WE.write [101])) s with
    | (.ok (), s) => (.ok (), { s with st := { s.st with depth := s.st.depth - 1 } })
    | r => r

/-- encode.go:110-136 `encodeString`, `encodeBytes`: three writes. -/
def encString (b : Bytes) : WE := WE.seq (WE.write (natDec b.length)) (WE.seq (WE.write [58]) (WE.write b))

/-- encode.go:138-150 `encodeInt`. -/
def encInt (i : Int) : WE := WE.seq (WE.write [105]) (WE.seq (WE.write (intDec i)) (WE.write [101]))

/-- encode.go:152-164 `encodeUint`. -/
def encUint (n : Nat) : WE := WE.seq (WE.write [105]) (WE.seq (WE.write (natDec n)) (WE.write [101]))

/-- An encoder for a value with the given flags and type (encode.go:62 `encode`). -/
abbrev WEnc := Flags → Ty → Val → WE

/-- encode.go:176-180: the elements of a slice or array. -/
def encElems (rec : WEnc) (fl : Flags) (t : Ty) : List Val → WE
  | [] => WE.ok
  | v :: vs => WE.seq (rec fl t v) (encElems rec fl t vs)

/-- encode.go:205-212: the entries of a map, in the given order. -/
def encEntries (rec : WEnc) (t : Ty) : List (Bytes × Val) → WE
  | [] => WE.ok
  | (k, v) :: es => WE.seq (encString k) (WE.seq (rec { addr := false } t v) (encEntries rec t es))

/-- encode.go:404-418: the fields of a struct. -/
def encFields (rec : WEnc) (fl : Flags) (t : Ty) (v : Val) : List FieldInfo → WE
  | [] => WE.ok
  | f :: fs =>
    match fieldByIndex f.index fl t v with
    | none => WE.panic
    | some (ffl, ft, fv) =>
      if isNil fv then encFields rec fl t v fs
      else if f.omitempty && isEmptyValue fv then encFields rec fl t v fs
      else WE.seq (encString f.key) (WE.seq (rec ffl ft fv) (encFields rec fl t v fs))

/-- encode.go:97-108 `encodeMarshaler`; `none` is a nil receiver, on which every method of /repo panics. -/
def encMarshaler (ro : Bool) (m : Val → Res Bytes) (v : Option Val) : WE :=
  if ro then WE.panic
  else match v with
    | none => WE.panic
    | some v =>
      match m v with
      | .ok b => WE.write b
      | .err e => WE.fail e
      | .panic => WE.panic

/-- encode.go:69-94, the `switch v.Kind()` of `encode`. -/
def encKind (rec : WEnc) (fl : Flags) (t : Ty) (v : Val) : WE :=
  match t, v with
  | .str, .str b => encString b
  | .int _, .int i => encInt i
  | .uint _, .uint n => encUint n
  | .bytes, .bytes b => encString b
  | .bytes, .nilBytes => encString []
  | .slice _, .nilSlice => WE.ok
  | .slice et, .slice es => nested 108 (encElems rec { addr := true } et es)
  | .array _ et, .array es => nested 108 (encElems rec { addr := fl.addr } et es)
  | .map _, .nilMap => WE.ok
  | .map et, .map es => nested 100 (encEntries rec et (sortByKey (·.1) es))
  | .badmap, .nilMap => WE.ok
  | .badmap, _ => WE.fail .unsupportedType
  | .struct id fs, .struct vs => nested 100 (encFields rec fl (.struct id fs) (.struct vs) (structFields (.struct id fs)))
  | .any, .nilIface => WE.ok
  | .iface, .nilIface => WE.ok
  | .any, .iface dt dv => rec { addr := false, ro := fl.ro } dt dv
  | .iface, .iface dt dv => rec { addr := false, ro := fl.ro } dt dv
  | .ptr _, .nilPtr => WE.ok
  | .ptr et, .ptr ev => rec { addr := true, ro := fl.ro } et ev
  | .unsupported, _ => WE.fail .unsupportedType
  | _, _ => WE.panic -- not reached for well-typed values

/-- encode.go:62-95 `encode`. -/
def encode (env : Env) : Nat → WEnc
  | 0, _, _, _ => WE.fail .fuel
  | n + 1, fl, t, v =>
    match t, v with
    | .custom id u, v =>
      match (env id).marshal, fl.addr with
      | some m, true => encMarshaler fl.ro m (some v)
      | _, _ => encKind (encode env n) fl u v
    | .ptr (.custom id u), .ptr ev =>
      match (env id).marshal with
      | some m => encMarshaler fl.ro m (some ev)
      | none => encKind (encode env n) fl (.ptr (.custom id u)) (.ptr ev)
    | .ptr (.custom id u), v =>
      match (env id).marshal with
      | some m => encMarshaler fl.ro m none
      | none => encKind (encode env n) fl (.ptr (.custom id u)) v
    | t, v => encKind (encode env n) fl t v

/-- encode.go:35-37 `Encoder.Encode(v)` for a `v` of dynamic type `t`. -/
def encodeTop (env : Env) (t : Ty) (v : Val) : WE := encode env v.height { addr := false } t v

end Drip.Bencode.Writer
