import Verif.Model.Bencode.Fields
import Verif.Model.Bencode.Num
/-
Model of /repo/bencode/decode.go.
-/

namespace Drip.Bencode

/-- The state of a `Decoder` (decode.go:19-22): the unread bytes of the buffered reader and the offset that error
messages report. The reader is a `bytes.Reader` behind a `bufio.Reader` (decode.go:13-17): it never fails except at the
end of the input. -/
structure St where
  rest : Bytes
  off : Nat
  deriving DecidableEq, Repr

/-- A decoder step: a method of `Decoder` (decode.go:19-22). After an error or a panic the state is not tracked. -/
def P (α : Type) := St → Res (α × St)

namespace P
/-- `return a, nil` (for example decode.go:148). -/
def ret {α : Type} (a : α) : P α := fun st => .ok (a, st)
/-- `if err != nil { return err }` (for example decode.go:92-94), then what follows. -/
def bind {α β : Type} (p : P α) (f : α → P β) : P β := fun st => p st >>= fun x => f x.1 x.2
/-- Statements one after the other (for example decode.go:86-96). -/
instance : Monad P where
  pure := ret
  bind := bind
/-- `return err` (for example decode.go:128-130). -/
def fail {α : Type} (e : Err) : P α := fun _ => .err e
/-- A run-time panic (for example `v.Set` of decode.go:358). -/
def panic {α : Type} : P α := fun _ => .panic
/-- A computation that does not touch the decoder (for example the call of a method, decode.go:95). -/
def lift {α : Type} (r : Res α) : P α := fun st => r >>= fun a => .ok (a, st)
end P

/-- `d.ReadByte()` (for example decode.go:152, 182, 217). -/
def readByte : P UInt8 := fun st =>
  match st.rest with
  | [] => .err .eof
  | b :: bs => .ok (b, { st with rest := bs })

/-- `d.ReadByte()` followed by `d.UnreadByte()` (decode.go:103-109, 194-203, 230-239, 362-371, 421-430, 469-478, 519-525). -/
def peekByte : P UInt8 := fun st =>
  match st.rest with
  | [] => .err .eof
  | b :: _ => .ok (b, st)

/-- The bytes before and after the first occurrence of `delim`: what `ReadString` finds (decode.go:127, 160, 260, 305, 331). -/
def splitAt (delim : UInt8) : Bytes → Option (Bytes × Bytes)
  | [] => none
  | b :: bs =>
    if b = delim then some ([], bs)
    else match splitAt delim bs with
      | none => none
      | some (x, y) => some (b :: x, y)

/-- `d.ReadString(delim)` with the delimiter cut off; reaching the end of input becomes a syntax error at every call
site (decode.go:127-131, 160-164, 260-264, 305-309, 331-335). -/
def readUntil (delim : UInt8) : P Bytes := fun st =>
  match splitAt delim st.rest with
  | none => .err .syntax
  | some (x, y) => .ok (x, { st with rest := y })

/-- `runtime.maxAlloc` on 64-bit Linux: `make([]byte, n)` panics above it. -/
def maxAlloc : Int := 281474976710656

/-- `make([]byte, n)` and `io.ReadFull(d, bytes)` (decode.go:137-141, 269-273). `make` panics when `n` is negative or
too large. Running out of memory for a smaller `n` is not modelled. -/
def readN (n : Int) : P Bytes := fun st =>
  if n < 0 ∨ maxAlloc < n then .panic
  else if st.rest.length < n.toNat then .err .syntax
  else .ok (st.rest.take n.toNat, { st with rest := st.rest.drop n.toNat })

/-- `d.offset += n` (for example decode.go:136, 142). -/
def adv (n : Nat) : P Unit := fun st => .ok ((), { st with off := st.off + n })

/-- decode.go:283-294 `leadingZero`. -/
def leadingZero (s : Bytes) : Bool :=
  match s with
  | [] => false
  | 48 :: r => decide (0 < r.length)
  | 45 :: b :: _ => b == 48
  | _ => false

/-- decode.go:126-149 `consumeString`: the string and the bytes written to `buf`. -/
def consumeString : P (Bytes × Bytes) := do
  let s ← readUntil 58
  match parseInt s with
  | none => P.fail .syntax
  | some n =>
    adv (s.length + 1)
    let bs ← readN n
    adv bs.length
    pure (bs, s ++ 58 :: bs)

/-- decode.go:151-179 `consumeInt`. -/
def consumeInt : P Bytes := do
  let b ← readByte
  if b ≠ 105 then P.fail .syntax
  else
    adv 1
    let s ← readUntil 101
    if leadingZero s then P.fail .syntax
    else match parseInt s with
      | none => P.fail .syntax
      | some _ =>
        adv (s.length + 1)
        pure (105 :: s ++ [101])

/-- decode.go:193-208, the loop of `consumeList`; `rec` is `d.consume`, the first argument bounds the iterations. -/
def consumeListLoop (rec : P Bytes) : Nat → P Bytes
  | 0 => P.fail .fuel
  | k + 1 => do
    let c ← peekByte
    if c = 101 then
      let _ ← readByte
      pure []
    else
      let r ← rec
      let rs ← consumeListLoop rec k
      pure (r ++ rs)

/-- decode.go:228-251, the loop of `consumeDictionary`. -/
def consumeDictLoop (rec : P Bytes) : Nat → Bytes → P Bytes
  | 0, _ => P.fail .fuel
  | k + 1, lastKey => do
    let c ← peekByte
    if c = 101 then
      let _ ← readByte
      pure []
    else
      let (key, raw) ← consumeString
      if !bltB lastKey key then P.fail .unsorted
      else
        let r ← rec
        let rs ← consumeDictLoop rec k key
        pure (raw ++ r ++ rs)

/-- decode.go:181-214 `consumeList`. -/
def consumeList (rec : P Bytes) (k : Nat) : P Bytes := do
  let b ← readByte
  if b ≠ 108 then P.fail .syntax
  else
    adv 1
    let rs ← consumeListLoop rec k
    adv 1
    pure (108 :: rs ++ [101])

/-- decode.go:216-257 `consumeDictionary`. -/
def consumeDict (rec : P Bytes) (k : Nat) : P Bytes := do
  let b ← readByte
  if b ≠ 100 then P.fail .syntax
  else
    adv 1
    let rs ← consumeDictLoop rec k []
    adv 1
    pure (100 :: rs ++ [101])

/-- decode.go:102-124 `consume`: skip one value; the result is what is written to `buf` (nothing when `buf` is nil). The
argument bounds the recursion depth and the number of loop iterations. -/
def consume : Nat → P Bytes
  | 0 => P.fail .fuel
  | n + 1 => do
    let b ← peekByte
    if b = 105 then consumeInt
    else if b = 108 then consumeList (consume n) n
    else if b = 100 then consumeDict (consume n) n
    else if isDigit b then do
      let x ← consumeString
      pure x.2
    else P.fail .syntax

/-- decode.go:260-274, the common part of `decodeString`. -/
def getString : P Bytes := do
  let s ← readUntil 58
  match parseInt s with
  | none => P.fail .syntax
  | some n =>
    adv (s.length + 1)
    let bs ← readN n
    adv bs.length
    pure bs

/-- decode.go:297-317 without `v.SetInt`. -/
def getInt : P Int := do
  let b ← readByte
  if b ≠ 105 then P.fail .syntax
  else
    adv 1
    let s ← readUntil 101
    if leadingZero s then P.fail .syntax
    else match parseInt s with
      | none => P.fail .syntax
      | some i =>
        adv (s.length + 1)
        pure i

/-- decode.go:323-343 without `v.SetUint`. -/
def getUint : P Nat := do
  let b ← readByte
  if b ≠ 105 then P.fail .syntax
  else
    adv 1
    let s ← readUntil 101
    if leadingZero s then P.fail .syntax
    else match parseUint s with
      | none => P.fail .syntax
      | some i =>
        adv (s.length + 1)
        pure i

/-- `v.SetInt(i)` (decode.go:318) on a target of the given width: the value is truncated (two's complement). -/
def wrapInt (bits : Nat) (i : Int) : Int :=
  (i + 2 ^ (bits - 1)) % 2 ^ bits - 2 ^ (bits - 1)

/-- `v.SetUint(n)` (decode.go:344): truncated likewise. -/
def wrapUint (bits : Nat) (n : Nat) : Nat := n % 2 ^ bits

/-- `v.Set…(x)` (decode.go:318, 344, 358, 417, 544): panics unless the value can be set. -/
def setVal (fl : Flags) (x : Val) : P Val := if fl.settable then pure x else P.panic

/-- A decoder for a target with the given flags, type and present value (decode.go:52 `decode`); returns the value of the target afterwards. -/
abbrev Dec := Flags → Ty → Val → P Val

/-- decode.go:360-396, the loop of `decodeSlice` for kind Slice. `pre` are the elements decoded so far, `old` the
elements at index `i = len(pre)` and up that the slice had before the call. A new element is zero (what the memory
behind a slice that the caller has shortened before the call holds is not modelled: `v.SetLen` would show it again); growing the slice
requires a settable slice (`v.Grow`, `v.SetLen`). The elements are addressable. -/
def decodeSliceLoop (rec : Dec) (fl : Flags) (t : Ty) : Nat → List Val → List Val → P (List Val)
  | 0, _, _ => P.fail .fuel
  | k + 1, pre, old => do
    let c ← peekByte
    if c = 101 then
      let _ ← readByte
      pure (pre ++ old)
    else
      match old with
      | v :: old =>
        let v' ← rec { addr := true } t v
        decodeSliceLoop rec fl t k (pre ++ [v']) old
      | [] =>
        if fl.settable then
          let v' ← rec { addr := true } t (zero t)
          decodeSliceLoop rec fl t k (pre ++ [v']) []
        else P.panic

/-- decode.go:360-396 for kind Array: elements beyond the array are skipped. Elements are addressable iff the array is. -/
def decodeArrayLoop (rec : Dec) (skip : P Bytes) (fl : Flags) (t : Ty) : Nat → List Val → List Val → P (List Val)
  | 0, _, _ => P.fail .fuel
  | k + 1, pre, old => do
    let c ← peekByte
    if c = 101 then
      let _ ← readByte
      pure (pre ++ old)
    else
      match old with
      | v :: old =>
        let v' ← rec { addr := fl.addr } t v
        decodeArrayLoop rec skip fl t k (pre ++ [v']) old
      | [] =>
        let _ ← skip
        decodeArrayLoop rec skip fl t k pre []

/-- `v.SetMapIndex(key, elem)` (decode.go:444). -/
def setKey (key : Bytes) (v : Val) : List (Bytes × Val) → List (Bytes × Val)
  | [] => [(key, v)]
  | (k, w) :: es => if k = key then (k, v) :: es else (k, w) :: setKey key v es

/-- decode.go:419-445, the loop of `decodeMap`. The element is decoded into a fresh variable (through a pointer to it). -/
def decodeMapLoop (rec : Dec) (t : Ty) : Nat → Bytes → List (Bytes × Val) → P (List (Bytes × Val))
  | 0, _, _ => P.fail .fuel
  | k + 1, lastKey, m => do
    let c ← peekByte
    if c = 101 then
      let _ ← readByte
      pure m
    else
      let key ← getString
      if !bltB lastKey key then P.fail .unsorted
      else
        let v ← rec { addr := true } t (zero t)
        decodeMapLoop rec t k key (setKey key v m)

/-- decode.go:494-503: walk to the field with the given index path, allocating nil pointers on the way (`elem.Set`
panics if that pointer cannot be set), apply `k` to it, and put the result back. The final field, too, is replaced by
its target if it is a pointer. -/
def atField (k : Flags → Ty → Val → P Val) : List Nat → Flags → Ty → Val → P Val
  | [], fl, t, v => k fl t v
  | i :: is, fl, t, v =>
    match t.under, v with
    | .struct _ fs, .struct vs =>
      match fs[i]?, vs[i]? with
      | some (h, ft), some fv =>
        let fl' : Flags := { addr := fl.addr, ro := h.anon && !h.exported }
        match ft, fv with
        | .ptr et, .nilPtr =>
          if fl'.settable then do
            let x ← atField k is { addr := true, ro := fl'.ro } et (zero et)
            pure (.struct (vs.set i (.ptr x)))
          else P.panic
        | .ptr et, .ptr ev => do
            let x ← atField k is { addr := true, ro := fl'.ro } et ev
            pure (.struct (vs.set i (.ptr x)))
        | ft, fv => do
            let x ← atField k is fl' ft fv
            pure (.struct (vs.set i x))
      | _, _ => P.panic -- not reached for well-typed values: `Field(i)` out of range
    | _, _ => P.panic -- not reached for well-typed values: `Field` on a non-struct

/-- decode.go:467-507, the loop of `decodeStruct`. -/
def decodeStructLoop (rec : Dec) (skip : P Bytes) (fl : Flags) (t : Ty) : Nat → Bytes → Val → P Val
  | 0, _, _ => P.fail .fuel
  | k + 1, lastKey, v => do
    let c ← peekByte
    if c = 101 then
      let _ ← readByte
      pure v
    else
      let key ← getString
      if !bltB lastKey key then P.fail .unsorted
      else
        match lookupKey key (keyToField t) with
        | none => do
          let _ ← skip
          decodeStructLoop rec skip fl t k key v
        | some f => do
          let v' ← atField rec f.index fl t v
          decodeStructLoop rec skip fl t k key v'

/-- decode.go:86-96 `decodeUnmarshaler`; `none` is a nil receiver, on which every method of /repo panics (unless the
data does not parse, in which case it returns an error: the model says panic). `v.Interface()` panics on a value
obtained through an unexported field. -/
def decodeUnmarshaler (skip : P Bytes) (ro : Bool) (um : Bytes → Val → Res Val) (v : Option Val) : P Val := do
  if ro then P.panic
  else
    let raw ← skip
    match v with
    | none => P.panic
    | some v => P.lift (um raw v)

/-- decode.go:348-399 `decodeSlice` for kind Slice. A nil slice becomes an empty one. -/
def decodeSlice (rec : Dec) (fl : Flags) (t : Ty) (v : Val) (n : Nat) : P Val := do
  let b ← readByte
  if b ≠ 108 then P.fail .syntax
  else
    adv 1
    match v with
    | .slice es =>
      let es' ← decodeSliceLoop rec fl t n [] es
      adv 1
      pure (.slice es')
    | _ =>
      if fl.settable then
        let es' ← decodeSliceLoop rec fl t n [] []
        adv 1
        pure (.slice es')
      else P.panic

/-- decode.go:348-399 `decodeSlice` for kind Array. -/
def decodeArray (rec : Dec) (skip : P Bytes) (fl : Flags) (t : Ty) (v : Val) (n : Nat) : P Val := do
  let b ← readByte
  if b ≠ 108 then P.fail .syntax
  else
    adv 1
    match v with
    | .array es =>
      let es' ← decodeArrayLoop rec skip fl t n [] es
      adv 1
      pure (.array es')
    | _ => P.panic -- not reached for well-typed values

/-- decode.go:401-448 `decodeMap` for string keys. A nil map is replaced by a new one (`v.Set` panics if `v` cannot be
set). -/
def decodeMap (rec : Dec) (fl : Flags) (t : Ty) (v : Val) (n : Nat) : P Val := do
  let b ← readByte
  if b ≠ 100 then P.fail .syntax
  else
    adv 1
    match v with
    | .map es =>
      let es' ← decodeMapLoop rec t n [] es
      adv 1
      pure (.map es')
    | _ =>
      if fl.settable then
        let es' ← decodeMapLoop rec t n [] []
        adv 1
        pure (.map es')
      else P.panic

/-- decode.go:401-415: `decodeMap` for other key kinds: the opening `d` is read, then the type is rejected. -/
def decodeBadMap : P Val := do
  let b ← readByte
  if b ≠ 100 then P.fail .syntax else P.fail .unsupportedType

/-- decode.go:457-510 `decodeStruct`. -/
def decodeStruct (rec : Dec) (skip : P Bytes) (fl : Flags) (t : Ty) (v : Val) (n : Nat) : P Val := do
  let b ← readByte
  if b ≠ 100 then P.fail .syntax
  else
    adv 1
    let v' ← decodeStructLoop rec skip fl t n [] v
    adv 1
    pure v'

/-- decode.go:59-83, the `switch v.Kind()` of `decode` for every kind but pointers and interfaces. -/
def decodeFlat (rec : Dec) (skip : P Bytes) (n : Nat) (fl : Flags) (t : Ty) (v : Val) : P Val :=
  match t with
  | .str => do
    let s ← getString
    setVal fl (.str s)
  | .bytes => do
    let s ← getString
    setVal fl (.bytes s)
  | .int bits => do
    let i ← getInt
    setVal fl (.int (wrapInt bits i))
  | .uint bits => do
    let i ← getUint
    setVal fl (.uint (wrapUint bits i))
  | .slice et => decodeSlice rec fl et v n
  | .array _ et => decodeArray rec skip fl et v n
  | .map et => decodeMap rec fl et v n
  | .badmap => decodeBadMap
  | .struct _ _ => decodeStruct rec skip fl t v n
  | .any | .iface | .ptr _ | .custom _ _ => P.panic -- not reached: see `decodeVal`; Go has no methods on such types
  | .unsupported => P.fail .unsupportedType

/-- decode.go:512-546 `decodeInterface` for a nil `any`: the dynamic type is chosen by the first byte; the new value is
an addressable variable. -/
def decodeNilAny (dec : Ty → P Val) (fl : Flags) : P Val := do
  let b ← peekByte
  if b = 105 then
    let x ← dec (.int 64)
    setVal fl (.iface (.int 64) x)
  else if b = 108 then
    let x ← dec (.slice .any)
    setVal fl (.iface (.slice .any) x)
  else if b = 100 then
    let x ← dec (.map .any)
    setVal fl (.iface (.map .any) x)
  else if isDigit b then
    let x ← dec .str
    setVal fl (.iface .str x)
  else P.fail .syntax

/-- `v.Type().Implements(unmarshalerType)` for `v` of type pointer to the given type (decode.go:53, 56). -/
def ptrMethod (env : Env) : Ty → Option (Bytes → Val → Res Val)
  | .custom id _ => (env id).unmarshal
  | _ => none

/-- decode.go:52-84 `decode` for one target: methods, then pointers and interfaces (decode.go:77-80, 513-518), then the
other kinds. A type with a method is used if the value is addressable, or is a pointer to it. The elements of
containers are decoded by `rec`. -/
def decodeVal (env : Env) (rec : Dec) (skip : P Bytes) (n : Nat) : Val → Flags → Ty → P Val
  | v, fl, .custom id u =>
    match (env id).unmarshal, fl.addr with
    | some um, true => decodeUnmarshaler skip fl.ro um (some v)
    | _, _ => decodeFlat rec skip n fl u v
  | .ptr ev, fl, .ptr et =>
    match ptrMethod env et with
    | some um => do
      let x ← decodeUnmarshaler skip fl.ro um (some ev)
      pure (.ptr x)
    | none => do
      let x ← decodeVal env rec skip n ev { addr := true, ro := fl.ro } et
      pure (.ptr x)
  | _, fl, .ptr et =>
    match ptrMethod env et with
    | some um => decodeUnmarshaler skip fl.ro um none
    | none => P.panic -- `d.decode` of the zero `reflect.Value`: `v.Type()` panics
  | .iface dt dv, fl, .any => do
    let x ← decodeVal env rec skip n dv { addr := false, ro := fl.ro } dt
    pure (.iface dt x)
  | .nilIface, fl, .any => decodeNilAny (fun t => decodeFlat rec skip n { addr := true } t (zero t)) fl
  | .iface dt dv, fl, .iface => do
    let x ← decodeVal env rec skip n dv { addr := false, ro := fl.ro } dt
    pure (.iface dt x)
  | .nilIface, _, .iface => P.fail .unsupportedType
  | v, fl, t => decodeFlat rec skip n fl t v

/-- decode.go:52-84 `decode`. The argument bounds the nesting depth and the number of iterations of every loop. -/
def decode (env : Env) : Nat → Dec
  | 0, _, _, _ => P.fail .fuel
  | n + 1, fl, t, v => decodeVal env (decode env n) (consume n) n v fl t

/-- Recursion bound used for an input; C22 shows that it is never reached. -/
def fuelFor (bs : Bytes) : Nat := bs.length + 2

/-- decode.go:13-17, 31-40: `Unmarshal(bs, &v)` for a variable `v` of type `t`: the value of the variable afterwards,
and the state of the decoder (remaining input and offset). -/
def unmarshalSt (env : Env) (t : Ty) (v : Val) (bs : Bytes) : Res (Val × St) :=
  decode env (fuelFor bs) { addr := true } t v { rest := bs, off := 0 }

/-- decode.go:13-17 `Unmarshal(bs, &v)`. -/
def unmarshal (env : Env) (t : Ty) (v : Val) (bs : Bytes) : Res Val :=
  (unmarshalSt env t v bs).map (·.1)

/-- An environment without types that have the methods of decode.go:42-44 and encode.go:47-49. -/
def noEnv : Env := fun _ => { unmarshal := none, marshal := none }

end Drip.Bencode
