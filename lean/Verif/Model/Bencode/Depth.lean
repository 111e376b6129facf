import Verif.Model.Bencode.Decode
/-
The nesting of the calls of /repo/bencode/decode.go, apart from the number of iterations of its loops.
-/

namespace Drip.Bencode

/-- decode.go:102-124 `consume`, if no more than as many calls of it as the second argument says can be nested; `k` bounds the iterations of each loop. (In Go each call takes some of the stack; the process
ends when the stack is larger than 1 GB, and nothing can recover from that. How many bytes a call takes is not modelled.) -/
def consumeIn (k : Nat) : Nat → P Bytes
  | 0 => P.fail .fuel
  | n + 1 => do
    let b ← peekByte
    if b = 105 then consumeInt
    else if b = 108 then consumeList (consumeIn k n) k
    else if b = 100 then consumeDict (consumeIn k n) k
    else if isDigit b then do
      let x ← consumeString
      pure x.2
    else P.fail .syntax

/-- decode.go:52-84 `decode` in the same way: the second number bounds how many values can be within each other; for each there are some nested calls (`decode`, `decodeInterface`, `decodeSlice`). -/
def decodeIn (env : Env) (k : Nat) : Nat → Dec
  | 0, _, _, _ => P.fail .fuel
  | n + 1, fl, t, v => decodeVal env (decodeIn env k n) (consumeIn k n) k v fl t

/-- decode.go:13-17, 31-40: `Unmarshal(bs, &v)` with `d` nested calls. -/
def unmarshalIn (d : Nat) (env : Env) (t : Ty) (v : Val) (bs : Bytes) : Res Val :=
  (decodeIn env (fuelFor bs) d { addr := true } t v { rest := bs, off := 0 }).map (·.1)

end Drip.Bencode
