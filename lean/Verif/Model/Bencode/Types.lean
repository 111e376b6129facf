import Verif.Model.Basic
/-
Go types and values as `bencode` sees them through `reflect`.
-/

namespace Drip.Bencode

/-- What `reflect.StructField` says about a field apart from its type (encode.go:278-298): Go name, the value of its
`bencode` tag, `Anonymous`, `IsExported()`. -/
structure Hdr where
  name : Bytes
  tag : Bytes := []
  anon : Bool := false
  exported : Bool := true
  deriving DecidableEq, Repr

/-- Go types, by reflect kind. Simplifications: types are finite trees, so a recursive Go type is represented by a
finite unfolding with the same `id` at every level; named types are distinguished only where the code can tell (struct
identity for `visited`, encode.go:273-276, and types with `MarshalBencoding`/`UnmarshalBencoding` methods). -/
inductive Ty where
  /-- kind `String` -/
  | str
  /-- kinds `Int8…Int64`, `Int` (64 bits) -/
  | int (bits : Nat)
  /-- kinds `Uint8…Uint64`, `Uint` (64 bits) -/
  | uint (bits : Nat)
  /-- kind `Slice` with an element kind other than `Uint8` -/
  | slice (elem : Ty)
  /-- kind `Slice` with element kind `Uint8` -/
  | bytes
  | array (n : Nat) (elem : Ty)
  /-- kind `Map` with key kind `String` -/
  | map (elem : Ty)
  /-- kind `Map` with any other key kind -/
  | badmap
  | struct (id : Nat) (fields : List (Hdr × Ty))
  | ptr (elem : Ty)
  /-- kind `Interface` without methods (`any`) -/
  | any
  /-- kind `Interface` with methods -/
  | iface
  /-- a named type with underlying type `under` whose pointer type implements `Marshaler` and/or `Unmarshaler` (all
  implementations in /repo have pointer receivers) -/
  | custom (id : Nat) (under : Ty)
  /-- every other kind: bool, floats, chan, func, … -/
  | unsupported
  deriving Repr

/-- Go values as the `reflect.Value` of decode.go:52 and encode.go:62 shows them. A map is the list of its entries in iteration order; a slice is the list of its elements (capacity
beyond the length is not represented); a pointer is its target (no sharing). -/
inductive Val where
  | str (b : Bytes)
  | int (i : Int)
  | uint (n : Nat)
  | nilBytes
  | bytes (b : Bytes)
  | nilSlice
  | slice (es : List Val)
  | array (es : List Val)
  | nilMap
  | map (es : List (Bytes × Val))
  | struct (fs : List Val)
  | nilPtr
  | ptr (v : Val)
  | nilIface
  /-- non-nil interface: dynamic type and value -/
  | iface (t : Ty) (v : Val)
  | unsupported
  deriving Repr

/-- The type with the methods stripped (`Kind()`, decode.go:59 and encode.go:69, only looks at the underlying type). -/
def Ty.under : Ty → Ty
  | .custom _ t => t
  | t => t

mutual
/-- `reflect.Zero`: what `reflect.New` points to (decode.go:431, 439, 499, 529-536). -/
def zero : Ty → Val
  | .str => .str []
  | .int _ => .int 0
  | .uint _ => .uint 0
  | .slice _ => .nilSlice
  | .bytes => .nilBytes
  | .array n t => .array (List.replicate n (zero t))
  | .map _ => .nilMap
  | .badmap => .nilMap
  | .struct _ fs => .struct (zeros fs)
  | .ptr _ => .nilPtr
  | .any => .nilIface
  | .iface => .nilIface
  | .custom _ t => zero t
  | .unsupported => .unsupported
/-- The same for the fields of a struct (decode.go:439, 499). -/
def zeros : List (Hdr × Ty) → List Val
  | [] => []
  | f :: fs => zero f.2 :: zeros fs
end

/-- The two bits of `reflect.Value.flag` that matter: `addr` = `CanAddr()` (decode.go:53, encode.go:63), `ro` = obtained through an unexported
embedded field (`flagEmbedRO`; encode.go:383-395). A value can be set iff `addr ∧ ¬ ro`; setting any other panics. -/
structure Flags where
  addr : Bool
  ro : Bool := false
  deriving DecidableEq, Repr

/-- `CanSet()`: what the calls of `Set…` in decode.go:318, 344, 358, 417, 544 require. -/
def Flags.settable (fl : Flags) : Bool := fl.addr && !fl.ro

/-- The methods of a custom type (decode.go:42-44, encode.go:47-49): what `UnmarshalBencoding(data)` turns the receiver's value into, and what
`MarshalBencoding()` returns. `none` when the type lacks the method. -/
structure Codec where
  unmarshal : Option (Bytes → Val → Res Val)
  marshal : Option (Val → Res Bytes)

/-- Methods of the custom types (decode.go:42-44, encode.go:47-49), by id. -/
abbrev Env := Nat → Codec

/-- Go's `<` on strings (decode.go:244, 435, 483; encode.go:203, 349): lexicographic on bytes. -/
def bltB : Bytes → Bytes → Bool
  | _, [] => false
  | [], _ :: _ => true
  | a :: as, b :: bs => if a < b then true else if b < a then false else bltB as bs

end Drip.Bencode
