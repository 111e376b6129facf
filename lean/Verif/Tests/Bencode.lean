import Verif.Model.Bencode.Encode
import Verif.Model.KernelRfl
/-
The tables of /repo/bencode/decode_test.go and /repo/bencode/encode_test.go, evaluated in the model. These are tests of
the model against what the authors of the code expect; nothing else depends on them. The tests call the unexported
functions `decodeString`, … on the target: here they go through `Unmarshal`/`Marshal`, which reach the same functions.
After an error only the failure is compared (the model does not say what the target holds then).
Not represented: the cyclical struct (encode_test.go:325-330; values are finite trees, see C20 for the nesting limit).
-/

namespace Drip.Tests.Bencode
open Drip Drip.Bencode

/-- An error was returned. -/
def failed {α : Type} : Res α → Bool
  | .err _ => true
  | _ => false

/-- `new[T]()` followed by a decode. -/
def dec (t : Ty) (data : Bytes) : Res Val := unmarshal noEnv t (zero t) data

/-! ### decode_test.go:72-115 custom types -/

/-- decode_test.go:19-70: `stringUnmarshaler` (0), `intUnmarshaler` (1), `listUnmarshaler` (2), `dictUnmarshaler` (3).
Go's `/` on integers is `Int.tdiv`; the letters are ASCII. -/
def testEnv : Env
  | 0 => { marshal := none, unmarshal := some fun data _ => do
      match ← unmarshal noEnv .str (.str []) data with
      | .str s => .ok (.str (b!"prefix-" ++ s))
      | _ => .panic }
  | 1 => { marshal := none, unmarshal := some fun data _ => do
      match ← unmarshal noEnv (.int 64) (.int 0) data with
      | .int i => .ok (.int (i.tdiv 1000))
      | _ => .panic }
  | 2 => { marshal := none, unmarshal := some fun data _ => do
      match ← unmarshal noEnv (.slice .str) .nilSlice data with
      | .slice l => .ok (.slice (l.map fun x => match x with
          | .str s => .str (s.map fun c => if 97 ≤ c && c ≤ 122 then c - 32 else c)
          | x => x))
      | _ => .panic }
  | 3 => { marshal := none, unmarshal := some fun data _ => do
      match ← unmarshal noEnv (.map (.int 64)) .nilMap data with
      | .map l => .ok (.struct [(l.lookup b!"a word").getD (.int 0), (l.lookup b!"b word").getD (.int 0), .int 123])
      | _ => .panic }
  | _ => { marshal := none, unmarshal := none }

abbrev int : Ty := .int 64
def f (name : Bytes) (t : Ty := int) (tag : Bytes := []) : Hdr × Ty := ({ name, tag }, t)
def fu (name : Bytes) (t : Ty := int) : Hdr × Ty := ({ name, exported := false }, t)
def dictTy : Ty := .struct 1 [f b!"A", f b!"B", fu b!"c"]
def decU (t : Ty) (data : Bytes) : Res Val := unmarshal testEnv t (zero t) data

example : decU (.custom 0 .str) b!"3:abc" = .ok (.str b!"prefix-abc") := by kernel_rfl
example : decU (.custom 1 int) b!"i12345e" = .ok (.int 12) := by kernel_rfl
example : decU (.custom 2 (.slice .str)) b!"l3:abc4:defge" = .ok (.slice [.str b!"ABC", .str b!"DEFG"]) := by kernel_rfl
example : decU (.custom 3 dictTy) b!"d6:a wordi1e6:b wordi2ee" = .ok (.struct [.int 1, .int 2, .int 123]) := by kernel_rfl
example : failed (decU (.custom 3 dictTy) b!"d6:b wordi1e6:a wordi2ee") = true := by kernel_rfl
example : decU (.struct 2 [f b!"X", f b!"B" (.custom 0 .str)]) b!"d1:b3:abc1:xi123ee" =
    .ok (.struct [.int 123, .str b!"prefix-abc"]) := by kernel_rfl

/-! ### decode_test.go:117-145 strings -/

example : dec .str b!"0:" = .ok (.str []) := by kernel_rfl
example : dec .str b!"1:a" = .ok (.str b!"a") := by kernel_rfl
example : dec .bytes b!"3:abc" = .ok (.bytes b!"abc") := by kernel_rfl
example : dec .str b!"5:worde" = .ok (.str b!"worde") := by kernel_rfl
example : failed (dec .str b!"5e:word") = true := by kernel_rfl
example : failed (dec .str b!"5:word") = true := by kernel_rfl

/-! ### decode_test.go:147-209 numbers -/

example : dec int b!"i123e" = .ok (.int 123) := by kernel_rfl
example : dec (.int 32) b!"i-456e" = .ok (.int (-456)) := by kernel_rfl
example : dec int b!"i0e" = .ok (.int 0) := by kernel_rfl
example : failed (dec int b!"i-0e") = true := by kernel_rfl
example : failed (dec int b!"i0123e") = true := by kernel_rfl
example : failed (dec int b!"i-0123e") = true := by kernel_rfl
example : failed (dec int b!"i12j23e") = true := by kernel_rfl
example : failed (dec int b!"i--123e") = true := by kernel_rfl
example : failed (dec int b!"123e") = true := by kernel_rfl
example : failed (dec int b!"i123") = true := by kernel_rfl
example : dec (.uint 64) b!"i123e" = .ok (.uint 123) := by kernel_rfl
example : dec (.uint 32) b!"i0e" = .ok (.uint 0) := by kernel_rfl
example : failed (dec (.uint 64) b!"i12j23e") = true := by kernel_rfl
example : failed (dec (.uint 64) b!"i--123e") = true := by kernel_rfl
example : failed (dec (.uint 64) b!"123e") = true := by kernel_rfl
example : failed (dec (.uint 64) b!"i123") = true := by kernel_rfl

/-! ### decode_test.go:211-246 lists -/

/-- An `int` in an `any`. -/
def ai (i : Int) : Val := .iface int (.int i)
/-- A string in an `any`. -/
def as (s : Bytes) : Val := .iface .str (.str s)
/-- A `[]any` in an `any`. -/
def al (l : List Val) : Val := .iface (.slice .any) (.slice l)
/-- A `map[string]any` in an `any`. -/
def am (l : List (Bytes × Val)) : Val := .iface (.map .any) (.map l)

example : dec (.slice .any) b!"le" = .ok (.slice []) := by kernel_rfl
example : dec (.slice int) b!"li123ee" = .ok (.slice [.int 123]) := by kernel_rfl
example : dec (.array 3 int) b!"li1ei2ei3ei4ei5ee" = .ok (.array [.int 1, .int 2, .int 3]) := by kernel_rfl
example : dec (.slice (.slice int)) b!"lli1ei2eee" = .ok (.slice [.slice [.int 1, .int 2]]) := by kernel_rfl
example : dec (.slice .any) b!"li123e4:asdfli456eee" = .ok (.slice [ai 123, as b!"asdf", al [ai 456]]) := by kernel_rfl
example : failed (dec (.slice .any) b!"i123ee") = true := by kernel_rfl
example : failed (dec (.slice .any) b!"li123e") = true := by kernel_rfl

/-! ### decode_test.go:248-291 maps -/

example : dec (.map .any) b!"de" = .ok (.map []) := by kernel_rfl
example : dec (.map .any) b!"d3:key5:valuee" = .ok (.map [(b!"key", as b!"value")]) := by kernel_rfl
example : dec (.map .any) b!"d3:keyd4:key2i0eee" = .ok (.map [(b!"key", am [(b!"key2", ai 0)])]) := by kernel_rfl
example : dec (.map .any) b!"d3:keyli123ed4:key2i456eeee" =
    .ok (.map [(b!"key", al [ai 123, am [(b!"key2", ai 456)]])]) := by kernel_rfl
example : failed (dec (.map .any) b!"3:key5:valuee") = true := by kernel_rfl
example : failed (dec (.map .any) b!"d3:key5:value") = true := by kernel_rfl
example : failed (dec (.map .any) b!"d1:ai1e1:ci2e1:bi3ee") = true := by kernel_rfl

/-! ### decode_test.go:293-465 structs -/

def simple : Ty := .struct 10 [f b!"X", f b!"Y", fu b!"z"]
def simpleNested : Ty := .struct 11 [f b!"A", f b!"Nested" (.ptr simple)]
def emb (name : Bytes) (t : Ty) (tag : Bytes := []) : Hdr × Ty := ({ name, tag, anon := true, exported := false }, t)
def simpleEmbedded : Ty := .struct 12 [emb b!"simple" simple, f b!"A", f b!"Y", f b!"Z"]
def deeplyEmbedded : Ty := .struct 13 [emb b!"simpleEmbedded" simpleEmbedded, f b!"A"]
def conflictingEmbedded : Ty := .struct 14 [f b!"A", emb b!"simpleEmbedded" simpleEmbedded, emb b!"simple" simple]
def simpleConflict : Ty := .struct 15 [f b!"A", f b!"B" int b!"a"]
def taggedEmbedded : Ty := .struct 16 [f b!"A", emb b!"simple" simple b!"embedded"]
def tags : Ty := .struct 17 [f b!"A" int b!"a_tag", f b!"NoTag", fu b!"notExported", f b!"Ignored" int b!"-"]

/-- A struct of `int`s. -/
def ints (l : List Int) : Val := .struct (l.map .int)

example : dec (.struct 0 []) b!"de" = .ok (.struct []) := by kernel_rfl
example : dec tags b!"d5:a_tagi1e5:notagi2ee" = .ok (ints [1, 2, 0, 0]) := by kernel_rfl
example : dec simpleNested b!"d1:ai1e6:nestedd1:xi2e1:yi3eee" =
    .ok (.struct [.int 1, .ptr (ints [2, 3, 0])]) := by kernel_rfl
example : dec simpleNested b!"d1:ai1ee" = .ok (.struct [.int 1, .nilPtr]) := by kernel_rfl
example : dec simpleEmbedded b!"d1:ai22e1:xi1e1:yi33e1:zi44ee" =
    .ok (.struct [ints [1, 0, 0], .int 22, .int 33, .int 44]) := by kernel_rfl
example : dec deeplyEmbedded b!"d1:ai99e1:xi1e1:yi33e1:zi44ee" =
    .ok (.struct [.struct [ints [1, 0, 0], .int 0, .int 33, .int 44], .int 99]) := by kernel_rfl
example : dec conflictingEmbedded b!"d1:ai11e1:xi55e1:zi44ee" =
    .ok (.struct [.int 11, .struct [ints [0, 0, 0], .int 0, .int 0, .int 44], ints [55, 0, 0]]) := by kernel_rfl
example : dec simpleConflict b!"d1:ai2ee" = .ok (ints [0, 2]) := by kernel_rfl
example : dec taggedEmbedded b!"d1:ai22e8:embeddedd1:xi1e1:yi2eee" = .ok (.struct [.int 22, ints [1, 2, 0]]) := by
  kernel_rfl
example : dec taggedEmbedded b!"d1:ai22e1:b5:abcde1:ci12345e8:embeddedd1:xi1e1:yi2eee" =
    .ok (.struct [.int 22, ints [1, 2, 0]]) := by kernel_rfl
example : failed (dec simpleEmbedded b!"d1:ai1e1:yi2e1:xi3ee") = true := by kernel_rfl

/-! ### decode_test.go:467-494 interfaces -/

example : unmarshal noEnv .any (.iface (.ptr (.slice (.int 32))) (.ptr (.slice []))) b!"li123ei456ee" =
    .ok (.iface (.ptr (.slice (.int 32))) (.ptr (.slice [.int 123, .int 456]))) := by kernel_rfl
example : dec .any b!"i123e" = .ok (ai 123) := by kernel_rfl
example : dec .any b!"3:abc" = .ok (as b!"abc") := by kernel_rfl
example : dec (.slice .any) b!"li123ee" = .ok (.slice [ai 123]) := by kernel_rfl
example : dec .any b!"d3:key5:valuee" = .ok (am [(b!"key", as b!"value")]) := by kernel_rfl

/-! ### encode_test.go:33-50 custom types -/

/-- encode_test.go:21-31. -/
def marshEnv : Env := fun _ => { unmarshal := none, marshal := some fun v => match v with
  | .struct [.str s] => .ok (natDec s.length ++ [58] ++ s)
  | _ => .panic }

example : marshal marshEnv (.ptr (.custom 0 (.struct 0 [fu b!"s" .str]))) (.ptr (.struct [.str b!"asdf"])) =
    .ok b!"4:asdf" := by kernel_rfl

/-! ### encode_test.go:52-133 strings and numbers -/

example : marshal noEnv .str (.str []) = .ok b!"0:" := by kernel_rfl
example : marshal noEnv .str (.str b!"a") = .ok b!"1:a" := by kernel_rfl
example : marshal noEnv .str (.str b!"worde") = .ok b!"5:worde" := by kernel_rfl
example : marshal noEnv .bytes (.bytes []) = .ok b!"0:" := by kernel_rfl
example : marshal noEnv .bytes (.bytes b!"a") = .ok b!"1:a" := by kernel_rfl
example : marshal noEnv .bytes (.bytes b!"worde") = .ok b!"5:worde" := by kernel_rfl
example : marshal noEnv int (.int 123) = .ok b!"i123e" := by kernel_rfl
example : marshal noEnv (.int 16) (.int (-456)) = .ok b!"i-456e" := by kernel_rfl
example : marshal noEnv int (.int 0) = .ok b!"i0e" := by kernel_rfl
example : marshal noEnv (.uint 64) (.uint 123) = .ok b!"i123e" := by kernel_rfl
example : marshal noEnv (.uint 64) (.uint 0) = .ok b!"i0e" := by kernel_rfl

/-! ### encode_test.go:135-180 lists and maps -/

example : marshal noEnv (.slice .any) .nilSlice = .ok [] := by kernel_rfl
example : marshal noEnv (.slice .any) (.slice []) = .ok b!"le" := by kernel_rfl
example : marshal noEnv (.slice .any) (.slice [ai 123]) = .ok b!"li123ee" := by kernel_rfl
example : marshal noEnv (.slice .any) (.slice [al [ai 1, ai 2]]) = .ok b!"lli1ei2eee" := by kernel_rfl
example : marshal noEnv (.slice .any) (.slice [ai 123, as b!"asdf", al [ai 456]]) = .ok b!"li123e4:asdfli456eee" := by
  kernel_rfl
example : marshal noEnv (.map .any) .nilMap = .ok [] := by kernel_rfl
example : marshal noEnv (.map .any) (.map []) = .ok b!"de" := by kernel_rfl
example : marshal noEnv (.map .any) (.map [(b!"key", as b!"value")]) = .ok b!"d3:key5:valuee" := by kernel_rfl
example : marshal noEnv (.map .any) (.map [(b!"b", ai 2), (b!"c", ai 3), (b!"a", ai 1)]) =
    .ok b!"d1:ai1e1:bi2e1:ci3ee" := by kernel_rfl
example : marshal noEnv (.map .any) (.map [(b!"key", am [(b!"key2", ai 0)])]) = .ok b!"d3:keyd4:key2i0eee" := by
  kernel_rfl
example : marshal noEnv (.map .any) (.map [(b!"key", al [ai 123, am [(b!"key2", ai 456)]])]) =
    .ok b!"d3:keyli123ed4:key2i456eeee" := by kernel_rfl

/-! ### encode_test.go:182-356 structs. Here `simpleEmbedded` embeds a pointer. -/

def simpleEmbeddedP : Ty := .struct 12 [emb b!"simple" (.ptr simple), f b!"A", f b!"Y", f b!"Z"]
def deeplyEmbeddedP : Ty := .struct 13 [emb b!"simpleEmbedded" simpleEmbeddedP, f b!"A"]
def conflictingEmbeddedP : Ty := .struct 14 [f b!"A", emb b!"simpleEmbedded" simpleEmbeddedP, emb b!"simple" simple]

example : marshal noEnv (.struct 0 []) (.struct []) = .ok b!"de" := by kernel_rfl
example : marshal noEnv tags (ints [1, 2, 3, 4]) = .ok b!"d5:a_tagi1e5:notagi2ee" := by kernel_rfl
example : marshal noEnv simpleNested (.struct [.int 1, .ptr (ints [2, 3, 4])]) =
    .ok b!"d1:ai1e6:nestedd1:xi2e1:yi3eee" := by kernel_rfl
example : marshal noEnv simpleNested (.struct [.int 1, .nilPtr]) = .ok b!"d1:ai1ee" := by kernel_rfl
example : marshal noEnv simpleEmbeddedP (.struct [.ptr (ints [1, 2, 3]), .int 22, .int 33, .int 44]) =
    .ok b!"d1:ai22e1:xi1e1:yi33e1:zi44ee" := by kernel_rfl
example : marshal noEnv simpleEmbeddedP (.struct [.nilPtr, .int 22, .int 33, .int 44]) =
    .ok b!"d1:ai22e1:yi33e1:zi44ee" := by kernel_rfl
example : marshal noEnv deeplyEmbeddedP
    (.struct [.struct [.ptr (ints [1, 2, 3]), .int 22, .int 33, .int 44], .int 99]) =
    .ok b!"d1:ai99e1:xi1e1:yi33e1:zi44ee" := by kernel_rfl
example : marshal noEnv conflictingEmbeddedP
    (.struct [.int 11, .struct [.ptr (ints [1, 2, 3]), .int 22, .int 33, .int 44], ints [55, 66, 77]]) =
    .ok b!"d1:ai11e1:xi55e1:zi44ee" := by kernel_rfl
example : marshal noEnv simpleConflict (ints [1, 2]) = .ok b!"d1:ai2ee" := by kernel_rfl
example : marshal noEnv taggedEmbedded (.struct [.int 22, ints [1, 2, 3]]) =
    .ok b!"d1:ai22e8:embeddedd1:xi1e1:yi2eee" := by kernel_rfl
example : marshal noEnv (.struct 18 [f b!"A", f b!"B" int b!",omitempty"]) (ints [1, 0]) = .ok b!"d1:ai1ee" := by
  kernel_rfl

end Drip.Tests.Bencode
