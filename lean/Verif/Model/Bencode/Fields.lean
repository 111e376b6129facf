import Verif.Model.Bencode.Types
/-
Model of /repo/bencode/encode.go:220-359: which dictionary key belongs to which struct field.
-/

namespace Drip.Bencode

/-- `strings.ToLower` on ASCII; bytes from 0x80 on are left alone (Go would lower-case non-ASCII letters too). -/
def toLower (s : Bytes) : Bytes := s.map fun b => if 65 ≤ b && b ≤ 90 then b + 32 else b

/-- `strings.Cut(s, ",")` (encode.go:242, 246): the parts before and after the first comma. -/
def cutComma : Bytes → Bytes × Bytes
  | [] => ([], [])
  | b :: bs => if b = 44 then ([], bs) else let (x, y) := cutComma bs; (b :: x, y)

/-- The loop of encode.go:245-251: does the option list contain `omitempty`? `fuel` bounds the number of options. -/
def hasOmit : Nat → Bytes → Bool
  | 0, _ => false
  | _ + 1, [] => false
  | n + 1, rest => let (opt, rest) := cutComma rest; if opt = b!"omitempty" then true else hasOmit n rest

/-- encode.go:241-253 `parseTag`. -/
def parseTag (tag : Bytes) : Bytes × Bool :=
  let (name, rest) := cutComma tag
  (name, hasOmit (rest.length + 1) rest)

/-- encode.go:225-234 `field` (the parts that are used). -/
structure FieldInfo where
  ignored : Bool := false
  index : List Nat
  name : Bytes
  tag : Bytes
  key : Bytes
  omitempty : Bool
  ty : Ty
  hdr : Hdr

/-- `t.Kind() == reflect.Struct` (encode.go:315): identity and fields. -/
def Ty.structOf? (t : Ty) : Option (Nat × List (Hdr × Ty)) :=
  match t.under with
  | .struct id fs => some (id, fs)
  | _ => none

/-- `if t.Kind() == reflect.Pointer { t = t.Elem() }` (encode.go:270-272, 281-283). -/
def Ty.deref1 : Ty → Ty
  | .ptr t => t
  | t => t

/-- Lookup in the key map (encode.go:318; decode.go:487). -/
def lookupKey (key : Bytes) : List FieldInfo → Option FieldInfo
  | [] => none
  | f :: fs => if f.key = key then some f else lookupKey key fs

/-- `keyToField[key] = f` for a key that is present (encode.go:328, 331). -/
def replaceKey (f : FieldInfo) : List FieldInfo → List FieldInfo
  | [] => []
  | g :: gs => if g.key = f.key then f :: gs else g :: replaceKey f gs

/-- encode.go:318-336: enter `f` into the key map. -/
def insertField (m : List FieldInfo) (f : FieldInfo) : List FieldInfo :=
  match lookupKey f.key m with
  | none => m ++ [f]
  | some ef =>
    if ef.index.length < f.index.length || ef.ignored then m
    else if (f.tag ≠ [] ∧ f.tag = ef.tag) ∨ (ef.tag = [] ∧ f.name = ef.name) then
      replaceKey { ef with ignored := true } m
    else if f.tag ≠ [] ∧ ef.tag = [] then replaceKey f m
    else m

/-- encode.go:278-316: what becomes of one struct field: skipped, an embedded struct to descend into, or a field to
enter into the key map. -/
inductive Cls where
  | skip
  | embed (f : FieldInfo)
  | leaf (f : FieldInfo)

/-- encode.go:278-317 for the field number `j` of a struct reached by the path `index`. -/
def classify (index : List Nat) (j : Nat) (h : Hdr) (t : Ty) : Cls :=
  let ft := if h.anon then t.deref1 else t
  let isStruct := ft.structOf?.isSome
  if h.anon && !h.exported && !isStruct then .skip
  else if !h.anon && !h.exported then .skip
  else if h.tag = b!"-" then .skip
  else
    let (tagName, omitempty) := parseTag h.tag
    let tagName := toLower tagName
    let name := toLower h.name
    let f : FieldInfo := { index := index ++ [j], name, tag := tagName,
                           key := if tagName = [] then name else tagName, omitempty, ty := t, hdr := h }
    if tagName = [] && h.anon && isStruct then .embed f else .leaf f

/-- encode.go:277-338: the fields of one struct, from number `j` on. Returns the key map and the structs to visit in
the next round. -/
def scanFields (index : List Nat) : Nat → List (Hdr × Ty) → List FieldInfo → List (List Nat × Ty) →
    List FieldInfo × List (List Nat × Ty)
  | _, [], m, next => (m, next)
  | j, (h, t) :: fs, m, next =>
    match classify index j h t with
    | .skip => scanFields index (j + 1) fs m next
    | .embed f => scanFields index (j + 1) fs m (next ++ [(f.index, t)])
    | .leaf f => scanFields index (j + 1) fs (insertField m f) next

/-- encode.go:268-339: one round of the breadth-first search. -/
def scanRound : List (List Nat × Ty) → List Nat → List FieldInfo → List (List Nat × Ty) →
    List FieldInfo × List (List Nat × Ty) × List Nat
  | [], visited, m, next => (m, next, visited)
  | (index, t) :: curr, visited, m, next =>
    match t.deref1.structOf? with
    | none => scanRound curr visited m next  -- not reached: only structs are queued
    | some (id, fs) =>
      if id ∈ visited then scanRound curr visited m next
      else
        let (m, next) := scanFields index 0 fs m next
        scanRound curr (id :: visited) m next

/-- encode.go:266-340: rounds until no struct is left. `fuel` bounds the embedding depth. -/
def scanAll : Nat → List (List Nat × Ty) → List Nat → List FieldInfo → List FieldInfo
  | 0, _, _, m => m
  | _ + 1, [], _, m => m
  | n + 1, next, visited, m =>
    let (m, next, visited) := scanRound next visited m []
    scanAll n next visited m

mutual
/-- Nesting depth of a type; bounds the number of rounds of encode.go:266-340. -/
def Ty.depth : Ty → Nat
  | .slice t => t.depth + 1
  | .array _ t => t.depth + 1
  | .map t => t.depth + 1
  | .struct _ fs => fieldsDepth fs + 1
  | .ptr t => t.depth + 1
  | .custom _ t => t.depth + 1
  | _ => 0
/-- The same for the fields of a struct (encode.go:277). -/
def fieldsDepth : List (Hdr × Ty) → Nat
  | [] => 0
  | f :: fs => max f.2.depth (fieldsDepth fs)
end

/-- encode.go:255-359 `getFieldsForStruct(v).keyToField`, in order of first insertion. The cache (encode.go:236-239)
is not modelled: the result is a function of the type. -/
def keyToField (t : Ty) : List FieldInfo := scanAll (t.depth + 1) [([], t)] [] []

/-- Insertion into a list sorted by key (`slices.SortFunc` with `strings.Compare`, encode.go:202-204, 348-350; keys are unique, so every sorting
algorithm gives the same list). -/
def insertSorted {α : Type} (key : α → Bytes) (x : α) : List α → List α
  | [] => [x]
  | y :: ys => if bltB (key y) (key x) then y :: insertSorted key x ys else x :: y :: ys

/-- `slices.SortFunc(_, strings.Compare on key)` (encode.go:202-204, 348-350). -/
def sortByKey {α : Type} (key : α → Bytes) : List α → List α
  | [] => []
  | x :: xs => insertSorted key x (sortByKey key xs)

/-- encode.go:341-350: `getFieldsForStruct(v).fields`. -/
def structFields (t : Ty) : List FieldInfo := sortByKey FieldInfo.key ((keyToField t).filter fun f => !f.ignored)

end Drip.Bencode
