import Verif.Lemmas.Bencode.Emit
/-
More about the encoder: sortedness of what it writes, nesting depth, frame and restoration of the depth, independence of
map order.
-/

namespace Drip.Spec

mutual
/-- Levels of lists and dictionaries. -/
def BVal.nesting : BVal → Nat
  | .int _ => 0
  | .str _ => 0
  | .list vs => nestings vs + 1
  | .dict es => nestingEs es + 1
def nestings : List BVal → Nat
  | [] => 0
  | v :: vs => max v.nesting (nestings vs)
def nestingEs : List (Bytes × BVal) → Nat
  | [] => 0
  | (_, v) :: es => max v.nesting (nestingEs es)
end

open Bencode

mutual
/-- `Reorder v w`: `w` is `v` with the entries of any maps in it listed in another order. -/
inductive Reorder : Val → Val → Prop
  | refl {v} : Reorder v v
  | slice {es es'} : Reorders es es' → Reorder (.slice es) (.slice es')
  | array {es es'} : Reorders es es' → Reorder (.array es) (.array es')
  | map {es es' es''} : ReorderEs es es' → es'.Perm es'' → Reorder (.map es) (.map es'')
  | struct {es es'} : Reorders es es' → Reorder (.struct es) (.struct es')
  | ptr {v w} : Reorder v w → Reorder (.ptr v) (.ptr w)
  | iface {t v w} : Reorder v w → Reorder (.iface t v) (.iface t w)
inductive Reorders : List Val → List Val → Prop
  | nil : Reorders [] []
  | cons {v w vs ws} : Reorder v w → Reorders vs ws → Reorders (v :: vs) (w :: ws)
inductive ReorderEs : List (Bytes × Val) → List (Bytes × Val) → Prop
  | nil : ReorderEs [] []
  | cons {k v w vs ws} : Reorder v w → ReorderEs vs ws → ReorderEs ((k, v) :: vs) ((k, w) :: ws)
end

end Drip.Spec

namespace Drip.Bencode
open Spec

/-! ### Sortedness -/

theorem structFields_incr (T : Ty) : Incr FieldInfo.key (structFields T) := by
  unfold structFields
  refine sortByKey_incr _ _ ?_
  exact (keyToField_nodup T).sublist (List.Sublist.map _ List.filter_sublist)

mutual
theorem denotes_sorted {env : Env} (henv : CanonicalMethods env) {fl : Flags} {t : Ty} {v : Val} {b : BVal} {d : Nat} :
    Denotes env fl t v b d → b.Sorted
  | .method hm => by
    cases hm with
    | addr h1 h2 h3 h4 =>
      obtain ⟨b', hs, e⟩ := henv _ _ _ _ h1 h4
      rw [(benc_unique b b' [] [] (by simpa using e)).1]; exact hs
    | ptr h1 h3 h4 =>
      obtain ⟨b', hs, e⟩ := henv _ _ _ _ h1 h4
      rw [(benc_unique b b' [] [] (by simpa using e)).1]; exact hs
  | .named _ h => denotesK_sorted henv h
  | .kind _ h => denotesK_sorted henv h
theorem denotesK_sorted {env : Env} (henv : CanonicalMethods env) {fl : Flags} {t : Ty} {v : Val} {b : BVal} {d : Nat} :
    DenotesK env fl t v b d → b.Sorted
  | .str => trivial
  | .bytes => trivial
  | .nilBytes => trivial
  | .int => trivial
  | .uint => trivial
  | .slice h => denotesL_sorted henv h
  | .array h => denotesL_sorted henv h
  | .map _ hi h => by
    obtain ⟨h1, h2⟩ := denotesE_sorted henv h
    refine ⟨?_, h1⟩
    rw [keysIncreasing_iff] at hi ⊢
    have h3 := (List.pairwise_map (f := fun x : Bytes × Val => x.1) (R := BLt)).mpr hi
    rw [h2] at h3
    exact List.pairwise_map.mp h3
  | .struct h => by
    obtain ⟨h1, h2⟩ := denotesF_sorted henv h
    refine ⟨?_, h1⟩
    rw [keysIncreasing_iff]
    exact List.pairwise_map.mp ((List.pairwise_map.mpr (structFields_incr _)).sublist h2)
  | .any h => denotes_sorted henv h
  | .iface h => denotes_sorted henv h
  | .ptr h => denotes_sorted henv h
theorem denotesL_sorted {env : Env} (henv : CanonicalMethods env) {fl : Flags} {t : Ty} {vs : List Val} {bs : List BVal} {d : Nat} :
    DenotesL env fl t vs bs d → Sorteds bs
  | .nil => trivial
  | .cons h hs => ⟨denotes_sorted henv h, denotesL_sorted henv hs⟩
theorem denotesE_sorted {env : Env} (henv : CanonicalMethods env) {t : Ty} {vs : List (Bytes × Val)} {bs : List (Bytes × BVal)}
    {d : Nat} : DenotesE env t vs bs d → SortedEs bs ∧ vs.map (·.1) = bs.map (·.1)
  | .nil => ⟨trivial, rfl⟩
  | .cons h hs => by
    obtain ⟨h1, h2⟩ := denotesE_sorted henv hs
    exact ⟨⟨denotes_sorted henv h, h1⟩, by simp [h2]⟩
theorem denotesF_sorted {env : Env} (henv : CanonicalMethods env) {fl : Flags} {t : Ty} {v : Val} {fs : List FieldInfo}
    {bs : List (Bytes × BVal)} {d : Nat} : DenotesF env fl t v fs bs d → SortedEs bs ∧ (bs.map (·.1)).Sublist (fs.map (·.key))
  | .nil => ⟨trivial, by simp⟩
  | .skip _ hs => by
    obtain ⟨h1, h2⟩ := denotesF_sorted henv hs
    exact ⟨h1, by simpa using h2.cons _⟩
  | .cons _ _ h hs => by
    obtain ⟨h1, h2⟩ := denotesF_sorted henv hs
    exact ⟨⟨denotes_sorted henv h, h1⟩, by simpa using h2⟩
end

/-! ### Nesting -/

mutual
theorem denotes_nesting {env : Env} (henv : ∀ id, (env id).marshal = none) {fl : Flags} {t : Ty} {v : Val} {b : BVal} {d : Nat} :
    Denotes env fl t v b d → b.nesting = d
  | .method hm => by
    cases hm with
    | addr h1 h2 h3 h4 => rw [henv] at h1; simp at h1
    | ptr h1 h3 h4 => rw [henv] at h1; simp at h1
  | .named _ h => denotesK_nesting henv h
  | .kind _ h => denotesK_nesting henv h
theorem denotesK_nesting {env : Env} (henv : ∀ id, (env id).marshal = none) {fl : Flags} {t : Ty} {v : Val} {b : BVal} {d : Nat} :
    DenotesK env fl t v b d → b.nesting = d
  | .str => rfl
  | .bytes => rfl
  | .nilBytes => rfl
  | .int => rfl
  | .uint => rfl
  | .slice h => by have := denotesL_nesting henv h; simp [BVal.nesting, this]
  | .array h => by have := denotesL_nesting henv h; simp [BVal.nesting, this]
  | .map _ hi h => by have := denotesE_nesting henv h; simp [BVal.nesting, this]
  | .struct h => by have := denotesF_nesting henv h; simp [BVal.nesting, this]
  | .any h => denotes_nesting henv h
  | .iface h => denotes_nesting henv h
  | .ptr h => denotes_nesting henv h
theorem denotesL_nesting {env : Env} (henv : ∀ id, (env id).marshal = none) {fl : Flags} {t : Ty} {vs : List Val} {bs : List BVal}
    {d : Nat} : DenotesL env fl t vs bs d → nestings bs = d
  | .nil => rfl
  | .cons h hs => by simp [nestings, denotes_nesting henv h, denotesL_nesting henv hs]
theorem denotesE_nesting {env : Env} (henv : ∀ id, (env id).marshal = none) {t : Ty} {vs : List (Bytes × Val)}
    {bs : List (Bytes × BVal)} {d : Nat} : DenotesE env t vs bs d → nestingEs bs = d
  | .nil => rfl
  | .cons h hs => by simp [nestingEs, denotes_nesting henv h, denotesE_nesting henv hs]
theorem denotesF_nesting {env : Env} (henv : ∀ id, (env id).marshal = none) {fl : Flags} {t : Ty} {v : Val} {fs : List FieldInfo}
    {bs : List (Bytes × BVal)} {d : Nat} : DenotesF env fl t v fs bs d → nestingEs bs = d
  | .nil => rfl
  | .skip _ hs => denotesF_nesting henv hs
  | .cons _ _ h hs => by simp [nestingEs, denotes_nesting henv h, denotesF_nesting henv hs]
end

/-! ### Frame and depth -/

/-- What has been written before does not matter, and is kept. -/
def Frame (p : E) : Prop :=
  ∀ (s : ESt) (o : Bytes), p ⟨o ++ s.out, s.depth⟩ = ((p s).1, ⟨o ++ (p s).2.out, (p s).2.depth⟩)

/-- On success the depth is what it was. -/
def Restores (p : E) : Prop := ∀ s s', p s = (.ok (), s') → s'.depth = s.depth

def FR (p : E) : Prop := Frame p ∧ Restores p

theorem FR.ok : FR E.ok := ⟨fun _ _ => rfl, fun s s' h => by simp [E.ok] at h; rw [h]⟩
theorem FR.write (b : Bytes) : FR (E.write b) :=
  ⟨fun _ _ => by simp [E.write], fun s s' h => by simp [E.write] at h; rw [← h]⟩
theorem FR.fail (e : Err) : FR (E.fail e) := ⟨fun _ _ => rfl, fun s s' h => by simp [E.fail] at h⟩
theorem FR.panic : FR E.panic := ⟨fun _ _ => rfl, fun s s' h => by simp [E.panic] at h⟩

theorem FR.seq {a b : E} (ha : FR a) (hb : FR b) : FR (E.seq a b) := by
  refine ⟨?_, ?_⟩
  · intro s o
    have h1 := ha.1 s o
    unfold E.seq
    rw [h1]
    cases h : a s with
    | mk r s1 =>
      cases r with
      | ok u => exact hb.1 s1 o
      | err e => rfl
      | panic => rfl
  · intro s s' h
    obtain ⟨s1, h1, h2⟩ := seq_ok h
    rw [hb.2 _ _ h2, ha.2 _ _ h1]

theorem FR.nested {c : UInt8} {body : E} (hb : FR body) : FR (nested c body) := by
  refine ⟨?_, ?_⟩
  · intro s o
    rw [nested_run, nested_run]
    by_cases hd : 1000 < s.depth + 1
    · rw [if_pos hd, if_pos hd]
    · rw [if_neg hd, if_neg hd]
      have := ((FR.write [c]).seq (hb.seq (FR.write [101]))).1 ⟨s.out, s.depth + 1⟩ o
      simp only at this ⊢
      rw [this]
      generalize E.seq (E.write [c]) (E.seq body (E.write [101])) ⟨s.out, s.depth + 1⟩ = x
      obtain ⟨r, s1⟩ := x
      cases r <;> rfl
  · intro s s' h
    obtain ⟨s1, s2, h1, h2, _, h4, _⟩ := nested_ok h
    have := hb.2 _ _ h1
    omega

theorem FR.encString (b : Bytes) : FR (encString b) := (FR.write _).seq ((FR.write _).seq (FR.write _))

theorem FR.encMarshaler (ro : Bool) (m : Val → Res Bytes) (v : Option Val) : FR (encMarshaler ro m v) := by
  unfold Bencode.encMarshaler
  cases ro with
  | true => exact FR.panic
  | false =>
    cases v with
    | none => exact FR.panic
    | some w =>
      simp only [Bool.false_eq_true, if_false]
      cases m w with
      | ok c => exact FR.write _
      | err e => exact FR.fail _
      | panic => exact FR.panic

theorem FR.encode (env : Env) : ∀ n fl t v, FR (encode env n fl t v) := by
  intro n
  induction n with
  | zero => intro fl t v; exact FR.fail _
  | succ n ih =>
    have hL : ∀ fl t es, FR (encElems (Bencode.encode env n) fl t es) := by
      intro fl t es
      induction es with
      | nil => exact FR.ok
      | cons v vs ihv => exact (ih _ _ _).seq ihv
    have hE : ∀ t es, FR (encEntries (Bencode.encode env n) t es) := by
      intro t es
      induction es with
      | nil => exact FR.ok
      | cons v vs ihv => exact (FR.encString _).seq ((ih _ _ _).seq ihv)
    have hF : ∀ fl t v fs, FR (encFields (Bencode.encode env n) fl t v fs) := by
      intro fl t v fs
      induction fs with
      | nil => exact FR.ok
      | cons f fs ihf =>
        unfold encFields
        cases fieldByIndex f.index fl t v with
        | none => exact FR.panic
        | some x =>
          dsimp only
          split
          · exact ihf
          · split
            · exact ihf
            · exact (FR.encString _).seq ((ih _ _ _).seq ihf)
    have hK : ∀ fl t v, FR (encKind (Bencode.encode env n) fl t v) := by
      intro fl t v
      unfold encKind
      split
      · exact FR.encString _
      · exact (FR.write _).seq ((FR.write _).seq (FR.write _))
      · exact (FR.write _).seq ((FR.write _).seq (FR.write _))
      · exact FR.encString _
      · exact FR.encString _
      · exact FR.ok
      · exact (hL _ _ _).nested
      · exact (hL _ _ _).nested
      · exact FR.ok
      · exact (hE _ _).nested
      · exact FR.ok
      · exact FR.fail _
      · exact (hF _ _ _ _).nested
      · exact FR.ok
      · exact FR.ok
      · exact ih _ _ _
      · exact ih _ _ _
      · exact FR.ok
      · exact ih _ _ _
      · exact FR.fail _
      · exact FR.panic
    intro fl t v
    unfold Bencode.encode
    split
    · split
      · exact FR.encMarshaler _ _ _
      · exact hK _ _ _
    · split
      · exact FR.encMarshaler _ _ _
      · exact hK _ _ _
    · split
      · exact FR.encMarshaler _ _ _
      · exact hK _ _ _
    · exact hK _ _ _

/-! ### Map order -/

theorem reorders_refl (es : List Val) : Reorders es es := by
  induction es with
  | nil => exact .nil
  | cons v vs ih => exact .cons .refl ih

theorem reorderEs_refl (es : List (Bytes × Val)) : ReorderEs es es := by
  induction es with
  | nil => exact .nil
  | cons v vs ih => exact .cons .refl ih

theorem reorders_get {es es' : List Val} (h : Reorders es es') : ∀ i : Nat, (es[i]? = none ∧ es'[i]? = none) ∨
    ∃ v w, es[i]? = some v ∧ es'[i]? = some w ∧ Reorder v w := by
  induction es generalizing es' with
  | nil => cases h; intro i; exact .inl (by simp)
  | cons x xs ih =>
    cases h with
    | cons h1 h2 =>
      intro i
      cases i with
      | zero => exact .inr ⟨_, _, by simp, by simp, h1⟩
      | succ i => simpa using ih h2 i

theorem reorder_isNil {v w : Val} (h : Reorder v w) : isNil v = isNil w := by cases h <;> rfl

theorem reorderEs_length {v w : List (Bytes × Val)} (h : ReorderEs v w) : v.length = w.length := by
  induction v generalizing w with
  | nil => cases h; rfl
  | cons x xs ih => cases h with | cons _ h2 => simp [ih h2]

theorem reorders_length {v w : List Val} (h : Reorders v w) : v.length = w.length := by
  induction v generalizing w with
  | nil => cases h; rfl
  | cons x xs ih => cases h with | cons _ h2 => simp [ih h2]

theorem isEmpty_of_length {α : Type} {a b : List α} (h : a.length = b.length) : a.isEmpty = b.isEmpty := by
  cases a <;> cases b <;> simp at h ⊢

theorem reorder_isEmpty {v w : Val} (h : Reorder v w) : isEmptyValue v = isEmptyValue w := by
  cases h with
  | refl => rfl
  | slice h => exact isEmpty_of_length (reorders_length h)
  | array h => exact isEmpty_of_length (reorders_length h)
  | map h hp => exact isEmpty_of_length ((reorderEs_length h).trans hp.length_eq)
  | struct h => rfl
  | ptr h => rfl
  | iface h => rfl

theorem heightsM_perm {es es' : List (Bytes × Val)} (h : es.Perm es') : heightsM es = heightsM es' := by
  induction h with
  | nil => rfl
  | cons x _ ih => simp [heightsM, ih]
  | swap x y l => simp only [heightsM]; omega
  | trans _ _ ih1 ih2 => rw [ih1, ih2]

mutual
theorem reorder_height {v w : Val} : Reorder v w → v.height = w.height
  | .refl => rfl
  | .slice h => by simp [Val.height, reorders_heights h]
  | .array h => by simp [Val.height, reorders_heights h]
  | .map h hp => by simp [Val.height, reorderEs_heights h, heightsM_perm hp]
  | .struct h => by simp [Val.height, reorders_heights h]
  | .ptr h => by simp [Val.height, reorder_height h]
  | .iface h => by simp [Val.height, reorder_height h]
theorem reorders_heights {v w : List Val} : Reorders v w → heights v = heights w
  | .nil => rfl
  | .cons h hs => by simp [heights, reorder_height h, reorders_heights hs]
theorem reorderEs_heights {v w : List (Bytes × Val)} : ReorderEs v w → heightsM v = heightsM w
  | .nil => rfl
  | .cons h hs => by simp [heightsM, reorder_height h, reorderEs_heights hs]
end

theorem insertSorted_reorder {l l' : List (Bytes × Val)} (h : ReorderEs l l') {k : Bytes} {v w : Val} (hv : Reorder v w) :
    ReorderEs (insertSorted (·.1) (k, v) l) (insertSorted (·.1) (k, w) l') := by
  induction l generalizing l' with
  | nil => cases h; exact .cons hv .nil
  | cons x xs ih =>
    cases h with
    | @cons k' a b as bs h1 h2 =>
      unfold insertSorted
      simp only
      by_cases hb : bltB k' k = true
      · rw [if_pos hb, if_pos hb]
        exact .cons h1 (ih h2)
      · rw [if_neg hb, if_neg hb]
        exact .cons hv (.cons h1 h2)

theorem sortByKey_reorder {l l' : List (Bytes × Val)} (h : ReorderEs l l') :
    ReorderEs (sortByKey (·.1) l) (sortByKey (·.1) l') := by
  induction l generalizing l' with
  | nil => cases h; exact .nil
  | cons x xs ih =>
    cases h with
    | cons h1 h2 => exact insertSorted_reorder (ih h2) h1

theorem reorderEs_keys {v w : List (Bytes × Val)} (h : ReorderEs v w) : v.map (·.1) = w.map (·.1) := by
  induction v generalizing w with
  | nil => cases h; rfl
  | cons x xs ih => cases h with | cons _ h2 => simp [ih h2]

theorem reorder_elem1 {v w : Val} (h : Reorder v w) (fl : Flags) (t : Ty) :
    (elem1 fl t v).1 = (elem1 fl t w).1 ∧ (elem1 fl t v).2.1 = (elem1 fl t w).2.1 ∧
      Reorder (elem1 fl t v).2.2 (elem1 fl t w).2.2 := by
  cases h with
  | refl => exact ⟨rfl, rfl, .refl⟩
  | slice h => cases t <;> exact ⟨rfl, rfl, .slice h⟩
  | array h => cases t <;> exact ⟨rfl, rfl, .array h⟩
  | map h hp => cases t <;> exact ⟨rfl, rfl, .map h hp⟩
  | struct h => cases t <;> exact ⟨rfl, rfl, .struct h⟩
  | ptr h => cases t <;> first | exact ⟨rfl, rfl, h⟩ | exact ⟨rfl, rfl, .ptr h⟩
  | iface h => cases t <;> exact ⟨rfl, rfl, .iface h⟩

theorem goMaps_elem1 {v : Val} (h : GoMaps v) (fl : Flags) (t : Ty) : GoMaps (elem1 fl t v).2.2 := by
  unfold elem1
  split
  · exact h
  · exact h

theorem fieldByIndex_reorder (is : List Nat) : ∀ (fl : Flags) (t : Ty) (v w : Val), Reorder v w → GoMaps v →
    (fieldByIndex is fl t v = none ∧ fieldByIndex is fl t w = none) ∨
    ∃ fl' t' v' w', fieldByIndex is fl t v = some (fl', t', v') ∧ fieldByIndex is fl t w = some (fl', t', w') ∧
      Reorder v' w' ∧ GoMaps v' := by
  induction is with
  | nil => intro fl t v w h hg; exact .inr ⟨fl, t, v, w, rfl, rfl, h, hg⟩
  | cons i is ih =>
    intro fl t v w h hg
    unfold fieldByIndex
    rw [← reorder_isNil h]
    by_cases hn : isNil v = true
    · rw [if_pos hn, if_pos hn]; exact .inr ⟨fl, t, v, w, rfl, rfl, h, hg⟩
    · rw [if_neg hn, if_neg hn]
      obtain ⟨e1, e2, e3⟩ := reorder_elem1 h fl t
      have hg' := goMaps_elem1 hg fl t
      simp only [← e1, ← e2]
      generalize hx : (elem1 fl t v).2.2 = x at e3 hg'
      generalize hy : (elem1 fl t w).2.2 = y at e3
      cases hu : (elem1 fl t v).2.1.under with
      | struct id fs =>
        cases e3 with
        | refl =>
          cases x with
          | struct vs =>
            dsimp only
            cases hf : fs[i]? with
            | none => exact .inl ⟨rfl, rfl⟩
            | some f =>
              obtain ⟨hd, ft⟩ := f
              cases hv : vs[i]? with
              | none => exact .inl ⟨rfl, rfl⟩
              | some fv => exact ih _ _ _ _ .refl (goMapss_get hg' hv)
          | _ => exact .inl ⟨rfl, rfl⟩
        | struct hr =>
          dsimp only
          cases hf : fs[i]? with
          | none => exact .inl ⟨rfl, rfl⟩
          | some f =>
            obtain ⟨hd, ft⟩ := f
            rcases reorders_get hr i with ⟨h1, h2⟩ | ⟨a, b, h1, h2, h3⟩
            · rw [h1, h2]; exact .inl ⟨rfl, rfl⟩
            · rw [h1, h2]; exact ih _ _ _ _ h3 (goMapss_get hg' h1)
        | _ => exact .inl ⟨rfl, rfl⟩
      | _ => exact .inl ⟨rfl, rfl⟩

/-- The methods do not depend on the order of map entries. -/
def OrderBlind (env : Env) : Prop :=
  ∀ id m v w, (env id).marshal = some m → Reorder v w → m v = m w

theorem encode_reorder {env : Env} (henv : OrderBlind env) : ∀ n fl t v w, Reorder v w → GoMaps v →
    encode env n fl t v = encode env n fl t w := by
  intro n
  induction n with
  | zero => intro fl t v w _ _; rfl
  | succ n ih =>
    have hL : ∀ fl t es es', Reorders es es' → GoMapss es →
        encElems (encode env n) fl t es = encElems (encode env n) fl t es' := by
      intro fl t es
      induction es with
      | nil => intro es' h _; cases h; rfl
      | cons v vs ihv =>
        intro es' h hg
        cases h with
        | cons h1 h2 => unfold encElems; rw [ih _ _ _ _ h1 hg.1, ihv _ h2 hg.2]
    have hE : ∀ t (es es' : List (Bytes × Val)), ReorderEs es es' → (∀ e ∈ es, GoMaps e.2) →
        encEntries (encode env n) t es = encEntries (encode env n) t es' := by
      intro t es
      induction es with
      | nil => intro es' h _; cases h; rfl
      | cons v vs ihv =>
        intro es' h hg
        cases h with
        | cons h1 h2 =>
          unfold encEntries
          rw [ih _ _ _ _ h1 (hg (_, _) List.mem_cons_self), ihv _ h2 (fun e he => hg e (by simp [he]))]
    have hF : ∀ fl t v w fs, Reorder v w → GoMaps v →
        encFields (encode env n) fl t v fs = encFields (encode env n) fl t w fs := by
      intro fl t v w fs hr hg
      induction fs with
      | nil => rfl
      | cons f fs ihf =>
        unfold encFields
        rcases fieldByIndex_reorder f.index fl t v w hr hg with ⟨h1, h2⟩ | ⟨fl', t', v', w', h1, h2, h3, h4⟩
        · rw [h1, h2]
        · rw [h1, h2]
          dsimp only
          rw [reorder_isNil h3, reorder_isEmpty h3, ih _ _ _ _ h3 h4, ihf]
    have hG : ∀ es : List (Bytes × Val), GoMapsEs es → ∀ e ∈ es, GoMaps e.2 := by
      intro es
      induction es with
      | nil => simp
      | cons x es ihe =>
        intro h e he
        obtain ⟨k, w⟩ := x
        rcases List.mem_cons.mp he with rfl | he
        · exact h.1
        · exact ihe h.2 e he
    have hK : ∀ fl t v w, Reorder v w → GoMaps v → encKind (encode env n) fl t v = encKind (encode env n) fl t w := by
      intro fl t v w h hg
      cases h with
      | refl => rfl
      | slice h => cases t <;> try rfl
                   simp only [encKind]; rw [hL _ _ _ _ h hg]
      | array h => cases t <;> try rfl
                   simp only [encKind]; rw [hL _ _ _ _ h hg]
      | @map es es' es'' h hp =>
        cases t <;> try rfl
        simp only [encKind]
        have hnd : (es'.map (·.1)).Nodup := by rw [← reorderEs_keys h]; exact hg.1
        rw [← sortByKey_eq_of_perm _ _ _ hp hnd]
        rw [hE _ _ _ (sortByKey_reorder h) (fun e he => hG _ hg.2 e ((sortByKey_perm _ _).mem_iff.mp he))]
      | struct h => cases t <;> try rfl
                    simp only [encKind]; rw [hF _ _ _ _ _ (.struct h) hg]
      | ptr h => cases t <;> try rfl
                 simp only [encKind]; rw [ih _ _ _ _ h hg]
      | iface h => cases t <;> try rfl
                   · simp only [encKind]; rw [ih _ _ _ _ h hg]
                   · simp only [encKind]; rw [ih _ _ _ _ h hg]
    intro fl t v w h hg
    by_cases hu : UsesMethod env fl t
    · match t, hu with
      | .custom id u, hu =>
        obtain ⟨hs, ha⟩ := hu
        obtain ⟨m, hm⟩ := Option.isSome_iff_exists.mp hs
        unfold encode
        simp only [hm, ha]
        unfold encMarshaler
        dsimp only
        rw [henv id m v w hm h]
      | .ptr (.custom id u), hu =>
        obtain ⟨m, hm⟩ := Option.isSome_iff_exists.mp hu
        cases h with
        | refl => rfl
        | ptr h =>
          unfold encode
          simp only [hm]
          unfold encMarshaler
          dsimp only
          rw [henv id m _ _ hm h]
        | _ => unfold encode; simp only [hm]
    · by_cases hc : ∃ id u, t = .custom id u
      · obtain ⟨id, u, rfl⟩ := hc
        rw [encode_named hu, encode_named hu, hK _ _ _ _ h hg]
      · rw [encode_kind hu (fun id u e => hc ⟨id, u, e⟩), encode_kind hu (fun id u e => hc ⟨id, u, e⟩), hK _ _ _ _ h hg]

end Drip.Bencode
