import Verif.Lemmas.Bencode.EmitMore
import Verif.Props.BencodeDecode
/-
Properties of `bencode.Marshal` and `bencode.Encoder`: C10, C11, C20, C24, C25, C26.
-/

namespace Drip.Bencode
open Spec

theorem marshal_ok {env : Env} {t : Ty} {v : Val} {out : Bytes} (h : marshal env t v = .ok out) :
    ∃ s, encode env v.height { addr := false } t v ⟨[], 0⟩ = (.ok (), s) ∧ s.out = out := by
  unfold marshal encodeTop at h
  cases hx : encode env v.height { addr := false } t v ⟨[], 0⟩ with
  | mk r s =>
    rw [hx] at h
    cases r with
    | ok u => simp at h; exact ⟨s, rfl, h⟩
    | err e => simp at h
    | panic => simp at h

theorem noEnv_canonical : CanonicalMethods noEnv := by intro id m v c h; simp [noEnv] at h
theorem noEnv_orderBlind : OrderBlind noEnv := by intro id m v w h; simp [noEnv] at h

/-! ### C10 -/

/-- **C10.** Whatever Marshal returns for a value without nil elements in lists and maps is the canonical encoding of the
bencode value it stands for, with the keys of every dictionary strictly increasing and no more than 1000 levels. (The
marshalling methods in the value are assumed to return canonical encodings themselves.) -/
theorem C10_canonical {env : Env} (henv : CanonicalMethods env) {t : Ty} {v : Val} {out : Bytes}
    (h : marshal env t v = .ok out) (hn : NoNil v) (hg : GoMaps v) :
    ∃ b d, Denotes env { addr := false } t v b d ∧ out = benc b ∧ b.Sorted ∧ d ≤ 1000 := by
  obtain ⟨s, hs, ho⟩ := marshal_ok h
  obtain ⟨b, d, hd⟩ := denotes_of_encode henv _ _ _ _ _ _ hs hn hg
  have he := emits_encode env v.height _ _ _ _ _ hd (Nat.le_refl _) ⟨[], 0⟩ (by simp)
  refine ⟨b, d, hd, ?_, denotes_sorted henv hd, ?_⟩
  · by_cases hle : 0 + d ≤ 1000
    · simp only [if_pos hle] at he
      rw [hs] at he
      rw [← ho, (Prod.mk.inj he).2]; rfl
    · simp only [if_neg hle] at he
      obtain ⟨s', he⟩ := he
      rw [hs] at he; simp at he
  · by_cases hle : 0 + d ≤ 1000
    · omega
    · simp only [if_neg hle] at he
      obtain ⟨s', he⟩ := he
      rw [hs] at he; simp at he

/-- **C10**: a Go value stands for at most one bencode value. -/
theorem C10_unique {env : Env} {fl : Flags} {t : Ty} {v : Val} {b b' : BVal} {d d' : Nat}
    (h : Denotes env fl t v b d) (h' : Denotes env fl t v b' d') (hd : d ≤ 1000) (hd' : d' ≤ 1000) : b = b' := by
  have h1 := emits_encode env v.height _ _ _ _ _ h (Nat.le_refl _) ⟨[], 0⟩ (by simp)
  have h2 := emits_encode env v.height _ _ _ _ _ h' (Nat.le_refl _) ⟨[], 0⟩ (by simp)
  simp only [Nat.zero_add, if_pos hd] at h1
  simp only [Nat.zero_add, if_pos hd'] at h2
  rw [h1] at h2
  simp only [Prod.mk.injEq, ESt.mk.injEq, List.nil_append, true_and, and_true] at h2
  exact (benc_unique b b' [] [] (by simpa using h2)).1

/-- A struct with an int field `A`, a string field tagged `z,omitempty`, and a map field `M`. -/
def exTy : Ty := .struct 1 [(⟨b!"M", b!"", false, true⟩, .map (.uint 8)), (⟨b!"A", b!"", false, true⟩, .int 64),
  (⟨b!"S", b!"z,omitempty", false, true⟩, .str)]
def exVal : Val := .struct [.map [(b!"b", .uint 2), (b!"a", .uint 1)], .int (-3), .str []]

example : marshal noEnv exTy exVal = .ok b!"d1:ai-3e1:md1:ai1e1:bi2eee" := by kernel_rfl
example : NoNil exVal ∧ GoMaps exVal := by
  simp [exVal, NoNil, NoNilFs, NoNilEs, GoMaps, GoMapss, GoMapsEs]
example : ∃ b d, Denotes noEnv { addr := false } exTy exVal b d ∧ b!"d1:ai-3e1:md1:ai1e1:bi2eee" = benc b ∧ b.Sorted ∧ d ≤ 1000 :=
  C10_canonical noEnv_canonical (v := exVal) (t := exTy) (by kernel_rfl)
    (by simp [exVal, NoNil, NoNilFs, NoNilEs]) (by simp [exVal, GoMaps, GoMapss, GoMapsEs])

/-! ### C11 -/

/-- **C11.** Listing the entries of the maps in a value in another order, at any depth, does not change what Marshal
returns. -/
theorem C11_map_order {env : Env} (henv : OrderBlind env) {t : Ty} {v w : Val} (h : Reorder v w) (hg : GoMaps v) :
    marshal env t v = marshal env t w := by
  unfold marshal encodeTop
  rw [← reorder_height h, encode_reorder henv _ _ _ _ _ h hg]

/-- **C11** for the entries of one map. -/
theorem C11_permuted {env : Env} (henv : OrderBlind env) {et : Ty} {es es' : List (Bytes × Val)} (h : es.Perm es')
    (hg : GoMaps (.map es)) : marshal env (.map et) (.map es) = marshal env (.map et) (.map es') :=
  C11_map_order henv (.map (reorderEs_refl es) h) hg

example : marshal noEnv (.map .str) (.map [(b!"b", .str b!"x"), (b!"a", .str b!"y")]) = .ok b!"d1:a1:y1:b1:xe" := by kernel_rfl
example : marshal noEnv (.map .str) (.map [(b!"b", .str b!"x"), (b!"a", .str b!"y")]) =
    marshal noEnv (.map .str) (.map [(b!"a", .str b!"y"), (b!"b", .str b!"x")]) :=
  C11_permuted noEnv_orderBlind (List.Perm.swap _ _ _) (by simp [GoMaps, GoMapsEs])

/-! ### C20 -/

/-- **C20.** For a value that stands for a bencode value with `d` levels of lists and dictionaries outside methods,
Marshal returns the encoding if `d ≤ 1000` and the depth error otherwise. -/
theorem C20_limit {env : Env} {t : Ty} {v : Val} {b : BVal} {d : Nat} (h : Denotes env { addr := false } t v b d) :
    (d ≤ 1000 → marshal env t v = .ok (benc b)) ∧ (1000 < d → marshal env t v = .err .depth) := by
  have he := emits_encode env v.height _ _ _ _ _ h (Nat.le_refl _) ⟨[], 0⟩ (by simp)
  constructor
  · intro hd
    simp only [Nat.zero_add, if_pos hd] at he
    unfold marshal encodeTop
    rw [he]; rfl
  · intro hd
    have : ¬ d ≤ 1000 := by omega
    simp only [Nat.zero_add, if_neg this] at he
    obtain ⟨s', he⟩ := he
    unfold marshal encodeTop
    rw [he]

/-- **C20**: without methods, `d` is the nesting depth of the bencode value. -/
theorem C20_nesting {t : Ty} {v : Val} {b : BVal} {d : Nat} (h : Denotes noEnv { addr := false } t v b d) :
    (b.nesting ≤ 1000 → marshal noEnv t v = .ok (benc b)) ∧ (1000 < b.nesting → marshal noEnv t v = .err .depth) := by
  rw [denotes_nesting (fun _ => rfl) h]; exact C20_limit h

/-- **C20**: nothing deeper than 1000 levels is ever returned. -/
theorem C20_output_depth {t : Ty} {v : Val} {out : Bytes} (h : marshal noEnv t v = .ok out) (hn : NoNil v) (hg : GoMaps v) :
    ∃ b, out = benc b ∧ b.nesting ≤ 1000 := by
  obtain ⟨b, d, hd, ho, _, hle⟩ := C10_canonical noEnv_canonical h hn hg
  exact ⟨b, ho, by rw [denotes_nesting (fun _ => rfl) hd]; exact hle⟩

/-- `n` lists around an empty list. -/
def deepTy : Nat → Ty
  | 0 => .slice .str
  | n + 1 => .slice (deepTy n)
def deepVal : Nat → Val
  | 0 => .slice []
  | n + 1 => .slice [deepVal n]
def deepB : Nat → BVal
  | 0 => .list []
  | n + 1 => .list [deepB n]

theorem deep_denotes (n : Nat) : ∀ fl, Denotes noEnv fl (deepTy n) (deepVal n) (deepB n) (n + 1) := by
  induction n with
  | zero => intro fl; exact .kind (by simp [UsesMethod, deepTy]) (.slice .nil)
  | succ n ih =>
    intro fl
    refine .kind (by simp [UsesMethod, deepTy]) ?_
    have := DenotesL.cons (ih { addr := true }) DenotesL.nil
    simp only [Nat.max_zero] at this
    exact .slice this

example : marshal noEnv (deepTy 999) (deepVal 999) = .ok (benc (deepB 999)) := (C20_limit (deep_denotes 999 _)).1 (by omega)
example : marshal noEnv (deepTy 1000) (deepVal 1000) = .err .depth := (C20_limit (deep_denotes 1000 _)).2 (by omega)

/-! ### C24 -/

/-- **C24.** No two entries of the table have the same key. -/
theorem C24_unique_key (T : Ty) (f g : FieldInfo) (hf : f ∈ keyToField T) (hg : g ∈ keyToField T) (h : f.key = g.key) :
    f = g := by
  have hn := keyToField_nodup T
  generalize keyToField T = m at *
  induction m with
  | nil => simp at hf
  | cons x xs ih =>
    simp only [List.map_cons, List.nodup_cons, List.mem_map, not_exists, not_and] at hn
    rcases List.mem_cons.mp hf with rfl | hf' <;> rcases List.mem_cons.mp hg with rfl | hg'
    · rfl
    · exact absurd h.symm (hn.1 g hg')
    · exact absurd h (hn.1 f hf')
    · exact ih hf' hg' hn.2

/-- **C24.** Marshal visits the fields in strictly increasing order of their keys. -/
theorem C24_increasing (T : Ty) : (structFields T).Pairwise fun f g => BLt f.key g.key := structFields_incr T

/-- **C24.** Every entry of the table is a field of the struct, its key is the field's own, and no field reachable by
promotion with that key lies at a smaller embedding depth. -/
theorem C24_resolved (T : Ty) (hok : IdsOk T) (f : FieldInfo) (hf : f ∈ keyToField T) :
    (Cand T f.index f.hdr f.ty ∧ f.key = fieldKey f.hdr) ∧
    ∀ p h ft, Cand T p h ft → fieldKey h = f.key → f.index.length ≤ p.length := by
  have hm := keyToField_inv hok
  have hl := leaves_inv hok
  obtain ⟨g, hg, hs⟩ := hm.from_ f hf
  obtain ⟨h1, h2, _⟩ := hl.cand g hg
  refine ⟨?_, ?_⟩
  · rcases hs with rfl | rfl
    · exact ⟨h1, h2⟩
    · exact ⟨h1, h2⟩
  · intro p h ft hc hk
    obtain ⟨g', hg', hgk, hgl⟩ := leaves_complete hok hc
    obtain ⟨f', hf', hfk, hfl⟩ := hm.has g' hg'
    have : f' = f := C24_unique_key T f' f hf' hf (by rw [hfk, hgk, hk])
    subst this
    omega

/-- **C24.** Every key of a reachable field is in the table; the field is used by Marshal if it is the only one with
its key at the smallest depth. -/
theorem C24_dominant (T : Ty) (hok : IdsOk T) (p : List Nat) (h : Hdr) (ft : Ty) (hc : Cand T p h ft)
    (hmin : ∀ q h' ft', Cand T q h' ft' → fieldKey h' = fieldKey h → q = p ∨ p.length < q.length) :
    ∃ f ∈ structFields T, f.index = p ∧ f.key = fieldKey h := by
  have hm := keyToField_inv hok
  have hl := leaves_inv hok
  obtain ⟨g, hg, hgk, hgl⟩ := leaves_complete hok hc
  obtain ⟨f, hf, hfk, hfl⟩ := hm.has g hg
  obtain ⟨⟨hfc, hfk'⟩, _⟩ := C24_resolved T hok f hf
  have hkey : f.key = fieldKey h := hfk.trans hgk
  have hidx : f.index = p := by
    rcases hmin _ _ _ hfc (hfk'.symm.trans hkey) with e | e
    · exact e
    · omega
  refine ⟨f, ?_, hidx, hkey⟩
  rw [mem_structFields]
  refine ⟨hf, ?_⟩
  cases hi : f.ignored with
  | false => rfl
  | true =>
    obtain ⟨g', hg', hk', hne, hlen⟩ := hm.ign f hf hi
    obtain ⟨hc', hkf', _⟩ := hl.cand g' hg'
    rcases hmin _ _ _ hc' (hkf'.symm.trans (hk'.trans hkey)) with e | e
    · exact absurd (e.trans hidx.symm) hne
    · rw [hidx] at hlen; omega

/-- `type In struct { A int; B int }`, `type T struct { In; B string }`. -/
def exIn : Ty := .struct 2 [(⟨b!"A", b!"", false, true⟩, .int 64), (⟨b!"B", b!"", false, true⟩, .int 64)]
def exOut : Ty := .struct 3 [(⟨b!"In", b!"", true, true⟩, exIn), (⟨b!"B", b!"", false, true⟩, .str)]

example : (structFields exOut).map (fun f => (f.key, f.index)) = [(b!"a", [0, 0]), (b!"b", [1])] := by kernel_rfl
example : marshal noEnv exOut (.struct [.struct [.int 1, .int 2], .str b!"x"]) = .ok b!"d1:ai1e1:b1:xe" := by kernel_rfl

theorem exOut_ids : IdsOk exOut := by
  have key : ∀ p u, Reach exOut p u → u = exOut ∨ u = exIn := by
    intro p u h
    induction h with
    | here => exact .inl rfl
    | there _ hf hv he ih =>
      obtain ⟨fs, h1, h2⟩ := hf
      rcases ih with rfl | rfl
      · simp only [exOut, target, Ty.under, Ty.struct.injEq] at h1
        obtain ⟨_, rfl⟩ := h1
        rename_i j _ _ _ _
        match j with
        | 0 => simp at h2; exact .inr h2.2.symm
        | 1 => simp at h2; obtain ⟨e, _⟩ := h2; rw [← e] at he; simp [Embeds] at he
        | j + 2 => simp at h2
      · simp only [exIn, target, Ty.under, Ty.struct.injEq] at h1
        obtain ⟨_, rfl⟩ := h1
        rename_i j _ _ _ _
        match j with
        | 0 => simp at h2; obtain ⟨e, _⟩ := h2; rw [← e] at he; simp [Embeds] at he
        | 1 => simp at h2; obtain ⟨e, _⟩ := h2; rw [← e] at he; simp [Embeds] at he
        | j + 2 => simp at h2
  intro p u q w id fs gs hu hw h1 h2
  rcases key _ _ hu with rfl | rfl <;> rcases key _ _ hw with rfl | rfl <;>
    simp only [exOut, exIn, target, Ty.under, Ty.struct.injEq] at h1 h2
  · exact h1.2.symm.trans h2.2
  · omega
  · omega
  · exact h1.2.symm.trans h2.2

example : ∀ p h ft, Cand exOut p h ft → fieldKey h = b!"b" → 1 ≤ p.length := by
  obtain ⟨f, hf, hk⟩ : ∃ f ∈ keyToField exOut, f.key = b!"b" ∧ f.index.length = 1 := by
    refine ⟨⟨false, [1], b!"b", b!"", b!"b", false, .str, ⟨b!"B", b!"", false, true⟩⟩, ?_, rfl, rfl⟩
    have : keyToField exOut = [⟨false, [1], b!"b", b!"", b!"b", false, .str, ⟨b!"B", b!"", false, true⟩⟩,
      ⟨false, [0, 0], b!"a", b!"", b!"a", false, .int 64, ⟨b!"A", b!"", false, true⟩⟩] := by kernel_rfl
    rw [this]; simp
  intro p h ft hc he
  have := (C24_resolved exOut exOut_ids f hf).2 p h ft hc (by rw [he, hk.1])
  omega

example : ∃ f ∈ structFields exOut, f.index = [1] ∧ f.key = b!"b" := by
  refine C24_dominant exOut exOut_ids [1] ⟨b!"B", b!"", false, true⟩ .str
    (.here (id := 3) ⟨_, rfl, rfl⟩ (by simp [Visible]) (by simp [Embeds])) ?_
  intro q h' ft' hc _
  cases hc with
  | here hf hv he =>
    obtain ⟨fs, h1, h2⟩ := hf
    simp only [exOut, target, Ty.under, Ty.struct.injEq] at h1
    obtain ⟨hid, rfl⟩ := h1
    rename_i j
    match j with
    | 0 =>
      simp only [List.getElem?_cons_zero, Option.some.injEq, Prod.mk.injEq] at h2
      obtain ⟨rfl, rfl⟩ := h2
      exact absurd ⟨rfl, ⟨2, _, rfl⟩, rfl⟩ he
    | 1 => exact .inl rfl
    | j + 2 => simp at h2
  | there hf hv he hc' =>
    right
    cases hc' <;> simp

/-! ### C25 -/

theorem benc_length (b : BVal) : 2 ≤ (benc b).length := by
  cases b with
  | int n => simp only [benc, List.length_append, List.length_cons]; omega
  | str s =>
    obtain ⟨c, r, h, _⟩ := decNat_head_digit s.length
    simp only [benc, h, List.length_append, List.length_cons]; omega
  | list vs => simp only [benc, List.length_append, List.length_cons]; omega
  | dict es => simp only [benc, List.length_append, List.length_cons]; omega

/-- **C25** is false: a map with a nil value is written with a key and no value, which is not the encoding of any
bencode value, yet Marshal reports success. -/
theorem C25_wellformed_refuted :
    ∃ (t : Ty) (v : Val) (out : Bytes), GoMaps v ∧ marshal noEnv t v = .ok out ∧ ¬ ∃ b, out = benc b := by
  refine ⟨.map (.ptr .str), .map [(b!"a", .nilPtr)], b!"d1:ae", by simp [GoMaps, GoMapsEs], by kernel_rfl, ?_⟩
  rintro ⟨b, hb⟩
  cases b with
  | int n => simp [benc] at hb
  | str s =>
    obtain ⟨c, r, h, hd⟩ := decNat_head_digit s.length
    simp only [benc, h, List.cons_append, List.cons.injEq] at hb
    rw [← hb.1] at hd
    simp [Digit] at hd
  | list vs => simp [benc] at hb
  | dict es =>
    have hl := congrArg List.length hb
    cases es with
    | nil => simp [benc, bencEs] at hl
    | cons e es =>
      obtain ⟨k, v⟩ := e
      obtain ⟨c, r, h, hd⟩ := decNat_head_digit k.length
      have := benc_length v
      simp only [benc, bencEs, h, List.length_append, List.length_cons, List.length_nil] at hl
      omega

/-- **C25**: worse, a map with two nil values is written as another map, one in which a key of the first is the value of the other. -/
theorem C25_confused_refuted : marshal noEnv (.map (.ptr .str)) (.map [(b!"a", .nilPtr), (b!"b", .nilPtr)]) =
    marshal noEnv (.map (.ptr .str)) (.map [(b!"a", .ptr (.str b!"b"))]) ∧
    marshal noEnv (.map (.ptr .str)) (.map [(b!"a", .nilPtr), (b!"b", .nilPtr)]) = .ok (benc (.dict [(b!"a", .str b!"b")])) :=
  ⟨by kernel_rfl, by kernel_rfl⟩

/-- **C25**: a nil at the top is encoded as nothing at all. -/
theorem C25_nil_top_refuted : marshal noEnv (.ptr .str) .nilPtr = .ok [] ∧ ¬ ∃ b, [] = benc b := by
  refine ⟨by kernel_rfl, ?_⟩
  rintro ⟨b, hb⟩
  have := benc_length b
  rw [← hb] at this
  simp at this

theorem heights_pos {es : List Val} (h : es ≠ []) : 1 ≤ heights es := by
  cases es with
  | nil => exact absurd rfl h
  | cons v vs =>
    have : 0 < v.height := by cases v <;> simp [Val.height]
    simp only [heights]; omega

theorem heights_append (a b : List Val) : heights (a ++ b) = max (heights a) (heights b) := by
  induction a with
  | nil => simp [heights]
  | cons v vs ih => simp [heights, ih, Nat.max_assoc]

/-- **C25**: a nil pointer in a list leaves no trace: the list is encoded as if it were shorter. -/
theorem C25_nil_element_dropped (env : Env) (et : Ty) (het : ∀ id u, et ≠ .custom id u) (a b : List Val) :
    marshal env (.slice (.ptr et)) (.slice (a ++ .nilPtr :: b)) = marshal env (.slice (.ptr et)) (.slice (a ++ b)) := by
  have hnil : ∀ n fl, encode env (n + 1) fl (.ptr et) .nilPtr = E.ok := by
    intro n fl
    rw [encode_kind]
    · rfl
    · cases et <;> simp [UsesMethod]
      exact absurd rfl (het _ _)
    · intro id u h; cases h
  have hel : ∀ n fl, encElems (encode env (n + 1)) fl (.ptr et) (a ++ .nilPtr :: b) =
      encElems (encode env (n + 1)) fl (.ptr et) (a ++ b) := by
    intro n fl
    induction a with
    | nil => simp only [List.nil_append, encElems, hnil]; rfl
    | cons v vs ih => simp only [List.cons_append, encElems, ih]
  have hen : ∀ n fl, encode env (n + 2) fl (.slice (.ptr et)) (.slice (a ++ .nilPtr :: b)) =
      encode env (n + 2) fl (.slice (.ptr et)) (.slice (a ++ b)) := by
    intro n fl
    show nested 108 _ = nested 108 _
    rw [hel]
  unfold marshal encodeTop
  by_cases he : a ++ b = []
  · obtain ⟨rfl, rfl⟩ := List.append_eq_nil_iff.mp he
    have h2 := hen 0 { addr := false }
    have h1 : encode env (0 + 2) { addr := false } (.slice (.ptr et)) (.slice ([] ++ [])) =
      encode env 1 { addr := false } (.slice (.ptr et)) (.slice ([] ++ [])) := rfl
    rw [h1] at h2
    simp only [List.nil_append, Val.height, heights] at h2 ⊢
    rw [← h2]; rfl
  · have hp := heights_pos he
    have hh : (Val.slice (a ++ .nilPtr :: b)).height = (Val.slice (a ++ b)).height := by
      rw [heights_append] at hp
      simp only [Val.height, heights_append, heights]
      omega
    rw [hh]
    obtain ⟨n, hn⟩ : ∃ n, (Val.slice (a ++ b)).height = n + 2 := ⟨heights (a ++ b) - 1, by simp only [Val.height]; omega⟩
    rw [hn, hen]

example : marshal noEnv (.slice (.ptr .str)) (.slice [.nilPtr, .ptr (.str b!"x"), .nilPtr]) = .ok b!"l1:xe" := by kernel_rfl

/-- **C25**, what does hold: for values without nil elements in lists and maps (and not nil at the top) the output is
exactly one well-formed value. -/
theorem C25_wellformed_partial {env : Env} (henv : CanonicalMethods env) {t : Ty} {v : Val} {out : Bytes}
    (h : marshal env t v = .ok out) (hn : NoNil v) (hg : GoMaps v) : ∃ b, out = benc b := by
  obtain ⟨b, d, _, ho, _⟩ := C10_canonical henv h hn hg
  exact ⟨b, ho⟩

/-! ### C26 -/

/-- A sequence of `Encode` calls on one encoder. -/
def encodeAll (env : Env) : List (Ty × Val) → ESt → ESt
  | [], s => s
  | (t, v) :: l, s => encodeAll env l (encodeTop env t v s).2

/-- All the calls succeed. -/
def AllOk (env : Env) : List (Ty × Val) → ESt → Prop
  | [], _ => True
  | (t, v) :: l, s => (encodeTop env t v s).1 = .ok () ∧ AllOk env l (encodeTop env t v s).2

/-- **C26**, what does hold: after any number of successful Encode calls on an encoder, the next one has the same outcome
as on a fresh encoder and appends the same bytes (also those written before an error). -/
theorem C26_reuse_partial (env : Env) (l : List (Ty × Val)) (t : Ty) (v : Val) (h : AllOk env l ⟨[], 0⟩) :
    let s := encodeAll env l ⟨[], 0⟩
    let fresh := encodeTop env t v ⟨[], 0⟩
    encodeTop env t v s = (fresh.1, ⟨s.out ++ fresh.2.out, fresh.2.depth⟩) := by
  have key : ∀ (l : List (Ty × Val)) (s : ESt), s.depth = 0 → AllOk env l s → (encodeAll env l s).depth = 0 := by
    intro l
    induction l with
    | nil => intro s hs _; exact hs
    | cons x l ih =>
      obtain ⟨t, v⟩ := x
      intro s hs ⟨h1, h2⟩
      refine ih _ ?_ h2
      rw [← hs]
      exact (FR.encode env v.height { addr := false } t v).2 s _ (by rw [← h1]; rfl)
  intro s fresh
  have hs : s = ⟨s.out ++ [], 0⟩ := by
    have : s.depth = 0 := key l ⟨[], 0⟩ rfl h
    rw [List.append_nil, ← this]
  have := (FR.encode env v.height { addr := false } t v).1 ⟨[], 0⟩ s.out
  rw [hs]
  simp only [List.append_nil] at this ⊢
  exact this

/-- **C26**: a stream of successful Encodes is the concatenation of the separate Marshals. -/
theorem C26_stream (env : Env) (l : List (Ty × Val)) (outs : List Bytes) (h : l.map (fun x => marshal env x.1 x.2) = outs.map .ok) :
    encodeAll env l ⟨[], 0⟩ = ⟨outs.flatten, 0⟩ := by
  have key : ∀ (l : List (Ty × Val)) (outs : List Bytes) (o : Bytes), l.map (fun x => marshal env x.1 x.2) = outs.map .ok →
      encodeAll env l ⟨o, 0⟩ = ⟨o ++ outs.flatten, 0⟩ := by
    intro l
    induction l with
    | nil => intro outs o h; cases outs with
      | nil => simp [encodeAll]
      | cons _ _ => simp at h
    | cons x l ih =>
      obtain ⟨t, v⟩ := x
      intro outs o h
      cases outs with
      | nil => simp at h
      | cons a outs =>
        simp only [List.map_cons, List.cons.injEq] at h
        obtain ⟨s, hs, ho⟩ := marshal_ok h.1
        have hd := (FR.encode env v.height { addr := false } t v).2 _ _ hs
        have hf := (FR.encode env v.height { addr := false } t v).1 ⟨[], 0⟩ o
        rw [hs] at hf
        simp only [List.append_nil] at hf hd
        unfold encodeAll
        have : encodeTop env t v ⟨o, 0⟩ = (.ok (), ⟨o ++ a, 0⟩) := by
          unfold encodeTop; rw [hf, ho, hd]
        rw [this]
        simp only
        rw [ih outs (o ++ a) h.2]
        simp
  simpa using key l outs [] h

/-- **C26** is false after failures: a thousand failing Encodes of a list with an unsupported element use up the nesting
budget, and then the encoder refuses even an empty list. -/
theorem C26_reuse_refuted :
    ∃ (l : List (Ty × Val)) (t : Ty) (v : Val), encodeTop noEnv t v ⟨[], 0⟩ = (.ok (), ⟨b!"le", 0⟩) ∧
      (encodeTop noEnv t v (encodeAll noEnv l ⟨[], 0⟩)).1 = .err .depth := by
  refine ⟨List.replicate 1000 (.slice .unsupported, .slice [.unsupported]), .slice .str, .slice [], by kernel_rfl, ?_⟩
  have step : ∀ s : ESt, s.depth < 1000 →
      encodeTop noEnv (.slice .unsupported) (.slice [.unsupported]) s = (.err .unsupportedType, ⟨s.out ++ [108], s.depth + 1⟩) := by
    intro s hs
    have : ¬ 1000 < s.depth + 1 := by omega
    simp [encodeTop, Val.height, heights, encode, encKind, nested_run, this, encElems, E.seq, E.write, E.fail]
  have key : ∀ n (s : ESt), s.depth + n ≤ 1000 →
      (encodeAll noEnv (List.replicate n (.slice .unsupported, .slice [.unsupported])) s).depth = s.depth + n := by
    intro n
    induction n with
    | zero => intro s _; rfl
    | succ n ih =>
      intro s hs
      rw [List.replicate_succ]
      unfold encodeAll
      rw [step s (by omega)]
      simp only
      rw [ih _ (by simp only; omega)]
      simp only; omega
  have hd := key 1000 ⟨[], 0⟩ (by simp)
  generalize encodeAll noEnv (List.replicate 1000 (Ty.slice .unsupported, Val.slice [.unsupported])) ⟨[], 0⟩ = s at hd
  simp only [Nat.zero_add] at hd
  have h0 : encodeTop noEnv (.slice .str) (.slice []) s = nested 108 E.ok s := rfl
  rw [h0, nested_run, if_pos (by omega)]

example : AllOk noEnv [(exTy, exVal), (.int 64, .int 5)] ⟨[], 0⟩ := ⟨by kernel_rfl, by kernel_rfl, trivial⟩
example : encodeAll noEnv [(exTy, exVal), (.int 64, .int 5)] ⟨[], 0⟩ = ⟨b!"d1:ai-3e1:md1:ai1e1:bi2eeei5e", 0⟩ := by kernel_rfl

/-! ### What an encoder that has failed can still do -/

/-- What a value does to any encoder that has `p` levels lost: it needs `levels` more. If there are as many (up to 1000) the outcome is `res`, `out` is written, and `lost` more levels are lost;
otherwise the outcome is an error, and the encoder is left with more than 1000 lost levels. -/
structure Cost where
  res : Res Unit
  out : Bytes
  levels : Nat
  lost : Nat

/-- An encoder step has that cost. -/
def Costs (p : E) (c : Cost) : Prop :=
  c.lost ≤ c.levels ∧ (c.res = .ok () → c.lost = 0) ∧
  ∀ s, (c.levels = 0 ∨ s.depth + c.levels ≤ 1000 → p s = (c.res, ⟨s.out ++ c.out, s.depth + c.lost⟩)) ∧
    (c.levels ≠ 0 → 1000 < s.depth + c.levels → ∃ o, p s = (.err .depth, ⟨s.out ++ o, max 1001 (s.depth + 1)⟩))

theorem Costs.ok : Costs E.ok ⟨.ok (), [], 0, 0⟩ := ⟨by simp, by simp, fun s => ⟨fun _ => by simp [E.ok], fun h => absurd rfl h⟩⟩
theorem Costs.write (b : Bytes) : Costs (E.write b) ⟨.ok (), b, 0, 0⟩ := ⟨by simp, by simp, fun s => ⟨fun _ => by simp [E.write], fun h => absurd rfl h⟩⟩
theorem Costs.fail (e : Err) : Costs (E.fail e) ⟨.err e, [], 0, 0⟩ := ⟨by simp, by simp, fun s => ⟨fun _ => by simp [E.fail], fun h => absurd rfl h⟩⟩
theorem Costs.panic : Costs E.panic ⟨.panic, [], 0, 0⟩ := ⟨by simp, by simp, fun s => ⟨fun _ => by simp [E.panic], fun h => absurd rfl h⟩⟩

theorem Costs.seq {a b : E} {c d : Cost} (ha : Costs a c) (hb : Costs b d) : ∃ x, Costs (E.seq a b) x := by
  obtain ⟨cr, co, cd, cl⟩ := c
  obtain ⟨dr, do', dd, dl⟩ := d
  obtain ⟨h1, h2, h3⟩ := ha
  obtain ⟨g1, g2, g3⟩ := hb
  simp only at h1 h2 h3 g1 g2 g3
  cases cr with
  | ok u =>
    cases u
    have hl : cl = 0 := h2 rfl
    subst hl
    refine ⟨⟨dr, co ++ do', max cd dd, dl⟩, by simp only; omega, g2, fun s => ⟨fun h => ?_, fun h0 h => ?_⟩⟩
    · simp only at h ⊢
      unfold E.seq
      rw [(h3 s).1 (by omega)]
      simp only
      rw [(g3 _).1 (by simp only; omega)]
      simp [List.append_assoc]
    · simp only at h h0 ⊢
      unfold E.seq
      by_cases hc : cd ≠ 0 ∧ 1000 < s.depth + cd
      · obtain ⟨o, ho⟩ := (h3 s).2 hc.1 hc.2
        exact ⟨o, by rw [ho]⟩
      · rw [(h3 s).1 (by omega)]
        simp only
        obtain ⟨o, ho⟩ := (g3 ⟨s.out ++ co, s.depth + 0⟩).2 (by omega) (by simp only; omega)
        exact ⟨co ++ o, by rw [ho]; simp [List.append_assoc]⟩
  | err e =>
    refine ⟨⟨.err e, co, cd, cl⟩, h1, by simp, fun s => ⟨fun h => ?_, fun h0 h => ?_⟩⟩
    · unfold E.seq
      rw [(h3 s).1 h]
    · obtain ⟨o, ho⟩ := (h3 s).2 h0 h
      exact ⟨o, by unfold E.seq; rw [ho]⟩
  | panic =>
    refine ⟨⟨.panic, co, cd, cl⟩, h1, by simp, fun s => ⟨fun h => ?_, fun h0 h => ?_⟩⟩
    · unfold E.seq
      rw [(h3 s).1 h]
    · obtain ⟨o, ho⟩ := (h3 s).2 h0 h
      exact ⟨o, by unfold E.seq; rw [ho]⟩

/-- It has some cost. -/
def HasCost (p : E) : Prop := ∃ c, Costs p c

theorem HasCost.ok : HasCost E.ok := ⟨_, .ok⟩
theorem HasCost.write (b : Bytes) : HasCost (E.write b) := ⟨_, .write b⟩
theorem HasCost.fail (e : Err) : HasCost (E.fail e) := ⟨_, .fail e⟩
theorem HasCost.panic : HasCost E.panic := ⟨_, .panic⟩
theorem HasCost.seq {a b : E} : HasCost a → HasCost b → HasCost (E.seq a b) := fun ⟨_, h⟩ ⟨_, g⟩ => h.seq g

theorem HasCost.nested {c : UInt8} {body : E} (hb : HasCost body) : HasCost (nested c body) := by
  obtain ⟨⟨r, o, d, l⟩, h1, h2, h3⟩ := (HasCost.write [c]).seq (hb.seq (HasCost.write [101]))
  simp only at h1 h2 h3
  refine ⟨⟨r, o, d + 1, if r = .ok () then 0 else l + 1⟩, by simp only; split <;> omega, fun h => by simp only at h ⊢; rw [if_pos h], fun s => ⟨fun h => ?_, fun h0 h => ?_⟩⟩
  · simp only at h ⊢
    rw [nested_run, if_neg (by omega), (h3 ⟨s.out, s.depth + 1⟩).1 (by simp only; omega)]
    cases r with
    | ok u => cases u; simp [h2 rfl]
    | err e => simp; omega
    | panic => simp; omega
  · simp only at h ⊢
    rw [nested_run]
    by_cases hd : 1000 < s.depth + 1
    · rw [if_pos hd]
      exact ⟨[], by simp; omega⟩
    · rw [if_neg hd]
      obtain ⟨o, ho⟩ := (h3 ⟨s.out, s.depth + 1⟩).2 (by omega) (by simp only; omega)
      exact ⟨o, by rw [ho]; simp; omega⟩

theorem HasCost.encString (b : Bytes) : HasCost (encString b) := (HasCost.write _).seq ((HasCost.write _).seq (HasCost.write _))

theorem HasCost.encMarshaler (ro : Bool) (m : Val → Res Bytes) (v : Option Val) : HasCost (encMarshaler ro m v) := by
  unfold Bencode.encMarshaler
  cases ro with
  | true => exact HasCost.panic
  | false =>
    cases v with
    | none => exact HasCost.panic
    | some w =>
      simp only [Bool.false_eq_true, if_false]
      cases m w with
      | ok c => exact HasCost.write _
      | err e => exact HasCost.fail _
      | panic => exact HasCost.panic

theorem HasCost.encode (env : Env) : ∀ n fl t v, HasCost (encode env n fl t v) := by
  intro n
  induction n with
  | zero => intro fl t v; exact HasCost.fail _
  | succ n ih =>
    have hL : ∀ fl t es, HasCost (encElems (Bencode.encode env n) fl t es) := by
      intro fl t es
      induction es with
      | nil => exact HasCost.ok
      | cons v vs ihv => exact (ih _ _ _).seq ihv
    have hE : ∀ t es, HasCost (encEntries (Bencode.encode env n) t es) := by
      intro t es
      induction es with
      | nil => exact HasCost.ok
      | cons v vs ihv => exact (HasCost.encString _).seq ((ih _ _ _).seq ihv)
    have hF : ∀ fl t v fs, HasCost (encFields (Bencode.encode env n) fl t v fs) := by
      intro fl t v fs
      induction fs with
      | nil => exact HasCost.ok
      | cons f fs ihf =>
        unfold encFields
        cases fieldByIndex f.index fl t v with
        | none => exact HasCost.panic
        | some x =>
          dsimp only
          split
          · exact ihf
          · split
            · exact ihf
            · exact (HasCost.encString _).seq ((ih _ _ _).seq ihf)
    have hK : ∀ fl t v, HasCost (encKind (Bencode.encode env n) fl t v) := by
      intro fl t v
      unfold encKind
      split
      · exact HasCost.encString _
      · exact (HasCost.write _).seq ((HasCost.write _).seq (HasCost.write _))
      · exact (HasCost.write _).seq ((HasCost.write _).seq (HasCost.write _))
      · exact HasCost.encString _
      · exact HasCost.encString _
      · exact HasCost.ok
      · exact (hL _ _ _).nested
      · exact (hL _ _ _).nested
      · exact HasCost.ok
      · exact (hE _ _).nested
      · exact HasCost.ok
      · exact HasCost.fail _
      · exact (hF _ _ _ _).nested
      · exact HasCost.ok
      · exact HasCost.ok
      · exact ih _ _ _
      · exact ih _ _ _
      · exact HasCost.ok
      · exact ih _ _ _
      · exact HasCost.fail _
      · exact HasCost.panic
    intro fl t v
    unfold Bencode.encode
    split
    · split
      · exact HasCost.encMarshaler _ _ _
      · exact hK _ _ _
    · split
      · exact HasCost.encMarshaler _ _ _
      · exact hK _ _ _
    · split
      · exact HasCost.encMarshaler _ _ _
      · exact hK _ _ _
    · exact hK _ _ _

/-- C26, what is true after any calls, also failed ones: every value has a cost that does not depend on the encoder, and after any sequence of calls, with `p` levels lost, the next Encode succeeds, or fails,
just as on a fresh encoder, unless its `levels` do not fit: then it is refused. Missing: that it is never refused (C26_reuse_refuted). -/
theorem C26_budget_partial (env : Env) (t : Ty) (v : Val) : ∃ c : Cost, (c.res = .ok () → c.lost = 0) ∧ c.lost ≤ c.levels ∧ ∀ l : List (Ty × Val),
    let s := encodeAll env l ⟨[], 0⟩
    (c.levels = 0 ∨ s.depth + c.levels ≤ 1000 → encodeTop env t v s = (c.res, ⟨s.out ++ c.out, s.depth + c.lost⟩)) ∧
    (c.levels ≠ 0 → 1000 < s.depth + c.levels → (encodeTop env t v s).1 = .err .depth ∧ 1000 < (encodeTop env t v s).2.depth) := by
  obtain ⟨c, h1, h2, h3⟩ := HasCost.encode env v.height { addr := false } t v
  refine ⟨c, h2, h1, fun l => ⟨(h3 _).1, fun h0 h => ?_⟩⟩
  obtain ⟨o, ho⟩ := (h3 (encodeAll env l ⟨[], 0⟩)).2 h0 h
  unfold encodeTop
  rw [ho]
  exact ⟨rfl, by simp only; omega⟩

/-- A failed Encode of a list in a list costs two levels; after it there are 998 left. -/
example : encodeTop noEnv (.slice (.slice .unsupported)) (.slice [.slice [.unsupported]]) ⟨[], 0⟩ = (.err .unsupportedType, ⟨b!"ll", 2⟩) ∧
    encodeTop noEnv (.slice .str) (.slice []) (encodeAll noEnv [(.slice (.slice .unsupported), .slice [.slice [.unsupported]])] ⟨[], 0⟩) = (.ok (), ⟨b!"llle", 2⟩) := ⟨by kernel_rfl, by kernel_rfl⟩

end Drip.Bencode
