import Verif.Props.TorrentWrite
import Verif.Spec.Names
/-
C116: the names of fields.
-/

namespace Drip.Bencode
open Spec Metainfo

theorem lower_byte (a : UInt8) : (a ∈ b!"ABCDEFGHIJKLMNOPQRSTUVWXYZ" ∧ (65 ≤ a ∧ a ≤ 90) ∧ (a + 32).toNat = a.toNat + 32) ∨
    (a ∉ b!"ABCDEFGHIJKLMNOPQRSTUVWXYZ" ∧ ¬ (65 ≤ a ∧ a ≤ 90)) := by
  have h : ∀ n < 256, (UInt8.ofNat n ∈ b!"ABCDEFGHIJKLMNOPQRSTUVWXYZ" ∧ (65 ≤ UInt8.ofNat n ∧ UInt8.ofNat n ≤ 90) ∧ (UInt8.ofNat n + 32).toNat = (UInt8.ofNat n).toNat + 32) ∨
      (UInt8.ofNat n ∉ b!"ABCDEFGHIJKLMNOPQRSTUVWXYZ" ∧ ¬ (65 ≤ UInt8.ofNat n ∧ UInt8.ofNat n ≤ 90)) := by decide +kernel
  have := h a.toNat (UInt8.toNat_lt a)
  rwa [UInt8.ofNat_toNat] at this

theorem lower_iff {s k : Bytes} : Lower s k ↔ toLower s = k := by
  unfold Lower toLower
  constructor
  · rintro ⟨hl, h⟩
    refine List.ext_getElem (by simpa using hl) fun i h1 h2 => ?_
    simp only [List.length_map] at h1
    have := h i s[i] k[i] (List.getElem?_eq_getElem h1) (List.getElem?_eq_getElem h2)
    rw [List.getElem_map]
    rcases lower_byte s[i] with ⟨a, b, c⟩ | ⟨a, b⟩
    · rw [if_pos (by simpa using b)]
      rcases this with ⟨_, e⟩ | ⟨e, _⟩
      · exact UInt8.toNat_inj.mp (by omega)
      · exact absurd a e
    · rw [if_neg (by simpa using b)]
      rcases this with ⟨e, _⟩ | ⟨_, e⟩
      · exact absurd e a
      · exact e.symm
  · rintro rfl
    refine ⟨by simp, fun i a b h1 h2 => ?_⟩
    rw [List.getElem?_map, h1] at h2
    simp only [Option.map_some, Option.some.injEq] at h2
    subst h2
    rcases lower_byte a with ⟨x, y, z⟩ | ⟨x, y⟩
    · rw [if_pos (by simpa using y)]; exact .inl ⟨x, z⟩
    · rw [if_neg (by simpa using y)]; exact .inr ⟨x, rfl⟩

theorem tagName_iff {tag name : Bytes} : TagName tag name ↔ tag.takeWhile (· ≠ 44) = name := by
  unfold TagName
  induction tag generalizing name with
  | nil =>
    constructor
    · rintro ⟨_, rfl | ⟨r, h⟩⟩
      · rfl
      · have := congrArg List.length h; simp at this
    · rintro rfl; exact ⟨by simp, .inl rfl⟩
  | cons b tag ih =>
    by_cases hb : b = 44
    · subst hb
      rw [List.takeWhile_cons_of_neg (by simp)]
      constructor
      · rintro ⟨h, rfl | ⟨r, e⟩⟩
        · simp at h
        · cases name with
          | nil => rfl
          | cons c name => simp at e; exact absurd (by simp [e.1]) h
      · rintro rfl; exact ⟨by simp, .inr ⟨tag, rfl⟩⟩
    · rw [List.takeWhile_cons_of_pos (by simpa using hb)]
      constructor
      · rintro ⟨h, hh⟩
        cases name with
        | nil =>
          rcases hh with e | ⟨r, e⟩
          · cases e
          · simp at e; exact absurd e.1 hb
        | cons c name =>
          have : b = c ∧ 44 ∉ name ∧ (tag = name ∨ ∃ r, tag = name ++ 44 :: r) := by
            simp only [List.mem_cons, not_or] at h
            rcases hh with e | ⟨r, e⟩
            · simp at e; exact ⟨e.1, h.2, .inl e.2⟩
            · simp at e; exact ⟨e.1, h.2, .inr ⟨r, e.2⟩⟩
          rw [this.1, ih.mp this.2]
      · rintro rfl
        obtain ⟨h1, h2⟩ := ih.mpr rfl
        refine ⟨by simp only [List.mem_cons, not_or]; exact ⟨fun e => hb e.symm, h1⟩, ?_⟩
        rcases h2 with h2 | ⟨r, h2⟩
        · exact .inl (by rw [← h2])
        · exact .inr ⟨r, by conv => { lhs; rw [h2] }; rfl⟩

theorem lower_nil {s : Bytes} : toLower s = [] ↔ s = [] := by simp [toLower]

theorem key_iff {h : Hdr} {k : Bytes} : Key h k ↔ fieldKey h = k := by
  unfold Key fieldKey Spec.tagName
  simp only [tagName_iff, lower_iff, exists_eq_left', lower_nil]
  generalize List.takeWhile (fun x => decide (x ≠ 44)) h.tag = n
  split
  · next e => simp [e]
  · next e => simp [e]

theorem stored_iff {h : Hdr} (ha : h.anon = false) : Stored h ↔ ¬ Hidden h := by
  unfold Stored Hidden
  cases h.exported <;> simp [ha]

theorem ordinary_plain {fs : List (Hdr × Ty)} (h : Ordinary fs) : PlainStruct fs := by
  refine ⟨fun f hf => ?_, ?_⟩
  · by_cases hh : Hidden f.1
    · exact .inl hh
    · have hs := (stored_iff (h.flat f hf)).mpr hh
      obtain ⟨h1, h2, h3⟩ := h.named f hf
      refine .inr ⟨hs.1, h.flat f hf, hs.2, ?_, ?_⟩
      · unfold fieldKey
        split
        · rwa [Ne, lower_nil]
        · assumption
      · unfold fieldKey
        split
        · simpa [toLower] using h2
        · simp only [Spec.tagName, toLower, List.length_map]
          exact Nat.le_trans (List.Sublist.length_le (List.takeWhile_sublist _)) h3
  · unfold shown List.Nodup
    rw [List.pairwise_map, List.pairwise_filter, List.pairwise_iff_getElem]
    intro i j hi hj hlt h1 h2 e
    have hs1 := (stored_iff (h.flat _ (List.getElem_mem hi))).mpr (by simpa using h1)
    have hs2 := (stored_iff (h.flat _ (List.getElem_mem hj))).mpr (by simpa using h2)
    have := h.distinct i j _ _ _ (List.getElem?_eq_getElem hi) (List.getElem?_eq_getElem hj) hs1 hs2 (key_iff.mpr e) (key_iff.mpr rfl)
    omega

theorem leaf_at {fl : Flags} {id i : Nat} {fs : List (Hdr × Ty)} {vs : List Val} {hd : Hdr} {ft : Ty} (hi : fs[i]? = some (hd, ft)) (ha : hd.anon = false)
    (hl : vs.length = fs.length) : ∃ fv, vs[i]? = some fv ∧
    (∀ ffl ft' fv', At fl (.struct id fs) (.struct vs) [i] ffl ft' fv' ↔ ffl = { addr := fl.addr } ∧ ft' = ft ∧ fv' = fv) ∧
    (Omitted fl (.struct id fs) (.struct vs) (leafInfo [] i hd ft) ↔ (Nil fv ∨ (OmitEmpty hd ∧ EmptyVal fv))) := by
  obtain ⟨hlt, _⟩ := List.getElem?_eq_some_iff.mp hi
  have hv : vs[i]? = some vs[i] := List.getElem?_eq_getElem (by omega)
  obtain ⟨h1, h2⟩ := omitted_at (fl := fl) (id := id) hi hv ha
  refine ⟨vs[i], hv, fun ffl ft' fv' => ⟨fun h => ?_, ?_⟩, by rw [h2, omitEmpty_iff]⟩
  · have e1 := fieldByIndex_at h [] (.inl rfl)
    have e2 := fieldByIndex_at h1 [] (.inl rfl)
    rw [e1] at e2
    simpa using e2
  · rintro ⟨rfl, rfl, rfl⟩; exact h1

theorem denotesF_mem {env : Env} {id : Nat} {fs : List (Hdr × Ty)} {vs : List Val} (hl : vs.length = fs.length) : ∀ (L : List FieldInfo)
    {es : List (Bytes × BVal)} {d : Nat}, (∀ f ∈ L, ∃ i hd ft, fs[i]? = some (hd, ft) ∧ hd.anon = false ∧ f = leafInfo [] i hd ft) →
    DenotesF env { addr := false } (.struct id fs) (.struct vs) L es d → d ≤ 1000 → ∀ k c, (k, c) ∈ es ↔ ∃ i hd ft fv, leafInfo [] i hd ft ∈ L ∧ fs[i]? = some (hd, ft) ∧
      vs[i]? = some fv ∧ fieldKey hd = k ∧ ¬ Nil fv ∧ ¬ (OmitEmpty hd ∧ EmptyVal fv) ∧ marshal env ft fv = .ok (benc c) := by
  intro L
  induction L with
  | nil => intro es d _ h _ k c; cases h; simp
  | cons f L ih =>
    intro es d hL h hle k c
    obtain ⟨i, hd, ft, hi, ha, rfl⟩ := hL f (by simp)
    obtain ⟨fv, hv, hat, hom⟩ := leaf_at (fl := { addr := false }) (id := id) hi ha hl
    have hidx : (leafInfo [] i hd ft).index = [i] := rfl
    have head : ∀ {j hd' ft'}, leafInfo [] j hd' ft' = leafInfo [] i hd ft → j = i ∧ hd' = hd ∧ ft' = ft := by
      intro j hd' ft' e
      have h1 := congrArg FieldInfo.index e
      have h2 := congrArg FieldInfo.hdr e
      have h3 := congrArg FieldInfo.ty e
      simp only [leafInfo, List.nil_append, List.cons.injEq, and_true] at h1 h2 h3
      exact ⟨h1, h2, h3⟩
    cases h with
    | skip ho hr =>
      rw [ih (fun g hg => hL g (by simp [hg])) hr (by omega) k c]
      constructor
      · rintro ⟨j, hd', ft', fv', h1, h2⟩; exact ⟨j, hd', ft', fv', by simp [h1], h2⟩
      · rintro ⟨j, hd', ft', fv', h1, h2, h3, h4, h5, h6, h7⟩
        rcases List.mem_cons.mp h1 with e | h1
        · obtain ⟨rfl, rfl, rfl⟩ := head e
          rw [hv] at h3; cases h3
          exact (hom.mp ho).elim (absurd · h5) (absurd · h6)
        · exact ⟨j, hd', ft', fv', h1, h2, h3, h4, h5, h6, h7⟩
    | cons hA ho hd1 hr =>
      rw [hidx] at hA
      obtain ⟨rfl, rfl, rfl⟩ := (hat _ _ _).mp hA
      have ho' := fun h => ho (hom.mpr h)
      rw [List.mem_cons, ih (fun g hg => hL g (by simp [hg])) hr (by omega) k c]
      constructor
      · rintro (e | ⟨j, hd', ft', fv', h1, h2⟩)
        · cases e; exact ⟨i, hd, _, _, by simp, hi, hv, rfl, fun h => ho' (.inl h), fun h => ho' (.inr h), (C20_limit hd1).1 (by omega)⟩
        · exact ⟨j, hd', ft', fv', by simp [h1], h2⟩
      · rintro ⟨j, hd', ft', fv', h1, h2, h3, h4, h5, h6, h7⟩
        rcases List.mem_cons.mp h1 with e | h1
        · obtain ⟨rfl, rfl, rfl⟩ := head e
          rw [hv] at h3; cases h3
          rw [(C20_limit hd1).1 (by omega)] at h7
          injection h7 with h7
          obtain ⟨rfl, -⟩ := benc_unique _ c [] [] (by simpa using h7)
          exact .inl (by rw [← h4]; rfl)
        · exact .inr ⟨j, hd', ft', fv', h1, h2, h3, h4, h5, h6, h7⟩

/-- **C116**, with keys in lower case. A struct passed by value is written as a dictionary with one entry for each field that is stored, not nil and
not left out for being empty; its key is the name in the tag or else the name of the field, in lower case. -/
theorem C116_writes_partial {env : Env} (henv : CanonicalMethods env) (id : Nat) (fs : List (Hdr × Ty)) (vs : List Val) (hf : Ordinary fs) (hl : vs.length = fs.length)
    (out : Bytes) (h : marshal env (.struct id fs) (.struct vs) = .ok out) (hn : NoNil (.struct vs)) (hg : GoMaps (.struct vs)) :
    ∃ es, out = benc (.dict es) ∧ KeysIncreasing es ∧ ∀ k c, (k, c) ∈ es ↔ ∃ (i : Nat) (hd : Hdr) (ft : Ty) (fv : Val), fs[i]? = some (hd, ft) ∧ vs[i]? = some fv ∧ Stored hd ∧ Key hd k ∧
      ¬ Nil fv ∧ ¬ (OmitEmpty hd ∧ EmptyVal fv) ∧ marshal env ft fv = .ok (benc c) := by
  have hp := ordinary_plain hf
  obtain ⟨b, d, hd, rfl, hs, hle⟩ := C10_canonical henv h hn hg
  cases hd with
  | method hm => cases hm
  | kind _ hk =>
    cases hk with
    | struct hF =>
      refine ⟨_, rfl, hs.1, fun k c => ?_⟩
      rw [denotesF_mem hl _ (fun f hm => by
        obtain ⟨i, hd, ft, h1, h2, rfl⟩ := (mem_structFields_plain hp).mp hm
        exact ⟨i, hd, ft, h1, hf.flat _ (List.mem_of_getElem? h1), rfl⟩) hF (by omega) k c]
      constructor
      · rintro ⟨i, hd, ft, fv, h1, h2, h3, h4, h5, h6, h7⟩
        obtain ⟨j, hd', ft', h8, h9, e⟩ := (mem_structFields_plain hp).mp h1
        have : hd = hd' := congrArg FieldInfo.hdr e
        subst this
        exact ⟨i, hd, ft, fv, h2, h3, (stored_iff (hf.flat _ (List.mem_of_getElem? h2))).mpr h9, key_iff.mpr h4, h5, h6, h7⟩
      · rintro ⟨i, hd, ft, fv, h2, h3, h8, h4, h5, h6, h7⟩
        exact ⟨i, hd, ft, fv, (mem_structFields_plain hp).mpr ⟨i, hd, ft, h2, (stored_iff (hf.flat _ (List.mem_of_getElem? h2))).mp h8, rfl⟩, h2, h3,
          key_iff.mp h4, h5, h6, h7⟩

/-- **C116**, with keys in lower case. A zeroed struct is read from exactly the dictionaries with increasing keys whose entries with keys of fields can be
read into those fields; the others are skipped, and fields without entry stay. -/
theorem C116_reads_partial {env : Env} (henv : env.Sane) (id : Nat) (fs : List (Hdr × Ty)) (hf : Ordinary fs) (bs : Bytes) (w : Val) :
    unmarshal env (.struct id fs) (zero (.struct id fs)) bs = .ok w ↔ ∃ es rest, bs = (CTree.dict es).print ++ rest ∧ SynEs es ∧ KeysFrom [] es ∧
      (∀ l k t, (l, k, t) ∈ es → (∀ (i : Nat) (hd : Hdr) (ft : Ty), fs[i]? = some (hd, ft) → Stored hd → ¬ Key hd k) → t.Valid true (2 ^ 63)) ∧
      ∃ ws, w = .struct ws ∧ ws.length = fs.length ∧ ∀ (i : Nat) (hd : Hdr) (ft : Ty), fs[i]? = some (hd, ft) → ∃ x, ws[i]? = some x ∧
        (¬ Stored hd → x = zero ft) ∧
        (∀ k, Stored hd → Key hd k → Entry es k (zero ft) (fun t x => (∀ et, ft ≠ .ptr et) ∧ unmarshal env ft (zero ft) t.print = .ok x ∨
          ∃ et y, ft = .ptr et ∧ x = .ptr y ∧ unmarshal env et (zero et) t.print = .ok y) x) := by
  have hp := ordinary_plain hf
  have ud : ∀ {t : CTree}, Syn t → ∀ (ty : Ty) (x : Val), unmarshal env ty (zero ty) t.print = .ok x ↔ D env { addr := true } ty (zero ty) t.print x := by
    intro t ht ty x
    rw [unmarshal_D henv]
    constructor
    · rintro ⟨tr, rest, h1, h2, h3⟩
      obtain ⟨rfl, -⟩ := print_unique t tr ht (Valid.syn tr h1) [] rest (by simpa using h2)
      exact h3
    · intro h
      obtain ⟨tr, h1, h2⟩ := h.tree
      obtain ⟨rfl, -⟩ := print_unique t tr ht (Valid.syn tr h1) [] [] (by simpa using h2)
      exact ⟨t, [], h1, by simp, h⟩
  have np : ∀ {t : Ty}, NotPtr t ↔ ∀ et, t ≠ .ptr et := by
    intro t
    cases t <;> simp [NotPtr]
  have key : ∀ {es : List (Bytes × Bytes × CTree)}, SynEs es → (D env { addr := true } (.struct id fs) (zero (.struct id fs)) (CTree.dict es).print w ↔ KeysFrom [] es ∧
      (∀ l k t, (l, k, t) ∈ es → (∀ (i : Nat) (hd : Hdr) (ft : Ty), fs[i]? = some (hd, ft) → Stored hd → ¬ Key hd k) → t.Valid true (2 ^ 63)) ∧
      ∃ ws, w = .struct ws ∧ ws.length = fs.length ∧ ∀ (i : Nat) (hd : Hdr) (ft : Ty), fs[i]? = some (hd, ft) → ∃ x, ws[i]? = some x ∧
        (¬ Stored hd → x = zero ft) ∧
        (∀ k, Stored hd → Key hd k → Entry es k (zero ft) (fun t x => (∀ et, ft ≠ .ptr et) ∧ unmarshal env ft (zero ft) t.print = .ok x ∨
          ∃ et y, ft = .ptr et ∧ x = .ptr y ∧ unmarshal env et (zero et) t.print = .ok y) x)) := by
    intro es hs
    rw [struct_reads hp hs]
    have hst : ∀ {i : Nat} {hd : Hdr} {ft : Ty}, fs[i]? = some (hd, ft) → (Stored hd ↔ ¬ Hidden hd) := fun h => stored_iff (hf.flat _ (List.mem_of_getElem? h))
    refine and_congr Iff.rfl (and_congr ?_ ?_)
    · refine forall_congr' fun l => forall_congr' fun k => forall_congr' fun t => forall_congr' fun hm => ?_
      refine imp_congr ?_ Iff.rfl
      refine forall_congr' fun i => forall_congr' fun hd => forall_congr' fun ft => forall_congr' fun hi => ?_
      rw [hst hi, key_iff]
    · refine exists_congr fun ws => and_congr Iff.rfl (and_congr Iff.rfl ?_)
      refine forall_congr' fun i => forall_congr' fun hd => forall_congr' fun ft => forall_congr' fun hi => ?_
      refine exists_congr fun x => and_congr Iff.rfl (and_congr ?_ ?_)
      · rw [hst hi, Classical.not_not]
      · simp only [key_iff, hst hi]
        have : ∀ k, Entry es k (zero ft) (fun t => FieldReads env ft t.print) x ↔ Entry es k (zero ft) (fun t x => (∀ et, ft ≠ .ptr et) ∧ unmarshal env ft (zero ft) t.print = .ok x ∨
            ∃ et y, ft = .ptr et ∧ x = .ptr y ∧ unmarshal env et (zero et) t.print = .ok y) x := by
          intro k
          refine entry_congr hs fun t ht => ?_
          unfold FieldReads
          simp only [np, ud ht]
        constructor
        · rintro h k h1 rfl; exact (this _).mp (h h1)
        · intro h h1; exact (this _).mpr (h _ h1 rfl)
  rw [unmarshal_D henv]
  constructor
  · rintro ⟨tr, rest, h1, rfl, h3⟩
    obtain ⟨es', e, h6⟩ := D.struct_inv h3
    obtain ⟨es, rfl, hv⟩ := h6.valid
    rw [entries_textEs] at e
    have hs : SynEs es := Valid.syn (.dict es) hv
    have e' : tr.print = (CTree.dict es).print := by rw [e]; rfl
    rw [e'] at h3
    exact ⟨es, rest, by rw [e'], hs, (key hs).mp h3⟩
  · rintro ⟨es, rest, rfl, hs, h⟩
    have h3 := (key hs).mpr h
    obtain ⟨tr, htr, e⟩ := h3.tree
    exact ⟨tr, rest, htr, by rw [e], by rw [← e]; exact h3⟩

/-- A struct with a field for each way to name one. -/
def exNames : List (Hdr × Ty) := [(⟨b!"PieceLength", b!"", false, true⟩, .int 64), (⟨b!"Name", b!"title,omitempty", false, true⟩, .str),
  (⟨b!"Secret", b!"-", false, true⟩, .str), (⟨b!"hidden", b!"shown", false, false⟩, .str), (⟨b!"Dash", b!"-,", false, true⟩, .int 64)]

instance (h : Hdr) : Decidable (Stored h) := inferInstanceAs (Decidable (_ ∧ _))

theorem exNames_ordinary : Ordinary exNames := by
  refine ⟨by decide +kernel, by decide +kernel, fun i j f g k hi hj sf sg kf kg => ?_⟩
  rw [key_iff] at kf kg
  have key : ∀ i : Fin 5, ∀ j : Fin 5, Stored exNames[i].1 → Stored exNames[j].1 → fieldKey exNames[i].1 = fieldKey exNames[j].1 → i.val = j.val := by decide +kernel
  obtain ⟨h1, rfl⟩ := List.getElem?_eq_some_iff.mp hi
  obtain ⟨h2, rfl⟩ := List.getElem?_eq_some_iff.mp hj
  exact key ⟨i, h1⟩ ⟨j, h2⟩ sf sg (kf.trans kg.symm)

example : ∃ es, b!"d1:-i7e11:piecelengthi5ee" = benc (.dict es) ∧ (b!"piecelength", .int 5) ∈ es := by
  obtain ⟨es, h1, -, h2⟩ := C116_writes_partial noEnv_canonical 1 exNames [.int 5, .str [], .str b!"s", .str b!"h", .int 7] exNames_ordinary rfl
    b!"d1:-i7e11:piecelengthi5ee" (by kernel_rfl) (by simp [NoNil, NoNilFs]) (by simp [GoMaps, GoMapss])
  exact ⟨es, h1, (h2 _ _).mpr ⟨0, _, _, _, rfl, rfl, by decide +kernel, key_iff.mpr (by decide +kernel), by simp [Nil], by simp [EmptyVal], by kernel_rfl⟩⟩

example : marshal noEnv (.struct 1 exNames) (.struct [.int 5, .str [], .str b!"s", .str b!"h", .int 7]) = .ok b!"d1:-i7e11:piecelengthi5ee" ∧
    unmarshal noEnv (.struct 1 exNames) (zero (.struct 1 exNames)) b!"d11:piecelengthi5e6:secret1:s5:shown1:h5:title1:te" =
      .ok (.struct [.int 5, .str b!"t", .str [], .str [], .int 0]) := ⟨by kernel_rfl, by kernel_rfl⟩

/-- **C116 is false** for names with capital letters in tags: they are neither written nor read as they are. -/
theorem C116_capitals_refuted : (∃ k, TagName b!"infoHash" k ∧ k = b!"infoHash") ∧
    marshal noEnv (.struct 1 [(⟨b!"X", b!"infoHash", false, true⟩, .int 64)]) (.struct [.int 5]) = .ok b!"d8:infohashi5ee" ∧
    unmarshal noEnv (.struct 1 [(⟨b!"X", b!"infoHash", false, true⟩, .int 64)]) (.struct [.int 0]) b!"d8:infoHashi5ee" = .ok (.struct [.int 0]) :=
  ⟨⟨_, ⟨by decide, .inl rfl⟩, rfl⟩, by kernel_rfl, by kernel_rfl⟩

end Drip.Bencode
