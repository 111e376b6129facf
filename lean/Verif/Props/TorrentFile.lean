import Verif.Lemmas.TorrentFile
/-
C112: which torrent files are read, and what is read from them.
-/

namespace Drip.Metainfo
open Bencode Spec

variable {env : Env}

theorem synEs_mem {es : List (Bytes × Bytes × CTree)} (h : SynEs es) : ∀ {l k t}, (l, k, t) ∈ es → Syn t := by
  induction es with
  | nil => intro _ _ _ h; simp at h
  | cons e es ih =>
    obtain ⟨l', k', t'⟩ := e
    intro l k t hm
    rcases List.mem_cons.mp hm with e | hm
    · cases e; exact h.2.1
    · exact ih h.2.2 hm

theorem entry_congr {es : List (Bytes × Bytes × CTree)} (hs : SynEs es) {k : Bytes} {z x : Val} {R S : CTree → Val → Prop} (h : ∀ t, Syn t → (R t x ↔ S t x)) :
    Entry es k z R x ↔ Entry es k z S x := by
  unfold Entry
  refine or_congr Iff.rfl ⟨?_, ?_⟩
  · rintro ⟨l, t, h1, h2⟩; exact ⟨l, t, h1, (h t (synEs_mem hs h1)).mp h2⟩
  · rintro ⟨l, t, h1, h2⟩; exact ⟨l, t, h1, (h t (synEs_mem hs h1)).mpr h2⟩

theorem field_plain {ft : Ty} {R : CTree → Val → Prop} (hn : NotPtr ft) (h : ∀ t, Syn t → ∀ x, D env { addr := true } ft (zero ft) t.print x ↔ R t x)
    (t : CTree) (hs : Syn t) (x : Val) : FieldReads env ft t.print x ↔ R t x := by
  rw [← h t hs x]
  constructor
  · rintro (⟨_, h⟩ | ⟨et, y, rfl, _, _⟩)
    · exact h
    · exact absurd hn (by simp [NotPtr])
  · intro h; exact .inl ⟨hn, h⟩

theorem field_ptr {et : Ty} {R : CTree → Val → Prop} (h : ∀ t, Syn t → ∀ x, D env { addr := true } et (zero et) t.print x ↔ R t x)
    (t : CTree) (hs : Syn t) (x : Val) : FieldReads env (.ptr et) t.print x ↔ ∃ y, R t y ∧ x = .ptr y := by
  constructor
  · rintro (⟨h, _⟩ | ⟨et, y, e, rfl, h'⟩)
    · exact absurd h (by simp [NotPtr])
    · cases e; exact ⟨y, (h t hs y).mp h', rfl⟩
  · rintro ⟨y, h', rfl⟩; exact .inr ⟨et, y, rfl, rfl, (h t hs y).mpr h'⟩

/-- The entries of an info dictionary. -/
def InfoReads (es : List (Bytes × Bytes × CTree)) (pl ps pr nm ln md fl : Val) : Prop :=
  Entry es b!"piece length" (.int 0) IsInt pl ∧ Entry es b!"pieces" .nilSlice IsPieces ps ∧ Entry es b!"private" (.int 0) IsInt pr ∧
  Entry es b!"name" (.str []) IsStr nm ∧ Entry es b!"length" (.int 0) IsInt ln ∧ Entry es b!"md5sum" (.str []) IsStr md ∧
  Entry es b!"files" .nilSlice (IsList fun _ _ => False) fl

theorem reads_infoStruct {es : List (Bytes × Bytes × CTree)} (hv : CV (.dict es)) {w : Val} :
    D innerEnv { addr := true } infoStruct (zero infoStruct) (CTree.dict es).print w ↔
      ∃ pl ps pr nm ln md fl, InfoReads es pl ps pr nm ln md fl ∧ w = .struct [zero hashTy, pl, ps, pr, nm, ln, md, fl] := by
  have hs : SynEs es := Valid.syn _ hv
  unfold infoStruct
  rw [struct_reads infoFields_plain hs]
  have e1 : ∀ {k x}, Entry es k (.int 0) (fun t => FieldReads innerEnv (.int 64) t.print) x ↔ Entry es k (.int 0) IsInt x :=
    entry_congr hs fun t ht => field_plain (by trivial) (fun t ht x => reads_int ht) t ht _
  have e2 : ∀ {k x}, Entry es k .nilSlice (fun t => FieldReads innerEnv piecesTy t.print) x ↔ Entry es k .nilSlice IsPieces x :=
    entry_congr hs fun t ht => field_plain (by trivial) (fun t ht x => reads_pieces rfl ht) t ht _
  have e3 : ∀ {k x}, Entry es k (.str []) (fun t => FieldReads innerEnv .str t.print) x ↔ Entry es k (.str []) IsStr x :=
    entry_congr hs fun t ht => field_plain (by trivial) (fun t ht x => reads_str ht) t ht _
  have e4 : ∀ {k x}, Entry es k .nilSlice (fun t => FieldReads innerEnv (.slice (.ptr fileTy)) t.print) x ↔
      Entry es k .nilSlice (IsList fun _ _ => False) x :=
    entry_congr hs fun t ht => field_plain (by trivial) (fun t ht x => reads_files ht) t ht _
  constructor
  · rintro ⟨-, -, ws, rfl, hl, hf⟩
    match ws, hl with
    | [w0, w1, w2, w3, w4, w5, w6, w7], _ =>
      obtain ⟨x0, h0, a0, -⟩ := hf 0 _ _ rfl
      obtain ⟨x1, h1, -, a1⟩ := hf 1 _ _ rfl
      obtain ⟨x2, h2, -, a2⟩ := hf 2 _ _ rfl
      obtain ⟨x3, h3, -, a3⟩ := hf 3 _ _ rfl
      obtain ⟨x4, h4, -, a4⟩ := hf 4 _ _ rfl
      obtain ⟨x5, h5, -, a5⟩ := hf 5 _ _ rfl
      obtain ⟨x6, h6, -, a6⟩ := hf 6 _ _ rfl
      obtain ⟨x7, h7, -, a7⟩ := hf 7 _ _ rfl
      cases h0; cases h1; cases h2; cases h3; cases h4; cases h5; cases h6; cases h7
      refine ⟨w1, w2, w3, w4, w5, w6, w7, ⟨e1.mp (a1 (by decide +kernel)), e2.mp (a2 (by decide +kernel)), e1.mp (a3 (by decide +kernel)),
        e3.mp (a4 (by decide +kernel)), e1.mp (a5 (by decide +kernel)), e3.mp (a6 (by decide +kernel)), e4.mp (a7 (by decide +kernel))⟩, ?_⟩
      rw [a0 (by decide +kernel)]
  · rintro ⟨pl, ps, pr, nm, ln, md, fl, ⟨a1, a2, a3, a4, a5, a6, a7⟩, rfl⟩
    refine ⟨keysFrom_of_valid hv, fun l k t hm _ => valid_of_mem hv hm, _, rfl, rfl, ?_⟩
    intro i hd ft hi
    match i with
    | 0 => cases hi; exact ⟨_, rfl, fun _ => rfl, fun h => absurd (by decide +kernel) h⟩
    | 1 => cases hi; exact ⟨_, rfl, fun h => absurd h (by decide +kernel), fun _ => e1.mpr a1⟩
    | 2 => cases hi; exact ⟨_, rfl, fun h => absurd h (by decide +kernel), fun _ => e2.mpr a2⟩
    | 3 => cases hi; exact ⟨_, rfl, fun h => absurd h (by decide +kernel), fun _ => e1.mpr a3⟩
    | 4 => cases hi; exact ⟨_, rfl, fun h => absurd h (by decide +kernel), fun _ => e3.mpr a4⟩
    | 5 => cases hi; exact ⟨_, rfl, fun h => absurd h (by decide +kernel), fun _ => e1.mpr a5⟩
    | 6 => cases hi; exact ⟨_, rfl, fun h => absurd h (by decide +kernel), fun _ => e3.mpr a6⟩
    | 7 => cases hi; exact ⟨_, rfl, fun h => absurd h (by decide +kernel), fun _ => e4.mpr a7⟩
    | n + 8 => cases hi

theorem reads_info (sha1 : Bytes → Bytes) {t : CTree} (hs : Syn t) {v x : Val} :
    D (metaEnv sha1) { addr := true } infoTy v t.print x ↔ IsInfo sha1 t (.ptr x) := by
  constructor
  · intro h
    obtain ⟨⟨tr, hcv, e⟩, h2⟩ := D.method_inv (um := infoUnmarshal sha1) rfl rfl h
    obtain ⟨rfl, -⟩ := print_unique t tr hs (Valid.syn tr hcv) [] [] (by simpa using e)
    obtain ⟨u, gs, h3, rfl⟩ := infoUnmarshal_ok h2
    obtain ⟨tr, rest, h4, e, h5⟩ := (unmarshal_D innerEnv_sane).mp h3
    obtain ⟨rfl, -⟩ := print_unique t tr hs (Valid.syn tr h4) [] rest (by simpa using e)
    obtain ⟨es', e, h6⟩ := D.struct_inv h5
    obtain ⟨es, rfl, hv⟩ := h6.valid
    rw [entries_textEs] at e
    obtain ⟨rfl, -⟩ := print_unique t (.dict es) hs (Valid.syn (.dict es) hv) [] [] (by simpa [CTree.print] using e)
    obtain ⟨pl, ps, pr, nm, ln, md, fl, ⟨a1, a2, a3, a4, a5, a6, a7⟩, e⟩ := (reads_infoStruct hcv).mp h5
    cases e
    exact ⟨es, pl, ps, pr, nm, ln, md, fl, rfl, hcv, a1, a2, a3, a4, a5, a6, a7, rfl⟩
  · rintro ⟨es, pl, ps, pr, nm, ln, md, fl, rfl, hcv, a1, a2, a3, a4, a5, a6, a7, e⟩
    cases e
    have h5 := (reads_infoStruct hcv).mpr ⟨pl, ps, pr, nm, ln, md, fl, ⟨a1, a2, a3, a4, a5, a6, a7⟩, rfl⟩
    refine D.method (um := infoUnmarshal sha1) rfl rfl hcv ?_
    have := D.unmarshal innerEnv_sane h5 []
    rw [List.append_nil] at this
    unfold infoUnmarshal
    rw [this]; rfl

theorem synEs_of {es : List (Bytes × Bytes × CTree)} : ∀ {last : Bytes}, KeysFrom last es → (∀ l k t, (l, k, t) ∈ es → Syn t) → SynEs es := by
  induction es with
  | nil => intro _ _ _; trivial
  | cons e es ih =>
    obtain ⟨l, k, t⟩ := e
    intro last hk h
    exact ⟨hk.1.1, h l k t (by simp), ih hk.2.2 fun l k t hm => h l k t (by simp [hm])⟩

theorem isStr_syn {t : CTree} {v : Val} (h : IsStr t v) : Syn t := by obtain ⟨l, b, rfl, h, _⟩ := h; exact h.1

theorem isInt_syn {t : CTree} {v : Val} (h : IsInt t v) : Syn t := by obtain ⟨s, n, rfl, h, _⟩ := h; exact h

theorem isList_syn {R : CTree → Val → Prop} (hR : ∀ t v, R t v → Syn t) {t : CTree} {v : Val} (h : IsList R t v) : Syn t := by
  obtain ⟨ts, vs, rfl, h, -⟩ := h
  show Syns ts
  induction h with
  | nil => trivial
  | cons h _ ih => exact ⟨hR _ _ h, ih⟩

theorem isTorrent_syn {sha1 : Bytes → Bytes} {es : List (Bytes × Bytes × CTree)} {v : Val} (h : IsTorrent sha1 es v) : SynEs es := by
  obtain ⟨w0, w1, w2, w3, w4, w5, w6, hk, ho, a0, a1, a2, a3, a4, a5, a6, rfl⟩ := h
  refine synEs_of hk fun l k t hm => ?_
  have key : ∀ {z x : Val} {R : CTree → Val → Prop}, (∀ t v, R t v → Syn t) → Entry es k z R x → Syn t := by
    rintro z x R hR (⟨h, _⟩ | ⟨l', t', h1, h2⟩)
    · exact absurd rfl (h _ hm)
    · rw [keysFrom_unique hk hm h1]; exact hR _ _ h2
  by_cases hx : k ∈ metaKeys
  · simp only [metaKeys, List.mem_cons, List.not_mem_nil, or_false] at hx
    rcases hx with rfl | rfl | rfl | rfl | rfl | rfl | rfl
    · exact key (fun t v h => by obtain ⟨_, _, _, _, _, _, _, _, rfl, h, _⟩ := h; exact Valid.syn _ h) a0
    · exact key (fun t v h => isStr_syn h) a1
    · exact key (fun t v h => isList_syn (fun t v h => isList_syn (fun t v h => isStr_syn h) h) h) a2
    · exact key (fun t v h => by obtain ⟨n, h, _⟩ := h; exact isInt_syn h) a3
    · exact key (fun t v h => isStr_syn h) a4
    · exact key (fun t v h => isStr_syn h) a5
    · exact key (fun t v h => isStr_syn h) a6
  · exact Valid.syn _ (ho l k t hm hx)

/-- **C112.** Exactly the texts that begin with a dictionary in the layout of torrent files (without files in a list, cf. C31)
are read, and each field holds what is at its key. -/
theorem C112_reads (sha1 : Bytes → Bytes) (bs : Bytes) (v : Val) :
    unmarshalMetainfo sha1 bs = .ok v ↔ ∃ es rest, bs = (CTree.dict es).print ++ rest ∧ IsTorrent sha1 es v := by
  unfold unmarshalMetainfo
  rw [unmarshal_D (metaEnv_sane sha1)]
  have key : ∀ {es : List (Bytes × Bytes × CTree)}, SynEs es → (D (metaEnv sha1) { addr := true } metaTy (zero metaTy) (CTree.dict es).print v ↔ IsTorrent sha1 es v) := by
    intro es hs
    unfold metaTy
    rw [struct_reads metaFields_plain hs]
    have e0 : ∀ {k x}, Entry es k .nilPtr (fun t => FieldReads (metaEnv sha1) (.ptr infoTy) t.print) x ↔ Entry es k .nilPtr (IsInfo sha1) x := by
      intro k x
      refine entry_congr hs fun t ht => ?_
      rw [field_ptr (R := fun t y => IsInfo sha1 t (.ptr y)) (fun t ht x => reads_info sha1 ht) t ht x]
      constructor
      · rintro ⟨y, h, rfl⟩; exact h
      · intro h
        have h' := h
        obtain ⟨_, _, _, _, _, _, _, _, _, _, _, _, _, _, _, _, _, rfl⟩ := h'
        exact ⟨_, h, rfl⟩
    have e1 : ∀ {k x}, Entry es k (.str []) (fun t => FieldReads (metaEnv sha1) .str t.print) x ↔ Entry es k (.str []) IsStr x :=
      entry_congr hs fun t ht => field_plain (by trivial) (fun t ht x => reads_str ht) t ht _
    have e2 : ∀ {k x}, Entry es k .nilSlice (fun t => FieldReads (metaEnv sha1) (.slice (.slice .str)) t.print) x ↔
        Entry es k .nilSlice (IsList (IsList IsStr)) x :=
      entry_congr hs fun t ht => field_plain (by trivial) (fun t ht x => reads_list (fun t ht x => reads_list (fun t ht x => reads_str ht) ht) ht) t ht _
    have e3 : ∀ {k x}, Entry es k .nilPtr (fun t => FieldReads (metaEnv sha1) (.ptr timeTy) t.print) x ↔ Entry es k .nilPtr IsDate x :=
      entry_congr hs fun t ht => field_ptr (fun t ht x => reads_date rfl ht) t ht _
    have hkeys : ∀ k, (∀ (i : Nat) (hd : Hdr) (ft : Ty), metaFields[i]? = some (hd, ft) → ¬ Hidden hd → fieldKey hd ≠ k) ↔ k ∉ metaKeys := by
      intro k
      constructor
      · intro h hm
        simp only [metaKeys, List.mem_cons, List.not_mem_nil, or_false] at hm
        rcases hm with rfl | rfl | rfl | rfl | rfl | rfl | rfl
        · exact h 0 _ _ rfl (by decide +kernel) (by decide +kernel)
        · exact h 1 _ _ rfl (by decide +kernel) (by decide +kernel)
        · exact h 2 _ _ rfl (by decide +kernel) (by decide +kernel)
        · exact h 3 _ _ rfl (by decide +kernel) (by decide +kernel)
        · exact h 4 _ _ rfl (by decide +kernel) (by decide +kernel)
        · exact h 5 _ _ rfl (by decide +kernel) (by decide +kernel)
        · exact h 6 _ _ rfl (by decide +kernel) (by decide +kernel)
      · rintro h i hd ft hi - rfl
        apply h
        match i with
        | 0 => cases hi; decide +kernel
        | 1 => cases hi; decide +kernel
        | 2 => cases hi; decide +kernel
        | 3 => cases hi; decide +kernel
        | 4 => cases hi; decide +kernel
        | 5 => cases hi; decide +kernel
        | 6 => cases hi; decide +kernel
        | n + 7 => cases hi
    constructor
    · rintro ⟨hk, ho, ws, rfl, hl, hf⟩
      match ws, hl with
      | [w0, w1, w2, w3, w4, w5, w6], _ =>
        obtain ⟨x0, h0, -, a0⟩ := hf 0 _ _ rfl
        obtain ⟨x1, h1, -, a1⟩ := hf 1 _ _ rfl
        obtain ⟨x2, h2, -, a2⟩ := hf 2 _ _ rfl
        obtain ⟨x3, h3, -, a3⟩ := hf 3 _ _ rfl
        obtain ⟨x4, h4, -, a4⟩ := hf 4 _ _ rfl
        obtain ⟨x5, h5, -, a5⟩ := hf 5 _ _ rfl
        obtain ⟨x6, h6, -, a6⟩ := hf 6 _ _ rfl
        cases h0; cases h1; cases h2; cases h3; cases h4; cases h5; cases h6
        exact ⟨w0, w1, w2, w3, w4, w5, w6, hk, fun l k t hm hn => ho l k t hm ((hkeys k).mpr hn), e0.mp (a0 (by decide +kernel)), e1.mp (a1 (by decide +kernel)),
          e2.mp (a2 (by decide +kernel)), e3.mp (a3 (by decide +kernel)), e1.mp (a4 (by decide +kernel)), e1.mp (a5 (by decide +kernel)),
          e1.mp (a6 (by decide +kernel)), rfl⟩
    · rintro ⟨w0, w1, w2, w3, w4, w5, w6, hk, ho, a0, a1, a2, a3, a4, a5, a6, rfl⟩
      refine ⟨hk, fun l k t hm hn => ho l k t hm ((hkeys k).mp hn), _, rfl, rfl, ?_⟩
      intro i hd ft hi
      match i with
      | 0 => cases hi; exact ⟨_, rfl, fun h => absurd h (by decide +kernel), fun _ => e0.mpr a0⟩
      | 1 => cases hi; exact ⟨_, rfl, fun h => absurd h (by decide +kernel), fun _ => e1.mpr a1⟩
      | 2 => cases hi; exact ⟨_, rfl, fun h => absurd h (by decide +kernel), fun _ => e2.mpr a2⟩
      | 3 => cases hi; exact ⟨_, rfl, fun h => absurd h (by decide +kernel), fun _ => e3.mpr a3⟩
      | 4 => cases hi; exact ⟨_, rfl, fun h => absurd h (by decide +kernel), fun _ => e1.mpr a4⟩
      | 5 => cases hi; exact ⟨_, rfl, fun h => absurd h (by decide +kernel), fun _ => e1.mpr a5⟩
      | 6 => cases hi; exact ⟨_, rfl, fun h => absurd h (by decide +kernel), fun _ => e1.mpr a6⟩
      | n + 7 => cases hi
  constructor
  · rintro ⟨tr, rest, h1, rfl, h3⟩
    obtain ⟨es', e, h6⟩ := D.struct_inv h3
    obtain ⟨es, rfl, hv⟩ := h6.valid
    rw [entries_textEs] at e
    have hs : SynEs es := Valid.syn (.dict es) hv
    have e' : tr.print = (CTree.dict es).print := by rw [e]; rfl
    rw [e'] at h3
    exact ⟨es, rest, by rw [e'], (key hs).mp h3⟩
  · rintro ⟨es, rest, rfl, h⟩
    have hs := isTorrent_syn h
    have h3 := (key hs).mpr h
    obtain ⟨tr, htr, e⟩ := h3.tree
    exact ⟨tr, rest, htr, by rw [e], by rw [← e]; exact h3⟩

/-- What is read from a torrent file of one file of 5 bytes with a key that is not known. -/
def exRead (sha1 : Bytes → Bytes) : Val := .struct [.ptr (.struct [hashVal (sha1 b!"d6:lengthi5e4:name1:ae"), .int 0, .nilSlice, .int 0, .str b!"a", .int 5, .str [], .nilSlice]),
  .str b!"t", .nilSlice, .nilPtr, .str [], .str [], .str []]

example : unmarshalMetainfo toySha b!"d8:announce1:t5:helloi7e4:infod6:lengthi5e4:name1:aee" = .ok (exRead toySha) := by kernel_rfl

example : ∃ es rest, b!"d8:announce1:t5:helloi7e4:infod6:lengthi5e4:name1:aee" = (CTree.dict es).print ++ rest ∧ IsTorrent toySha es (exRead toySha) :=
  (C112_reads toySha _ _).mp (by kernel_rfl)

/-- A number that does not fit, a string where a list is expected, or keys out of order: not read. -/
example : unmarshalMetainfo toySha b!"d13:creation datei9223372036854775808ee" = .err .syntax ∧
    unmarshalMetainfo toySha b!"d13:announce-list1:ae" = .err .syntax ∧
    unmarshalMetainfo toySha b!"d4:infode8:announce1:te" = .err .unsorted := ⟨by kernel_rfl, by kernel_rfl, by kernel_rfl⟩

end Drip.Metainfo
