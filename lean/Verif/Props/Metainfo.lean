import Verif.Lemmas.Metainfo
import Verif.Lemmas.MetainfoRT
import Verif.Props.BencodeEncode
/-
Properties of metainfo files: C28-C32, C77.
-/

namespace Drip.Metainfo
open Bencode Spec

variable {env : Env}

/-! ### C77: structs are decoded entry by entry -/

theorem mem_textEs {es : List (Bytes × Bytes × CTree)} {l k c : Bytes} (h : (l, k, c) ∈ textEs es) : ∃ tr, (l, k, tr) ∈ es ∧ c = tr.print := by
  induction es with
  | nil => simp [textEs] at h
  | cons e es ih =>
    obtain ⟨l', k', t⟩ := e
    simp only [textEs, List.mem_cons, Prod.mk.injEq] at h
    rcases h with ⟨rfl, rfl, rfl⟩ | h
    · exact ⟨t, by simp, rfl⟩
    · obtain ⟨tr, h1, h2⟩ := ih h
      exact ⟨tr, by simp [h1], h2⟩

theorem textEs_mem {es : List (Bytes × Bytes × CTree)} {l k : Bytes} {tr : CTree} (h : (l, k, tr) ∈ es) : (l, k, tr.print) ∈ textEs es := by
  induction es with
  | nil => simp at h
  | cons e es ih =>
    obtain ⟨l', k', t⟩ := e
    simp only [textEs, List.mem_cons, Prod.mk.injEq] at h ⊢
    rcases h with ⟨rfl, rfl, rfl⟩ | h
    · exact .inl ⟨rfl, rfl, rfl⟩
    · exact .inr (ih h)

/-- One field of a struct: with `zero` it was absent, else it is what decoding its entry gives. -/
theorem field_of_loop {id : Nat} {fs : List (Hdr × Ty)} (hp : PlainStruct fs) {es : List (Bytes × Bytes × CTree)} {w : Val}
    (h : SLoop env { addr := true } (.struct id fs) [] (zero (.struct id fs)) (textEs es) w) {i : Nat} {hd : Hdr} {ft : Ty}
    (hi : fs[i]? = some (hd, ft)) (hh : ¬ Hidden hd) :
    ∃ ws x, w = .struct ws ∧ ws.length = fs.length ∧ ws[i]? = some x ∧
      (((∀ e ∈ es, e.2.1 ≠ fieldKey hd) ∧ x = zero ft) ∨
        ∃ l tr, (l, fieldKey hd, tr) ∈ es ∧
          ((NotPtr ft ∧ D env { addr := true } ft (zero ft) tr.print x) ∨
            ∃ et y, ft = .ptr et ∧ x = .ptr y ∧ D env { addr := true } et (zero et) tr.print y)) := by
  have hpl : PlainField hd := (hp.1 (hd, ft) (List.mem_of_getElem? hi)).resolve_left hh
  obtain ⟨ilt, _⟩ := List.getElem?_eq_some_iff.mp hi
  obtain ⟨ws, hw, hlen, hx⟩ := h.at (flat_plain hp) (lookup_plain hp hi hh) rfl (zeros fs) rfl
  rw [zeros_length] at hlen
  have hz : (zeros fs)[i]? = some (zero ft) := by rw [zeros_get, hi]; rfl
  rcases hx with ⟨h1, h2⟩ | ⟨l, c, us', ws', h1, h2, h3, h4, h5⟩
  · refine ⟨ws, zero ft, hw, hlen, by rw [h2, hz], .inl ⟨?_, rfl⟩⟩
    rintro ⟨l, k, tr⟩ he
    exact h1 _ (textEs_mem he)
  · obtain ⟨tr, htr, rfl⟩ := mem_textEs h1
    rw [hz] at h4
    obtain ⟨il, _⟩ := List.getElem?_eq_some_iff.mp h4
    cases ft with
    | ptr et =>
      obtain ⟨y, h6, h7⟩ := (DA_nilptr (id := id) rfl hi h4 ⟨rfl, by simp [hpl.2.1]⟩).mp h2
      refine ⟨ws, .ptr y, hw, hlen, ?_, .inr ⟨l, tr, htr, .inr ⟨et, y, rfl, rfl, h6⟩⟩⟩
      simp only [Val.struct.injEq] at h7
      rw [h5, h7, List.getElem?_set_self il]
    | _ =>
      obtain ⟨y, h6, h7⟩ := (DA_field (id := id) rfl hi h4 trivial).mp h2
      refine ⟨ws, y, hw, hlen, ?_, .inr ⟨l, tr, htr, .inl ⟨trivial, ?_⟩⟩⟩
      · simp only [Val.struct.injEq] at h7
        rw [h5, h7, List.getElem?_set_self il]
      · simpa [hpl.2.1] using h6

/-- **C77.** What Unmarshal stores in a field of a zeroed struct depends only on the entry with the field's key: without
such an entry the field keeps its zero value; else it is the result of unmarshalling the entry's bytes by themselves
into a zeroed variable of the field's type (or of the type it points to). -/
theorem C77_field_by_field (henv : env.Sane) {id : Nat} {fs : List (Hdr × Ty)} (hp : PlainStruct fs) {es : List (Bytes × Bytes × CTree)}
    (hs : SynEs es) {rest : Bytes} {w : Val} (h : unmarshal env (.struct id fs) (zero (.struct id fs)) ((CTree.dict es).print ++ rest) = .ok w) :
    ∃ ws, w = .struct ws ∧ ws.length = fs.length ∧
      ∀ (i : Nat) (hd : Hdr) (ft : Ty), fs[i]? = some (hd, ft) → ¬ Hidden hd → ∃ x, ws[i]? = some x ∧
        (((∀ e ∈ es, e.2.1 ≠ fieldKey hd) ∧ x = zero ft) ∨
          ∃ l tr, (l, fieldKey hd, tr) ∈ es ∧
            ((NotPtr ft ∧ ∀ rest', unmarshal env ft (zero ft) (tr.print ++ rest') = .ok x) ∨
              ∃ et y, ft = .ptr et ∧ x = .ptr y ∧ ∀ rest', unmarshal env et (zero et) (tr.print ++ rest') = .ok y)) := by
  obtain ⟨tr, rest', h1, h2, h3⟩ := (unmarshal_D henv).mp h
  obtain ⟨rfl, -⟩ := print_unique (.dict es) tr hs (Valid.syn tr h1) _ _ h2
  have h4 := (D.struct_iff hs).mp h3
  have hlen : ∃ ws, w = .struct ws ∧ ws.length = fs.length := by
    by_cases hne : ∃ (i : Nat) (hd : Hdr) (ft : Ty), fs[i]? = some (hd, ft) ∧ ¬ Hidden hd
    · obtain ⟨i, hd, ft, hi, hh⟩ := hne
      obtain ⟨ws, x, hw, hl, _⟩ := field_of_loop hp h4 hi hh
      exact ⟨ws, hw, hl⟩
    · have key : ∀ {last v es w}, SLoop env { addr := true } (.struct id fs) last v es w → w = v := by
        intro last v es w h
        induction h with
        | nil => rfl
        | skip _ _ _ _ _ ih => exact ih
        | field _ _ hk _ _ _ =>
          obtain ⟨h1, _⟩ := lookupKey_some hk
          rw [keyToField_plain hp, mem_infos] at h1
          obtain ⟨i, h, t, h3, h4, _⟩ := h1
          exact absurd ⟨i, h, t, h3, h4⟩ hne
      exact ⟨zeros fs, key h4, zeros_length fs⟩
  obtain ⟨ws, rfl, hlen⟩ := hlen
  refine ⟨ws, rfl, hlen, ?_⟩
  intro i hd ft hi hh
  obtain ⟨ws', x, e, -, hx, hy⟩ := field_of_loop hp h4 hi hh
  cases e
  refine ⟨x, hx, ?_⟩
  rcases hy with hy | ⟨l, tr, htr, hy⟩
  · exact .inl hy
  · refine .inr ⟨l, tr, htr, ?_⟩
    rcases hy with ⟨h5, h6⟩ | ⟨et, y, h5, h6, h7⟩
    · exact .inl ⟨h5, fun r => h6.unmarshal henv r⟩
    · exact .inr ⟨et, y, h5, h6, fun r => h7.unmarshal henv r⟩

/-! ### C28: the info hash -/

theorem infoUnmarshal_ok {sha1 : Bytes → Bytes} {raw : Bytes} {v w : Val} (h : infoUnmarshal sha1 raw v = .ok w) :
    ∃ u gs, unmarshal innerEnv infoStruct (zero infoStruct) raw = .ok (.struct (u :: gs)) ∧ w = .struct (hashVal (sha1 raw) :: gs) := by
  unfold infoUnmarshal at h
  change (unmarshal innerEnv infoStruct (zero infoStruct) raw >>= setSha1 (sha1 raw)) = _ at h
  rw [Res.bind_eq_ok] at h
  obtain ⟨x, h1, h2⟩ := h
  unfold setSha1 at h2
  split at h2
  · next u gs => cases h2; exact ⟨u, gs, h1, rfl⟩
  · cases h2

/-- **C28.** If a metainfo file decodes, it is a dictionary (followed by bytes that are ignored), and the decoded `Info` is
nil if the dictionary has no `info` entry, and else has as `SHA1` the hash of exactly the bytes of that entry's value. -/
theorem C28_info_hash {sha1 : Bytes → Bytes} {bs : Bytes} {v : Val} (h : unmarshalMetainfo sha1 bs = .ok v) :
    ∃ es rest info others, bs = (CTree.dict es).print ++ rest ∧ DV (.dict es) ∧ v = .struct (info :: others) ∧
      (((∀ e ∈ es, e.2.1 ≠ b!"info") ∧ info = .nilPtr) ∨
        ∃ l tr fields, (l, b!"info", tr) ∈ es ∧ info = .ptr (.struct (hashVal (sha1 tr.print) :: fields))) := by
  obtain ⟨tr, rest, h1, rfl, h3⟩ := (unmarshal_D (metaEnv_sane sha1)).mp h
  obtain ⟨es, e, h4⟩ := D.struct_inv h3
  obtain ⟨ts, rfl, hv⟩ := h4.valid
  rw [entries_textEs] at e
  obtain ⟨ws, x, rfl, hl, hx, hy⟩ := field_of_loop metaFields_plain h4 (i := 0) rfl (by decide +kernel)
  obtain ⟨y, others, rfl⟩ : ∃ y o, ws = y :: o := by
    cases ws with
    | nil => simp [metaFields] at hl
    | cons y o => exact ⟨y, o, rfl⟩
  simp only [List.getElem?_cons_zero, Option.some.injEq] at hx
  subst hx
  refine ⟨ts, rest, y, others, by rw [e]; rfl, hv, rfl, ?_⟩
  rcases hy with ⟨hy, hz⟩ | ⟨l, tr, htr, hy⟩
  · exact .inl ⟨hy, hz⟩
  · refine .inr ?_
    rcases hy with ⟨hy, _⟩ | ⟨et, z, h5, rfl, h7⟩
    · exact absurd hy (by simp [NotPtr])
    · cases h5
      obtain ⟨-, h8⟩ := D.method_inv (um := infoUnmarshal sha1) rfl rfl h7
      obtain ⟨u, gs, -, rfl⟩ := infoUnmarshal_ok h8
      exact ⟨l, tr, gs, htr, rfl⟩

/-! ### C29: pieces -/

theorem piecesUnmarshal_str {l s : Bytes} (hl : LenText l s) (v : Val) :
    piecesUnmarshal (l ++ 58 :: s) v = if s.length % 20 = 0 then .ok (piecesVal (chunks20 s.length s)) else .err .badPieces := by
  unfold piecesUnmarshal
  have := D.unmarshal noEnv_sane (D.bytes (env := noEnv) (fl := { addr := true }) (v := .nilBytes) rfl hl) []
  rw [List.append_nil] at this
  rw [this, Res.bind_ok]
  by_cases h : s.length % 20 = 0 <;> simp [h]

/-- **C29.** `*Pieces` marshals to the string of the concatenated hashes. -/
theorem C29_marshal (sha1 : Bytes → Bytes) (hs : List Bytes) :
    marshal (metaEnv sha1) (.ptr piecesTy) (.ptr (piecesVal hs)) = .ok (decNat hs.flatten.length ++ 58 :: hs.flatten) := by
  have hd : Denotes (metaEnv sha1) { addr := false } (.ptr piecesTy) (.ptr (piecesVal hs)) (.str hs.flatten) 0 :=
    .method (.ptr (m := piecesMarshal) rfl rfl (by rw [piecesMarshal_val, marshal_str]))
  exact (C20_limit hd).1 (by decide)

/-- **C29.** Exactly the texts that begin with a string whose length is a multiple of 20 are accepted, and they give the
consecutive pieces of 20 bytes of that string. -/
theorem C29_unmarshal (sha1 : Bytes → Bytes) (v x : Val) (bs : Bytes) :
    unmarshal (metaEnv sha1) piecesTy v bs = .ok x ↔
      ∃ l s rest hs, LenText l s ∧ (∃ c r, l = c :: r ∧ Digit c) ∧ bs = l ++ 58 :: s ++ rest ∧
        (∀ h ∈ hs, h.length = 20) ∧ hs.flatten = s ∧ x = piecesVal hs := by
  rw [unmarshal_D (metaEnv_sane sha1)]
  constructor
  · rintro ⟨tr, rest, h1, rfl, h3⟩
    obtain ⟨⟨tr', hcv, e⟩, h4⟩ := D.method_inv (um := piecesUnmarshal) rfl rfl h3
    have h5 := h4
    unfold piecesUnmarshal at h5
    rw [Res.bind_eq_ok] at h5
    obtain ⟨c, h6, h7⟩ := h5
    obtain ⟨tr'', rest'', h8, h9, h10⟩ := (unmarshal_D noEnv_sane).mp h6
    obtain ⟨l, s, hl, h11, rfl⟩ := D.bytes_inv h10
    obtain ⟨rfl, rfl⟩ := print_unique tr tr'' (Valid.syn tr h1) (Valid.syn tr'' h8) [] rest'' (by rw [← h9]; simp)
    obtain ⟨rfl, -⟩ := print_unique tr tr' (Valid.syn tr h1) (Valid.syn tr' hcv) [] [] (by rw [← e])
    obtain ⟨rfl, -⟩ := print_unique tr (.str l s) (Valid.syn tr h1) hl.1 [] [] (by rw [h11]; rfl)
    rw [h11, piecesUnmarshal_str hl] at h4
    split at h4
    · next hm =>
      cases h4
      exact ⟨l, s, rest, _, hl, hcv.2 rfl, by simp [CTree.print], chunks20_length _ _ (Nat.le_refl _) hm, chunks20_flatten _ _ (Nat.le_refl _), rfl⟩
    · cases h4
  · rintro ⟨l, s, rest, hs, hl, hd, rfl, h20, rfl, rfl⟩
    refine ⟨.str l hs.flatten, rest, ⟨hl, fun h => by simp at h⟩, rfl, ?_⟩
    refine D.method (um := piecesUnmarshal) rfl rfl ⟨hl, fun _ => hd⟩ ?_
    have hm : hs.flatten.length % 20 = 0 := by
      have : ∀ hs : List Bytes, (∀ h ∈ hs, h.length = 20) → hs.flatten.length = 20 * hs.length := by
        intro hs
        induction hs with
        | nil => intro _; rfl
        | cons h hs ih =>
          intro hh
          rw [List.flatten_cons, List.length_append, ih (fun x hx => hh x (by simp [hx])), hh h (by simp), List.length_cons]; omega
      rw [this hs h20]; omega
    show piecesUnmarshal (l ++ 58 :: hs.flatten) v = _
    rw [piecesUnmarshal_str hl, if_pos hm]
    rw [flatten20_inj (chunks20 hs.flatten.length hs.flatten) hs (chunks20_length _ _ (Nat.le_refl _) hm) h20 (chunks20_flatten _ _ (Nat.le_refl _))]

/-- **C29.** A string whose length is not a multiple of 20 is an error. -/
theorem C29_reject (sha1 : Bytes → Bytes) (v x : Val) (l s rest : Bytes) (hl : LenText l s) (h : s.length % 20 ≠ 0) :
    unmarshal (metaEnv sha1) piecesTy v (l ++ 58 :: s ++ rest) ≠ .ok x := by
  intro hx
  obtain ⟨l', s', rest', hs, hl', _, e, h20, rfl, _⟩ := (C29_unmarshal sha1 v x _).mp hx
  obtain ⟨e, -⟩ := print_unique (.str l s) (.str l' hs.flatten) hl.1 hl'.1 _ _ e
  cases e
  apply h
  have : ∀ hs : List Bytes, (∀ h ∈ hs, h.length = 20) → hs.flatten.length % 20 = 0 := by
    intro hs
    induction hs with
    | nil => intro _; rfl
    | cons h hs ih =>
      intro hh
      have h1 := ih (fun x hx => hh x (by simp [hx]))
      have h2 := hh h (by simp)
      rw [List.flatten_cons, List.length_append]; omega
  exact this hs h20

/-- **C29.** Unmarshalling what was marshalled gives the hashes back. -/
theorem C29_roundtrip (sha1 : Bytes → Bytes) (hs : List Bytes) (h20 : ∀ h ∈ hs, h.length = 20) (hlen : hs.flatten.length ≤ 2 ^ 48)
    (v : Val) (rest : Bytes) : ∃ out, marshal (metaEnv sha1) (.ptr piecesTy) (.ptr (piecesVal hs)) = .ok out ∧
      unmarshal (metaEnv sha1) piecesTy v (out ++ rest) = .ok (piecesVal hs) := by
  refine ⟨_, C29_marshal sha1 hs, (C29_unmarshal sha1 v _ _).mpr ⟨_, hs.flatten, rest, hs, lenText_canon hlen, ?_, rfl, h20, rfl, rfl⟩⟩
  exact decNat_digit _

/-! ### C31: several files -/

theorem D_nilptr {et : Ty} {c : Bytes} {w : Val} {fl : Flags} (h : D env fl (.ptr et) .nilPtr c w) (hm : ptrMethod env et = none) : False := by
  obtain ⟨n, h⟩ := h.succ
  have h := h [] 0
  have e : decode env (n + 1) fl (.ptr et) .nilPtr = (match ptrMethod env et with
    | some um => decodeUnmarshaler (consume n) fl.ro um none
    | none => P.panic) := rfl
  rw [e, hm] at h
  cases h

/-- **C31 is false**: whatever is decoded into an `Info`, its list of files is empty if decoding succeeds at all. -/
theorem C31_never_files {sha1 : Bytes → Bytes} {v w : Val} {bs : Bytes} (h : unmarshal (metaEnv sha1) infoTy v bs = .ok w) :
    ∃ fields, w = .struct fields ∧ (fields[7]? = some .nilSlice ∨ fields[7]? = some (.slice [])) := by
  obtain ⟨tr, rest, h1, rfl, h3⟩ := (unmarshal_D (metaEnv_sane sha1)).mp h
  obtain ⟨-, h4⟩ := D.method_inv (um := infoUnmarshal sha1) rfl rfl h3
  obtain ⟨u, gs, h5, rfl⟩ := infoUnmarshal_ok h4
  obtain ⟨tr', rest', h6, h7, h8⟩ := (unmarshal_D innerEnv_sane).mp h5
  obtain ⟨es, e, h9⟩ := D.struct_inv h8
  obtain ⟨ts, rfl, hv⟩ := h9.valid
  obtain ⟨ws, x, hw, hl, hx, hy⟩ := field_of_loop infoFields_plain h9 (i := 7) rfl (by decide +kernel)
  cases hw
  refine ⟨_, rfl, ?_⟩
  simp only [List.getElem?_cons_succ] at hx ⊢
  rw [hx]
  rcases hy with ⟨_, rfl⟩ | ⟨l, tr'', _, ⟨_, hd⟩ | ⟨et, y, he, _⟩⟩
  · exact .inl rfl
  · refine .inr ?_
    obtain ⟨cs, ws, hdl, _, rfl⟩ := D.slice_inv hd
    cases hdl with
    | nil => rfl
    | cons h1 h2 => exact (D_nilptr (et := fileTy) h1 rfl).elim
  · cases he

/-- A metainfo file with one file in its list. -/
def multiFile : Bytes := b!"d4:infod5:filesld6:lengthi5e4:pathl1:aeee4:name1:d12:piece lengthi16384e6:pieces0:ee"

/-- **C31 is false**: this well-formed file is not decoded; the decoder panics. -/
theorem C31_multi_file_refuted : unmarshalMetainfo (fun _ => []) multiFile = .panic := by kernel_rfl

/-! ### C30: piece lengths -/

theorem sum_pieces (i : Info) (n : Nat) (hn : n < i.pieces.length) :
    ((List.range n).map fun k : Nat => i.getPieceLength k).sum = n * i.pieceLength := by
  induction n with
  | zero => simp
  | succ n ih =>
    rw [List.range_succ, List.map_append, List.sum_append, ih (by omega)]
    have : i.getPieceLength n = i.pieceLength := by unfold Info.getPieceLength; rw [if_neg (by omega)]
    simp only [List.map_cons, List.map_nil, List.sum_cons, List.sum_nil, this]
    rw [Int.natCast_succ, Int.add_mul]; omega

/-- **C30.** The total length is the sum of the lengths of the files, or the length of the single file. -/
theorem C30_total (i : Info) : (i.files = [] → i.getLength = i.length) ∧ (i.files ≠ [] → i.getLength = (i.files.map (·.length)).sum) := by
  have : ∀ fs : List File, sumLengths fs = (fs.map (·.length)).sum := by
    intro fs
    induction fs with
    | nil => rfl
    | cons f fs ih => simp [sumLengths, ih]
  unfold Info.getLength
  exact ⟨fun h => by simp [h], fun h => by rw [if_pos h, this]⟩

/-- **C30.** If the number of pieces is the total length divided by the piece length, rounded up, then all pieces but the
last have the nominal length, the last one between 1 and that, and the lengths sum to the total. -/
theorem C30_tiling (i : Info) (hpos : 0 < i.pieceLength) (h0 : 0 ≤ i.getLength)
    (hceil : (i.pieces.length : Int) = (i.getLength + i.pieceLength - 1) / i.pieceLength) :
    (∀ k : Nat, k < i.pieces.length → 1 ≤ i.getPieceLength k ∧ i.getPieceLength k ≤ i.pieceLength ∧
      (k + 1 < i.pieces.length → i.getPieceLength k = i.pieceLength)) ∧
    ((List.range i.pieces.length).map fun k : Nat => i.getPieceLength k).sum = i.getLength := by
  have hlo := Int.ediv_mul_le (i.getLength + i.pieceLength - 1) (b := i.pieceLength) (by omega)
  have hhi := Int.lt_ediv_add_one_mul_self (i.getLength + i.pieceLength - 1) hpos
  rw [← hceil] at hlo hhi
  rw [Int.add_mul, Int.one_mul] at hhi
  have hcov : i.getLength ≤ i.pieces.length * i.pieceLength := by
    generalize (i.pieces.length : Int) * i.pieceLength = m at *; omega
  have hmin : ∀ k : Nat, i.pieces.length = k + 1 → ¬ i.getLength ≤ k * i.pieceLength := by
    intro k hk
    have : (i.pieces.length : Int) = k + 1 := by omega
    rw [this, Int.add_mul] at hlo
    generalize (k : Int) * i.pieceLength = m at *; omega
  constructor
  · intro k hk
    unfold Info.getPieceLength
    by_cases hl : (k : Int) = (i.pieces.length : Int) - 1
    · rw [if_pos hl]
      have h1 := hmin k (by omega)
      have h2 : (i.pieces.length : Int) * i.pieceLength = k * i.pieceLength + i.pieceLength := by
        have : (i.pieces.length : Int) = k + 1 := by omega
        rw [this, Int.add_mul]; omega
      rw [h2] at hcov
      generalize (k : Int) * i.pieceLength = m at *
      omega
    · rw [if_neg hl]; omega
  · rcases Nat.eq_zero_or_pos i.pieces.length with hz | hp
    · rw [hz] at hcov ⊢; simp at hcov ⊢; omega
    · obtain ⟨n, hn⟩ : ∃ n, i.pieces.length = n + 1 := ⟨i.pieces.length - 1, by omega⟩
      rw [hn, List.range_succ, List.map_append, List.sum_append, sum_pieces i n (by omega)]
      have : i.getPieceLength n = i.getLength - n * i.pieceLength := by unfold Info.getPieceLength; rw [if_pos (by omega)]
      simp only [List.map_cons, List.map_nil, List.sum_cons, List.sum_nil, this]
      generalize (n : Int) * i.pieceLength = m
      omega

/-! ### C32: round trip -/

/-- **C32.** A single-file metainfo, marshalled as a value or through a pointer, and unmarshalled (with any bytes after it),
is what it was, except that the `SHA1` of its info, whatever it was, is the hash of the marshalled info. -/
theorem C32_single_file (sha1 : Bytes → Bytes) (m : Single) (hm : m.WF) (old : Bytes) :
    ∃ out raw, marshal (metaEnv sha1) (.ptr metaTy) (.ptr (m.val old)) = .ok out ∧ marshal (metaEnv sha1) metaTy (m.val old) = .ok out ∧
      marshal (metaEnv sha1) (.ptr infoTy) (.ptr (m.info old)) = .ok raw ∧
      ∀ rest, unmarshalMetainfo sha1 (out ++ rest) = .ok (m.val (sha1 raw)) := by
  obtain ⟨b, d, raw, rd, h1, h2, h3⟩ := single_meta sha1 hm old
  have hlow : ∀ {fl t v b d}, Denotes (metaEnv sha1) fl t v b d → v.height ≤ 7 → d ≤ 1000 := by
    intro fl t v b d h hh
    have := denotes_height _ _ _ _ _ _ _ h (Nat.le_refl _)
    omega
  have hv := val_height m old
  have hi := info_height m old
  have d1 : Denotes (metaEnv sha1) { addr := false } metaTy (m.val old) b d := .kind (by simp [UsesMethod, metaTy]) (h1 _)
  have d2 : Denotes (metaEnv sha1) { addr := false } (.ptr metaTy) (.ptr (m.val old)) b d :=
    .kind (by simp [UsesMethod, metaTy]) (.ptr (.kind (by simp [UsesMethod, metaTy]) (h1 _)))
  have d3 : Denotes (metaEnv sha1) { addr := false } (.ptr infoTy) (.ptr (m.info old)) raw rd :=
    .kind (by simp [UsesMethod, infoTy, metaEnv]) (.ptr (.named (by simp [UsesMethod, metaEnv]) h2))
  refine ⟨benc b, benc raw, (C20_limit d2).1 (hlow d2 ?_), (C20_limit d1).1 (hlow d1 (by omega)), (C20_limit d3).1 (hlow d3 ?_), ?_⟩
  · simp only [Val.height]; omega
  · simp only [Val.height]; omega
  · intro rest; exact h3.unmarshal (metaEnv_sane sha1) rest

/-- **C31**, as far as it is true: an info with a single file is decoded, with all its fields. -/
theorem C31_single_file_partial (sha1 : Bytes → Bytes) (m : Single) (hm : m.WF) (old : Bytes) (v : Val) :
    ∃ raw, marshal (metaEnv sha1) (.ptr infoTy) (.ptr (m.info old)) = .ok raw ∧
      ∀ rest, unmarshal (metaEnv sha1) infoTy v (raw ++ rest) = .ok (m.info (sha1 raw)) := by
  obtain ⟨raw, rd, hfit, hrd, u, hru⟩ := single_info sha1 hm old
  have d3 : Denotes (metaEnv sha1) { addr := false } (.ptr infoTy) (.ptr (m.info old)) raw rd :=
    .kind (by simp [UsesMethod, infoTy, metaEnv]) (.ptr (.named (by simp [UsesMethod, metaEnv]) hrd))
  have hi := info_height m old
  have := denotes_height _ _ _ _ _ _ _ d3 (Nat.le_refl _)
  simp only [Val.height] at this
  refine ⟨benc raw, (C20_limit d3).1 (by omega), fun rest => ?_⟩
  refine D.unmarshal (metaEnv_sane sha1) ?_ rest
  have hinfo : infoUnmarshal sha1 (benc raw) v = .ok (m.info (sha1 (benc raw))) := by
    unfold infoUnmarshal
    rw [hru]; rfl
  rw [← canon_print] at hinfo ⊢
  exact D.method (um := infoUnmarshal sha1) rfl rfl (canon_valid _ hfit) hinfo

/-! ### Examples -/

/-- A metainfo of one file of 5 bytes, with two tiers of trackers and a date. -/
def small : Single where
  pieceLength := 16384
  pieces := [List.replicate 20 7]
  priv := 0
  name := b!"a"
  length := 5
  md5sum := []
  announce := b!"http://t/"
  announceList := [[b!"u", b!"v"], [b!"w"]]
  created := some 1700000000
  comment := b!""
  createdBy := b!"x"
  encoding := []

theorem small_wf : small.WF := by
  constructor <;> simp [small, I64, List.length_replicate]

/-- A stand-in for SHA-1 that is easy to compute. -/
def toySha (b : Bytes) : Bytes := List.replicate 19 0 ++ [UInt8.ofNat b.length]

example : ∃ out raw, marshal (metaEnv toySha) metaTy (small.val []) = .ok out ∧
    marshal (metaEnv toySha) (.ptr infoTy) (.ptr (small.info [])) = .ok raw ∧
    unmarshalMetainfo toySha out = .ok (small.val (toySha raw)) := by
  obtain ⟨out, raw, _, h2, h3, h4⟩ := C32_single_file toySha small small_wf []
  exact ⟨out, raw, h2, h3, by simpa using h4 []⟩

/-- A file with an unknown key before the info and one within it. -/
def withUnknown : Bytes := b!"d3:abci1e4:infod4:name1:a6:pieces0:4:zzzz1:qee"

example : ∃ v, unmarshalMetainfo toySha withUnknown = .ok v :=
  ⟨.struct [.ptr (.struct [hashVal (toySha b!"d4:name1:a6:pieces0:4:zzzz1:qe"), .int 0, .nilSlice, .int 0, .str b!"a", .int 0, .str [], .nilSlice]),
    .str [], .nilSlice, .nilPtr, .str [], .str [], .str []], by kernel_rfl⟩

/-- A torrent of 20 bytes in two files, with pieces of 8 bytes. -/
def tiled : Info where
  pieceLength := 8
  pieces := [[], [], []]
  name := b!"t"
  files := [⟨15, [b!"a"], []⟩, ⟨5, [b!"b"], []⟩]

example : tiled.getPieceLength 0 = 8 ∧ tiled.getPieceLength 2 = 4 ∧ tiled.getLength = 20 ∧
    (tiled.pieces.length : Int) = (tiled.getLength + tiled.pieceLength - 1) / tiled.pieceLength := by decide +kernel

example : unmarshal (metaEnv toySha) piecesTy .nilSlice b!"40:aaaaaaaaaaaaaaaaaaaabbbbbbbbbbbbbbbbbbbb" =
    .ok (piecesVal [List.replicate 20 97, List.replicate 20 98]) := by kernel_rfl

example : unmarshal (metaEnv toySha) piecesTy .nilSlice b!"3:abc" = .err .badPieces := by kernel_rfl

end Drip.Metainfo
