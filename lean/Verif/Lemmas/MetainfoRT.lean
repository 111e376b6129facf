import Verif.Lemmas.Metainfo
import Verif.Lemmas.Bencode.Depth
/-
Round trip of single-file metainfo.
-/

namespace Drip.Metainfo
open Bencode Spec

variable {env env' : Env}

/-- The contents of a single-file metainfo, as a user fills it in. -/
structure Single where
  pieceLength : Int
  pieces : List Bytes
  priv : Int
  name : Bytes
  length : Int
  md5sum : Bytes
  announce : Bytes
  announceList : List (List Bytes)
  created : Option Int
  comment : Bytes
  createdBy : Bytes
  encoding : Bytes

/-- The Go value of its `Info`. -/
def Single.info (m : Single) (sha : Bytes) : Val := .struct [hashVal sha, .int m.pieceLength, piecesVal m.pieces, .int m.priv,
  .str m.name, .int m.length, .str m.md5sum, .nilSlice]

/-- Lists of lists of strings; nil if there are none. -/
def tiersVal : List (List Bytes) → Val
  | [] => .nilSlice
  | t :: ts => .slice ((t :: ts).map fun t => .slice (t.map .str))

/-- An optional time. -/
def timeVal : Option Int → Val
  | none => .nilPtr
  | some t => .ptr (.int t)

/-- The Go value of the `Metainfo`. -/
def Single.val (m : Single) (sha : Bytes) : Val := .struct [.ptr (m.info sha), .str m.announce, tiersVal m.announceList,
  timeVal m.created, .str m.comment, .str m.createdBy, .str m.encoding]

/-- `int64`. -/
def I64 (n : Int) : Prop := -2 ^ 63 ≤ n ∧ n < 2 ^ 63

/-- Numbers within `int64`, hashes of 20 bytes, and strings of lengths that can be allocated. -/
structure Single.WF (m : Single) : Prop where
  pieceLength : I64 m.pieceLength
  pieces : ∀ h ∈ m.pieces, h.length = 20
  piecesLen : m.pieces.flatten.length ≤ 2 ^ 48
  priv : I64 m.priv
  name : m.name.length ≤ 2 ^ 48
  length : I64 m.length
  md5sum : m.md5sum.length ≤ 2 ^ 48
  announce : m.announce.length ≤ 2 ^ 48
  announceList : ∀ t ∈ m.announceList, ∀ u ∈ t, u.length ≤ 2 ^ 48
  created : ∀ t, m.created = some t → I64 t
  comment : m.comment.length ≤ 2 ^ 48
  createdBy : m.createdBy.length ≤ 2 ^ 48
  encoding : m.encoding.length ≤ 2 ^ 48

theorem backF_str {A : Bool → Prop} {Q : BVal → Prop} {R : Val → Val → Prop} {h : Hdr} {b : Bytes} (hh : ¬ Hidden h) (hb : b.length ≤ 2 ^ 48)
    (hq : Q (.str b)) (hr : R (.str b) (.str b)) : BackF env env' A Q R h .str (.str b) := by
  by_cases he : OmitEmpty h ∧ EmptyVal (.str b)
  · refine .inl ⟨?_, .inr (.inr he)⟩
    have := he.2
    simp only [EmptyVal] at this
    subst this
    exact hr
  · refine .inr ⟨hh, by simp [Nil], he, .str b, 0, .str b, fun a _ => .kind (by simp [UsesMethod]) .str, hq, hr, ?_⟩
    intro fl id i fs us hfl hf hu hpl
    refine (DA_field (id := id) rfl hf hu trivial).mpr ⟨_, ?_, rfl⟩
    rw [benc]
    exact D.str (by simp [Flags.settable, hfl, hpl.2.1]) (lenText_canon hb)

theorem D_int64 {n : Int} (hn : I64 n) {v : Val} {fl : Flags} (hfl : fl.settable = true) : D env fl (.int 64) v (benc (.int n)) (.int n) := by
  have := D.int (env := env) (bits := 64) (v := v) hfl (decInt_snumeral n) (decInt_not_leadingZero n) hn.1 hn.2
  rw [wrapInt_self (by decide) hn.1 hn.2] at this
  exact this

theorem backF_int {A : Bool → Prop} {Q : BVal → Prop} {R : Val → Val → Prop} {h : Hdr} {n : Int} (hh : ¬ Hidden h) (hn : I64 n)
    (hq : Q (.int n)) (hr : R (.int n) (.int n)) : BackF env env' A Q R h (.int 64) (.int n) := by
  by_cases he : OmitEmpty h ∧ EmptyVal (.int n)
  · refine .inl ⟨?_, .inr (.inr he)⟩
    have := he.2
    simp only [EmptyVal] at this
    subst this
    exact hr
  · refine .inr ⟨hh, by simp [Nil], he, .int n, 0, .int n, fun a _ => .kind (by simp [UsesMethod]) .int, hq, hr, ?_⟩
    intro fl id i fs us hfl hf hu hpl
    refine (DA_field (id := id) rfl hf hu trivial).mpr ⟨_, ?_, rfl⟩
    exact D_int64 hn (by simp [Flags.settable, hfl, hpl.2.1])

theorem BackF.mono {A : Bool → Prop} {Q : BVal → Prop} {R R' : Val → Val → Prop} {h : Hdr} {t : Ty} {v : Val}
    (hb : BackF env env' A Q R h t v) (hr : ∀ w, R v w → R' v w) : BackF env env' A Q R' h t v := by
  rcases hb with ⟨h1, h2⟩ | ⟨h1, h2, h3, b, d, w, h4, h5, h6, h7⟩
  · exact .inl ⟨hr _ h1, h2⟩
  · exact .inr ⟨h1, h2, h3, b, d, w, h4, h5, hr _ h6, h7⟩

theorem D_pieces {env : Env} (henv : (env piecesId).unmarshal = some piecesUnmarshal) {hs : List Bytes} (h20 : ∀ h ∈ hs, h.length = 20)
    (hlen : hs.flatten.length ≤ 2 ^ 48) {v : Val} {fl : Flags} (hfl : fl.settable = true) :
    D env fl piecesTy v (benc (.str hs.flatten)) (piecesVal hs) := by
  rw [← canon_print]
  refine D.method (um := piecesUnmarshal) henv hfl (canon_valid _ hlen) ?_
  rw [canon_print, benc]
  have hm : hs.flatten.length % 20 = 0 := by
    clear hlen
    induction hs with
    | nil => rfl
    | cons h hs ih =>
      have h1 := ih (fun x hx => h20 x (by simp [hx]))
      have h2 := h20 h (by simp)
      rw [List.flatten_cons, List.length_append]; omega
  unfold piecesUnmarshal
  have := D.unmarshal noEnv_sane (D.bytes (env := noEnv) (fl := { addr := true }) (v := .nilBytes) rfl (lenText_canon hlen)) []
  rw [List.append_nil] at this
  rw [this, Res.bind_ok]
  simp only [hm, ne_eq, not_true, if_false]
  rw [flatten20_inj (chunks20 hs.flatten.length hs.flatten) hs (chunks20_length _ _ (Nat.le_refl _) hm) h20 (chunks20_flatten _ _ (Nat.le_refl _))]

/-- The info of a single-file metainfo. -/
theorem single_info (sha1 : Bytes → Bytes) {m : Single} (hm : m.WF) (old : Bytes) :
    ∃ b d, b.Fits ∧ DenotesK (metaEnv sha1) { addr := true } infoStruct (m.info old) b d ∧
      ∃ u, unmarshal innerEnv infoStruct (zero infoStruct) (benc b) = .ok (.struct (u :: [.int m.pieceLength, piecesVal m.pieces, .int m.priv,
  .str m.name, .int m.length, .str m.md5sum, .nilSlice])) := by
  obtain ⟨b, d, ws, h1, h2, h3, h4, h5⟩ := back_struct (env := metaEnv sha1) (env' := innerEnv) (id := 11) (A := fun a => a = true) (Q := BVal.Fits)
    (R := fun i v w => i = 0 ∨ w = v) (fs := infoFields) (vs := [hashVal old, .int m.pieceLength, piecesVal m.pieces, .int m.priv,
      .str m.name, .int m.length, .str m.md5sum, .nilSlice]) infoFields_plain (by
    intro i h ft fv hf hv
    match i with
    | 0 => cases hf; cases hv; exact .inl ⟨.inl rfl, .inl (by decide +kernel)⟩
    | 1 => cases hf; cases hv; exact backF_int (by decide +kernel) hm.pieceLength hm.pieceLength (.inr rfl)
    | 2 =>
      cases hf; cases hv
      cases hp : m.pieces with
      | nil => exact .inl ⟨.inr rfl, .inr (.inl trivial)⟩
      | cons x xs =>
        refine .inr ⟨by decide +kernel, by simp [piecesVal, Nil], by simp [piecesVal, EmptyVal], .str (x :: xs).flatten, 0, piecesVal (x :: xs), ?_, ?_, .inr rfl, ?_⟩
        · intro a ha
          refine .method (.addr (m := piecesMarshal) rfl ha rfl ?_)
          rw [piecesMarshal_val, marshal_str]
        · have := hm.piecesLen; rw [hp] at this; exact this
        · intro fl id i fs us hfl hf hu hpl
          refine (DA_field (id := id) rfl hf hu trivial).mpr ⟨_, ?_, rfl⟩
          refine D_pieces rfl ?_ ?_ (by simp [Flags.settable, hfl])
          · have := hm.pieces; rw [hp] at this; exact this
          · have := hm.piecesLen; rw [hp] at this; exact this
    | 3 => cases hf; cases hv; exact backF_int (by decide +kernel) hm.priv hm.priv (.inr rfl)
    | 4 => cases hf; cases hv; exact backF_str (by decide +kernel) hm.name hm.name (.inr rfl)
    | 5 => cases hf; cases hv; exact backF_int (by decide +kernel) hm.length hm.length (.inr rfl)
    | 6 => cases hf; cases hv; exact backF_str (by decide +kernel) hm.md5sum hm.md5sum (.inr rfl)
    | 7 => cases hf; cases hv; exact .inl ⟨.inr rfl, .inr (.inl trivial)⟩
    | n + 8 => cases hf) rfl
  refine ⟨b, d, h2 (fun _ h => h), h1 _ rfl, ?_⟩
  have hd := D.unmarshal innerEnv_sane (h3 { addr := true } rfl) []
  rw [List.append_nil] at hd
  match ws, h4 with
  | [w0, w1, w2, w3, w4, w5, w6, w7], _ =>
    have key : ∀ i fv w, i ≠ 0 → [hashVal old, .int m.pieceLength, piecesVal m.pieces, .int m.priv,
      .str m.name, .int m.length, .str m.md5sum, .nilSlice][i]? = some fv → [w0, w1, w2, w3, w4, w5, w6, w7][i]? = some w → w = fv := by
      intro i fv w hi hf hw
      obtain ⟨lt, _⟩ := List.getElem?_eq_some_iff.mp hf
      obtain ⟨fv', w', a1, a2, a3⟩ := h5 i lt
      rw [hf] at a1; rw [hw] at a2; cases a1; cases a2
      exact a3.resolve_left hi
    have k1 := key 1 _ _ (by decide) rfl rfl
    have k2 := key 2 _ _ (by decide) rfl rfl
    have k3 := key 3 _ _ (by decide) rfl rfl
    have k4 := key 4 _ _ (by decide) rfl rfl
    have k5 := key 5 _ _ (by decide) rfl rfl
    have k6 := key 6 _ _ (by decide) rfl rfl
    have k7 := key 7 _ _ (by decide) rfl rfl
    subst k1 k2 k3 k4 k5 k6 k7
    exact ⟨w0, hd⟩

theorem reorders_str : ∀ {t : List Bytes} {ws : List Val}, Reorders (t.map .str) ws → ws = t.map .str
  | [], _, .nil => rfl
  | b :: t, _, .cons h hs => by
    cases h
    rw [List.map_cons, ← reorders_str hs]

theorem reorders_tiers : ∀ {ts : List (List Bytes)} {ws : List Val}, Reorders (ts.map fun t => .slice (t.map .str)) ws →
    ws = ts.map fun t => .slice (t.map .str)
  | [], _, .nil => rfl
  | b :: t, _, .cons h hs => by
    rw [List.map_cons, ← reorders_tiers hs]
    cases h with
    | refl => rfl
    | slice h => rw [reorders_str h]

theorem time_method {env : Env} (henv : (env timeId).marshal = some timeMarshal) (fl : Flags) (hro : fl.ro = false) (t : Int) :
    Denotes env fl (.ptr timeTy) (.ptr (.int t)) (.int t) 0 := by
  refine .method (.ptr (m := timeMarshal) henv hro ?_)
  have hd : Denotes noEnv { addr := false } (.int 64) (.int t) (.int t) 0 := .kind (by simp [UsesMethod]) .int
  have he := emits_encode noEnv (Val.int t).height _ _ _ _ _ hd (Nat.le_refl _) ⟨[], 0⟩ (by simp)
  simp only [Nat.zero_add, if_pos (show 0 ≤ 1000 by decide)] at he
  unfold timeMarshal marshal encodeTop
  rw [he]; rfl

/-- The whole single-file metainfo. -/
theorem single_meta (sha1 : Bytes → Bytes) {m : Single} (hm : m.WF) (old : Bytes) :
    ∃ b d raw rd, (∀ fl : Flags, DenotesK (metaEnv sha1) fl metaTy (m.val old) b d) ∧
      DenotesK (metaEnv sha1) { addr := true } infoStruct (m.info old) raw rd ∧
      D (metaEnv sha1) { addr := true } metaTy (zero metaTy) (benc b) (m.val (sha1 (benc raw))) := by
  obtain ⟨raw, rd, hfit, hrd, u, hru⟩ := single_info sha1 hm old
  have hinfo : ∀ v, infoUnmarshal sha1 (benc raw) v = .ok (m.info (sha1 (benc raw))) := by
    intro v
    unfold infoUnmarshal
    rw [hru]; rfl
  obtain ⟨b, d, ws, h1, -, h3, h4, h5⟩ := back_struct (env := metaEnv sha1) (env' := metaEnv sha1) (id := 12) (A := fun _ => True) (Q := fun _ => True)
    (R := fun i v w => if i = 0 then w = .ptr (m.info (sha1 (benc raw))) else w = v) (fs := metaFields)
    (vs := [.ptr (m.info old), .str m.announce, tiersVal m.announceList, timeVal m.created, .str m.comment, .str m.createdBy, .str m.encoding])
    metaFields_plain (by
    intro i h ft fv hf hv
    match i with
    | 0 =>
      cases hf; cases hv
      refine .inr ⟨by decide +kernel, by simp [Nil], by simp [EmptyVal], raw, rd, .ptr (m.info (sha1 (benc raw))), ?_, trivial, rfl, ?_⟩
      · intro a _
        refine .kind (by simp [UsesMethod, infoTy, metaEnv]) (.ptr ?_)
        exact .named (by simp [UsesMethod, metaEnv]) hrd
      · intro fl id i fs us hfl hf hu hpl
        refine (DA_nilptr (id := id) rfl hf hu ⟨hfl, by simp⟩).mpr ⟨_, ?_, rfl⟩
        rw [← canon_print] at hinfo ⊢
        exact D.method (um := infoUnmarshal sha1) rfl rfl (canon_valid _ hfit) (hinfo _)
    | 1 => cases hf; cases hv; exact backF_str (by decide +kernel) hm.announce trivial rfl
    | 2 =>
      cases hf; cases hv
      cases hp : m.announceList with
      | nil => exact .inl ⟨rfl, .inr (.inl trivial)⟩
      | cons x xs =>
        have hrt : RT (some ⟨b!"AnnounceList", b!"announce-list,omitempty", false, true⟩) (.slice (.slice .str)) (tiersVal (x :: xs)) := by
          refine .field (by decide +kernel) (.slice ?_) (by simp [tiersVal, EmptyVal])
          intro e he
          obtain ⟨t, ht, rfl⟩ := List.mem_map.mp he
          refine .slice ?_
          intro e he
          obtain ⟨s, hs, rfl⟩ := List.mem_map.mp he
          refine .str ?_
          have := hm.announceList; rw [hp] at this
          exact this t ht s hs
        refine BackF.mono (rt_back (env := metaEnv sha1) hrt) ?_
        intro w hw
        show w = _
        unfold tiersVal at hw ⊢
        cases hw with
        | refl => rfl
        | slice h => rw [reorders_tiers h]
    | 3 =>
      cases hf; cases hv
      cases hc : m.created with
      | none => exact .inl ⟨rfl, .inr (.inl trivial)⟩
      | some t =>
        refine .inr ⟨by decide +kernel, by simp [timeVal, Nil], by simp [timeVal, EmptyVal], .int t, 0, .ptr (.int t), ?_, trivial, rfl, ?_⟩
        · intro a _; exact time_method rfl _ rfl t
        · intro fl id i fs us hfl hf hu hpl
          refine (DA_nilptr (id := id) rfl hf hu ⟨hfl, by simp⟩).mpr ⟨_, ?_, rfl⟩
          rw [← canon_print]
          refine D.method (um := timeUnmarshal) rfl rfl (canon_valid _ (hm.created t hc)) ?_
          rw [canon_print]
          have := D.unmarshal noEnv_sane (D_int64 (env := noEnv) (v := .int 0) (hm.created t hc) rfl) []
          rwa [List.append_nil] at this
    | 4 => cases hf; cases hv; exact backF_str (by decide +kernel) hm.comment trivial rfl
    | 5 => cases hf; cases hv; exact backF_str (by decide +kernel) hm.createdBy trivial rfl
    | 6 => cases hf; cases hv; exact backF_str (by decide +kernel) hm.encoding trivial rfl
    | n + 7 => cases hf) rfl
  refine ⟨b, d, raw, rd, fun fl => h1 fl trivial, hrd, ?_⟩
  have hd := h3 { addr := true } rfl
  match ws, h4 with
  | [w0, w1, w2, w3, w4, w5, w6], _ =>
    have k0 := h5 0 (by simp)
    have k1 := h5 1 (by simp)
    have k2 := h5 2 (by simp)
    have k3 := h5 3 (by simp)
    have k4 := h5 4 (by simp)
    have k5 := h5 5 (by simp)
    have k6 := h5 6 (by simp)
    simp at k0 k1 k2 k3 k4 k5 k6
    subst k0 k1 k2 k3 k4 k5 k6
    exact hd

theorem heights_le {vs : List Val} {n : Nat} (h : ∀ v ∈ vs, v.height ≤ n) : heights vs ≤ n := by
  induction vs with
  | nil => simp [heights]
  | cons v vs ih =>
    have h1 := ih (fun x hx => h x (by simp [hx]))
    have h2 := h v (by simp)
    simp only [heights]; omega

theorem hashVal_height (h : Bytes) : (hashVal h).height ≤ 2 := by
  have : heights (h.map fun x => Val.uint x.toNat) ≤ 1 := heights_le (by
    intro v hv; obtain ⟨x, _, rfl⟩ := List.mem_map.mp hv; simp [Val.height])
  simp only [hashVal, Val.height]; omega

theorem piecesVal_height (hs : List Bytes) : (piecesVal hs).height ≤ 3 := by
  cases hs with
  | nil => simp [piecesVal, Val.height]
  | cons h hs =>
    have : heights ((h :: hs).map hashVal) ≤ 2 := heights_le (by
      intro v hv; obtain ⟨x, _, rfl⟩ := List.mem_map.mp hv; exact hashVal_height x)
    simp only [piecesVal, Val.height]; omega

theorem tiersVal_height (ts : List (List Bytes)) : (tiersVal ts).height ≤ 3 := by
  cases ts with
  | nil => simp [tiersVal, Val.height]
  | cons t ts =>
    have : heights ((t :: ts).map fun t => Val.slice (t.map .str)) ≤ 2 := heights_le (by
      intro v hv
      obtain ⟨x, _, rfl⟩ := List.mem_map.mp hv
      have : heights (x.map Val.str) ≤ 1 := heights_le (by
        intro v hv; obtain ⟨x, _, rfl⟩ := List.mem_map.mp hv; simp [Val.height])
      simp only [Val.height]; omega)
    simp only [tiersVal, Val.height]; omega

theorem info_height (m : Single) (sha : Bytes) : (m.info sha).height ≤ 4 := by
  have h1 := hashVal_height sha
  have h2 := piecesVal_height m.pieces
  simp only [Single.info, Val.height, heights]; omega

theorem val_height (m : Single) (sha : Bytes) : (m.val sha).height ≤ 6 := by
  have h1 := info_height m sha
  have h2 := tiersVal_height m.announceList
  have h3 : (timeVal m.created).height ≤ 2 := by cases m.created <;> simp [timeVal, Val.height]
  simp only [Single.val, Val.height, heights]; omega

end Drip.Metainfo
