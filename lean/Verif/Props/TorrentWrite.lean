import Verif.Props.TorrentFile
/-
C113: how torrent files are written.
-/

namespace Drip.Metainfo
open Bencode Spec

variable {env : Env}

section
variable {fl : Flags} {id i : Nat} {fs : List (Hdr × Ty)} {vs : List Val} {hd : Hdr} {ft : Ty} {fv : Val} {L : List FieldInfo} {bs : List (Bytes × BVal)}

theorem omitted_at (hi : fs[i]? = some (hd, ft)) (hv : vs[i]? = some fv) (ha : hd.anon = false) :
    At fl (.struct id fs) (.struct vs) [i] { addr := fl.addr } ft fv ∧
    (Omitted fl (.struct id fs) (.struct vs) (leafInfo [] i hd ft) ↔ (Nil fv ∨ ((parseTag hd.tag).2 = true ∧ EmptyVal fv))) := by
  have hat : At fl (.struct id fs) (.struct vs) [i] { addr := fl.addr } ft fv := by
    have := At.field (fl := fl) (t := .struct id fs) (vs := vs) rfl hi hv .done
    rw [ha] at this
    exact this
  refine ⟨hat, ?_⟩
  have hfb : fieldByIndex (leafInfo [] i hd ft).index fl (.struct id fs) (.struct vs) = some ({ addr := fl.addr }, ft, fv) := by
    have := fieldByIndex_at hat [] (.inl rfl)
    rw [List.append_nil] at this
    exact this
  rw [omitted_iff hfb, isNil_iff, Bool.and_eq_true, Bencode.isEmpty_iff]
  rfl

/-- The rest of the fields. -/
def Rest (env : Env) (fl : Flags) (id : Nat) (fs : List (Hdr × Ty)) (vs : List Val) (L : List FieldInfo) (bs : List (Bytes × BVal)) : Prop :=
  ∃ d, DenotesF env fl (.struct id fs) (.struct vs) L bs d

theorem Rest.put (hr : Rest env fl id fs vs L bs) (hi : fs[i]? = some (hd, ft)) (hv : vs[i]? = some fv) (ha : hd.anon = false) (hn : ¬ Nil fv)
    (he : (parseTag hd.tag).2 = true → ¬ EmptyVal fv) {b : BVal} {d : Nat} (h : Denotes env { addr := fl.addr } ft fv b d) :
    Rest env fl id fs vs (leafInfo [] i hd ft :: L) ([(fieldKey hd, b)] ++ bs) := by
  obtain ⟨hat, hom⟩ := omitted_at (fl := fl) (id := id) hi hv ha
  obtain ⟨d', hr⟩ := hr
  refine ⟨_, .cons hat ?_ h hr⟩
  rw [hom]
  rintro (h | ⟨h1, h2⟩)
  · exact hn h
  · exact he h1 h2

theorem Rest.omit (hr : Rest env fl id fs vs L bs) (hi : fs[i]? = some (hd, ft)) (hv : vs[i]? = some fv) (ha : hd.anon = false)
    (he : Nil fv ∨ ((parseTag hd.tag).2 = true ∧ EmptyVal fv)) : Rest env fl id fs vs (leafInfo [] i hd ft :: L) ([] ++ bs) := by
  obtain ⟨hat, hom⟩ := omitted_at (fl := fl) (id := id) hi hv ha
  obtain ⟨d', hr⟩ := hr
  exact ⟨_, .skip (hom.mpr he) hr⟩

theorem Rest.str {b : Bytes} (hr : Rest env fl id fs vs L bs) (hi : fs[i]? = some (hd, .str)) (hv : vs[i]? = some (.str b)) (ha : hd.anon = false)
    (he : (parseTag hd.tag).2 = false) : Rest env fl id fs vs (leafInfo [] i hd .str :: L) ([(fieldKey hd, .str b)] ++ bs) :=
  hr.put hi hv ha (by simp [Nil]) (by simp [he]) (.kind (by simp [UsesMethod]) .str)

theorem Rest.int {n : Int} (hr : Rest env fl id fs vs L bs) (hi : fs[i]? = some (hd, .int 64)) (hv : vs[i]? = some (.int n)) (ha : hd.anon = false)
    (he : (parseTag hd.tag).2 = false) : Rest env fl id fs vs (leafInfo [] i hd (.int 64) :: L) ([(fieldKey hd, .int n)] ++ bs) :=
  hr.put hi hv ha (by simp [Nil]) (by simp [he]) (.kind (by simp [UsesMethod]) .int)

theorem Rest.optStr {b : Bytes} (hr : Rest env fl id fs vs L bs) (hi : fs[i]? = some (hd, .str)) (hv : vs[i]? = some (.str b)) (ha : hd.anon = false)
    (he : (parseTag hd.tag).2 = true) : Rest env fl id fs vs (leafInfo [] i hd .str :: L) (Spec.optStr (fieldKey hd) b ++ bs) := by
  unfold Spec.optStr
  split
  · next h => exact hr.omit hi hv ha (.inr ⟨he, h⟩)
  · next h => exact hr.put hi hv ha (by simp [Nil]) (fun _ => h) (.kind (by simp [UsesMethod]) .str)

theorem Rest.optInt {n : Int} (hr : Rest env fl id fs vs L bs) (hi : fs[i]? = some (hd, .int 64)) (hv : vs[i]? = some (.int n)) (ha : hd.anon = false)
    (he : (parseTag hd.tag).2 = true) : Rest env fl id fs vs (leafInfo [] i hd (.int 64) :: L) (Spec.optInt (fieldKey hd) n ++ bs) := by
  unfold Spec.optInt
  split
  · next h => exact hr.omit hi hv ha (.inr ⟨he, h⟩)
  · next h => exact hr.put hi hv ha (by simp [Nil]) (fun _ => h) (.kind (by simp [UsesMethod]) .int)

theorem denotesL_of {fl : Flags} {t : Ty} {α : Type} {f : α → Val} {g : α → BVal} : ∀ {l : List α}, (∀ a ∈ l, ∃ d, Denotes env fl t (f a) (g a) d) →
    ∃ d, DenotesL env fl t (l.map f) (l.map g) d
  | [], _ => ⟨0, .nil⟩
  | a :: l, h => by
    obtain ⟨d, h1⟩ := h a (by simp)
    obtain ⟨d', h2⟩ := denotesL_of (l := l) fun b hb => h b (by simp [hb])
    exact ⟨_, .cons h1 h2⟩

theorem Rest.optList {et : Ty} {α : Type} {f : α → Val} {g : α → BVal} {l : List α} (hr : Rest env fl id fs vs L bs) (hi : fs[i]? = some (hd, .slice et))
    (hv : vs[i]? = some (sliceVal (l.map f))) (ha : hd.anon = false) (h : ∀ a ∈ l, ∃ d, Denotes env { addr := true } et (f a) (g a) d) :
    Rest env fl id fs vs (leafInfo [] i hd (.slice et) :: L) (Spec.optList (fieldKey hd) (l.map g) ++ bs) := by
  cases l with
  | nil => exact hr.omit hi hv ha (.inl trivial)
  | cons a l =>
    obtain ⟨d, hd'⟩ := denotesL_of h
    exact hr.put hi hv ha (by simp [sliceVal, Nil]) (by simp [sliceVal, EmptyVal]) (.kind (by simp [UsesMethod]) (.slice hd'))

end

theorem Rest.dict {fl : Flags} {id : Nat} {fs : List (Hdr × Ty)} {vs : List Val} {bs bs' : List (Bytes × BVal)}
    (h : Rest env fl id fs vs (structFields (.struct id fs)) bs) (e : bs = bs') : ∃ d, DenotesK env fl (.struct id fs) (.struct vs) (.dict bs') d := by
  obtain ⟨d, h⟩ := h
  rw [← e]
  exact ⟨_, .struct h⟩

theorem pieces_eq (hs : List Bytes) : sliceVal (hs.map fun h => .array (h.map fun x => .uint x.toNat)) = piecesVal hs := by cases hs <;> rfl

theorem Rest.pieces {fl : Flags} {id i : Nat} {fs : List (Hdr × Ty)} {vs : List Val} {hd : Hdr} {L : List FieldInfo} {bs : List (Bytes × BVal)} {hs : List Bytes}
    (hr : Rest env fl id fs vs L bs) (henv : (env piecesId).marshal = some piecesMarshal) (hfl : fl.addr = true) (hi : fs[i]? = some (hd, piecesTy))
    (hv : vs[i]? = some (sliceVal (hs.map fun h => .array (h.map fun x => .uint x.toNat)))) (ha : hd.anon = false) (he : (parseTag hd.tag).2 = false) :
    Rest env fl id fs vs (leafInfo [] i hd piecesTy :: L) ((if hs = [] then [] else [(fieldKey hd, .str hs.flatten)]) ++ bs) := by
  split
  · next h => exact hr.omit hi hv ha (.inl (by rw [h]; trivial))
  · next h =>
    refine hr.put (d := 0) hi hv ha ?_ (by simp [he]) (.method (.addr (m := piecesMarshal) henv hfl rfl ?_))
    · simp [sliceVal, h, Nil]
    · rw [pieces_eq, piecesMarshal_val, marshal_str]

theorem Rest.date {fl : Flags} {id i : Nat} {fs : List (Hdr × Ty)} {vs : List Val} {hd : Hdr} {L : List FieldInfo} {bs : List (Bytes × BVal)} {c : Option Int}
    (hr : Rest env fl id fs vs L bs) (henv : (env timeId).marshal = some timeMarshal) (hi : fs[i]? = some (hd, .ptr timeTy))
    (hv : vs[i]? = some (dateVal c)) (ha : hd.anon = false) :
    Rest env fl id fs vs (leafInfo [] i hd (.ptr timeTy) :: L) (optDate (fieldKey hd) c ++ bs) := by
  cases c with
  | none => exact hr.omit hi hv ha (.inl trivial)
  | some t => exact hr.put (fv := .ptr (.int t)) hi hv ha (by simp [Nil]) (by simp [EmptyVal]) (time_method henv _ rfl t)

theorem fileTy_fields : structFields fileTy = [leafInfo [] 0 ⟨b!"Length", b!"length", false, true⟩ (.int 64),
    leafInfo [] 1 ⟨b!"MD5Sum", b!"md5sum,omitempty", false, true⟩ .str, leafInfo [] 2 ⟨b!"Path", b!"path", false, true⟩ (.slice .str)] := by kernel_rfl

theorem file_writes (f : FileOf) (fl : Flags) : ∃ d, DenotesK env fl fileTy f.val f.tree d := by
  unfold FileOf.tree
  refine Rest.dict (bs := [(b!"length", .int f.length)] ++ (Spec.optStr b!"md5sum" f.md5sum ++ (Spec.optList b!"path" (f.path.map .str) ++ []))) ?_ (by simp)
  rw [← fileTy, fileTy_fields]
  have h0 : Rest env fl 10 [(⟨b!"Length", b!"length", false, true⟩, .int 64), (⟨b!"MD5Sum", b!"md5sum,omitempty", false, true⟩, .str),
    (⟨b!"Path", b!"path", false, true⟩, .slice .str)] [.int f.length, .str f.md5sum, sliceVal (f.path.map .str)] [] [] := ⟨0, .nil⟩
  have h1 := h0.optList (i := 2) (g := .str) rfl rfl rfl (fun a _ => ⟨0, .kind (by simp [UsesMethod]) .str⟩)
  have h2 := h1.optStr (i := 1) rfl rfl rfl (by decide +kernel)
  exact h2.int (i := 0) rfl rfl rfl (by decide +kernel)

theorem info_fields : structFields infoStruct = [
    leafInfo [] 7 ⟨b!"Files", b!"files,omitempty", false, true⟩ (.slice (.ptr fileTy)),
    leafInfo [] 5 ⟨b!"Length", b!"length,omitempty", false, true⟩ (.int 64),
    leafInfo [] 6 ⟨b!"MD5Sum", b!"md5sum,omitempty", false, true⟩ .str,
    leafInfo [] 4 ⟨b!"Name", b!"name", false, true⟩ .str,
    leafInfo [] 1 ⟨b!"PieceLength", b!"piece length", false, true⟩ (.int 64),
    leafInfo [] 2 ⟨b!"Pieces", b!"pieces", false, true⟩ piecesTy,
    leafInfo [] 3 ⟨b!"Private", b!"private,omitempty", false, true⟩ (.int 64)] := by kernel_rfl

theorem info_writes {env : Env} (henv : (env piecesId).marshal = some piecesMarshal) (m : Torrent) (sha : Bytes) :
    ∃ d, DenotesK env { addr := true } infoStruct (m.infoVal sha) m.infoTree d := by
  unfold Torrent.infoTree
  refine Rest.dict (bs := Spec.optList b!"files" (m.files.map FileOf.tree) ++ (Spec.optInt b!"length" m.length ++ (Spec.optStr b!"md5sum" m.md5sum ++
    ([(b!"name", .str m.name)] ++ ([(b!"piece length", .int m.pieceLength)] ++ ((if m.pieces = [] then [] else [(b!"pieces", .str m.pieces.flatten)]) ++
    (Spec.optInt b!"private" m.priv ++ []))))))) ?_ (by simp)
  rw [← infoStruct, info_fields]
  have h0 : Rest env { addr := true } 11 infoFields [.array (sha.map fun x => .uint x.toNat), .int m.pieceLength,
    sliceVal (m.pieces.map fun h => .array (h.map fun x => .uint x.toNat)), .int m.priv,
    .str m.name, .int m.length, .str m.md5sum, sliceVal (m.files.map fun f => .ptr f.val)] [] [] := ⟨0, .nil⟩
  have h1 := h0.optInt (i := 3) rfl rfl rfl (by decide +kernel)
  have h2 := h1.pieces (i := 2) henv rfl rfl rfl rfl (by decide +kernel)
  have h3 := h2.int (i := 1) rfl rfl rfl (by decide +kernel)
  have h4 := h3.str (i := 4) rfl rfl rfl (by decide +kernel)
  have h5 := h4.optStr (i := 6) rfl rfl rfl (by decide +kernel)
  have h6 := h5.optInt (i := 5) rfl rfl rfl (by decide +kernel)
  refine h6.optList (i := 7) rfl rfl rfl fun f _ => ?_
  obtain ⟨d, hd⟩ := file_writes (env := env) f { addr := true }
  exact ⟨d, .kind (by simp [UsesMethod, fileTy]) (.ptr (.kind (by simp [UsesMethod, fileTy]) hd))⟩

theorem meta_fields : structFields metaTy = [
    leafInfo [] 1 ⟨b!"Announce", b!"announce", false, true⟩ .str,
    leafInfo [] 2 ⟨b!"AnnounceList", b!"announce-list,omitempty", false, true⟩ (.slice (.slice .str)),
    leafInfo [] 4 ⟨b!"Comment", b!"comment,omitempty", false, true⟩ .str,
    leafInfo [] 5 ⟨b!"CreatedBy", b!"created by,omitempty", false, true⟩ .str,
    leafInfo [] 3 ⟨b!"CreationDate", b!"creation date,omitempty", false, true⟩ (.ptr timeTy),
    leafInfo [] 6 ⟨b!"Encoding", b!"encoding,omitempty", false, true⟩ .str,
    leafInfo [] 0 ⟨b!"Info", b!"info", false, true⟩ (.ptr infoTy)] := by kernel_rfl

theorem meta_writes (sha1 : Bytes → Bytes) (m : Torrent) (sha : Bytes) (fl : Flags) : ∃ d, DenotesK (metaEnv sha1) fl metaTy (m.val sha) m.tree d := by
  unfold Torrent.tree
  refine Rest.dict (bs := [(b!"announce", .str m.announce)] ++ (Spec.optList b!"announce-list" (m.announceList.map fun t => .list (t.map .str)) ++
    (Spec.optStr b!"comment" m.comment ++ (Spec.optStr b!"created by" m.createdBy ++
    (optDate b!"creation date" m.created ++ (Spec.optStr b!"encoding" m.encoding ++
    ([(b!"info", m.infoTree)] ++ []))))))) ?_ (by simp)
  rw [← metaTy, meta_fields]
  have h0 : Rest (metaEnv sha1) fl 12 metaFields [.ptr (m.infoVal sha), .str m.announce, sliceVal (m.announceList.map fun t => .slice (t.map .str)),
    dateVal m.created, .str m.comment, .str m.createdBy, .str m.encoding] [] [] := ⟨0, .nil⟩
  obtain ⟨d, hd⟩ := info_writes (env := metaEnv sha1) rfl m sha
  have h1 := h0.put (i := 0) (hd := ⟨b!"Info", b!"info", false, true⟩) (ft := .ptr infoTy) (fv := .ptr (m.infoVal sha)) (b := m.infoTree) rfl rfl rfl (by simp [Nil])
    (by simp [EmptyVal]) (.kind (by simp [UsesMethod, infoTy, metaEnv]) (.ptr (.named (by simp [UsesMethod, metaEnv]) hd)))
  have h2 := h1.optStr (i := 6) rfl rfl rfl (by decide +kernel)
  have h3 := h2.date (i := 3) rfl rfl rfl rfl
  have h4 := h3.optStr (i := 5) rfl rfl rfl (by decide +kernel)
  have h5 := h4.optStr (i := 4) rfl rfl rfl (by decide +kernel)
  have h6 := h5.optList (i := 2) (g := fun t => .list (t.map .str)) rfl rfl rfl (fun t _ => by
    obtain ⟨d, hd⟩ := denotesL_of (env := metaEnv sha1) (fl := { addr := true }) (t := .str) (f := .str) (g := .str) (l := t)
      (fun b _ => ⟨0, .kind (by simp [UsesMethod]) .str⟩)
    exact ⟨_, .kind (by simp [UsesMethod]) (.slice hd)⟩)
  exact h6.str (i := 1) rfl rfl rfl (by decide +kernel)

theorem marshal_of {sha1 : Bytes → Bytes} {t : Ty} {v : Val} {b : BVal} {d : Nat} (h : Denotes (metaEnv sha1) { addr := false } t v b d) (hh : v.height ≤ 1000) :
    marshal (metaEnv sha1) t v = .ok (benc b) := by
  have := denotes_height _ _ _ _ _ _ _ h (Nat.le_refl _)
  exact (C20_limit h).1 (by omega)

theorem sliceVal_height {vs : List Val} {n : Nat} (h : ∀ v ∈ vs, v.height ≤ n) : (sliceVal vs).height ≤ n + 1 := by
  unfold sliceVal
  split
  · simp [Val.height]
  · have := heights_le h
    simp only [Val.height]; omega

theorem file_height (f : FileOf) : f.val.height ≤ 3 := by
  have := sliceVal_height (vs := f.path.map .str) (n := 1) (by intro v hv; obtain ⟨x, _, rfl⟩ := List.mem_map.mp hv; simp [Val.height])
  simp only [FileOf.val, Val.height, heights]; omega

theorem infoVal_height (m : Torrent) (sha : Bytes) : (m.infoVal sha).height ≤ 6 := by
  have h1 := hashVal_height sha
  have h2 := sliceVal_height (vs := m.pieces.map fun h => .array (h.map fun x => .uint x.toNat)) (n := 2) (by
    intro v hv; obtain ⟨x, _, rfl⟩ := List.mem_map.mp hv; exact hashVal_height x)
  have h3 := sliceVal_height (vs := m.files.map fun f => .ptr f.val) (n := 4) (by
    intro v hv; obtain ⟨x, _, rfl⟩ := List.mem_map.mp hv; have := file_height x; simp only [Val.height]; omega)
  simp only [hashVal] at h1
  simp only [Torrent.infoVal, Val.height, heights] at *; omega

theorem torrent_height (m : Torrent) (sha : Bytes) : (m.val sha).height ≤ 8 := by
  have h1 := infoVal_height m sha
  have h2 := sliceVal_height (vs := m.announceList.map fun t => .slice (t.map .str)) (n := 2) (by
    intro v hv
    obtain ⟨x, _, rfl⟩ := List.mem_map.mp hv
    have : heights (x.map Val.str) ≤ 1 := heights_le (by intro v hv; obtain ⟨x, _, rfl⟩ := List.mem_map.mp hv; simp [Val.height])
    simp only [Val.height]; omega)
  have h3 : (dateVal m.created).height ≤ 2 := by cases m.created <;> simp [dateVal, Val.height]
  simp only [Torrent.val, Val.height, heights]; omega

/-- **C113.** A torrent, with one file or many, is written in the layout of torrent files, whether it is passed by value or
by pointer. -/
theorem C113_writes (sha1 : Bytes → Bytes) (m : Torrent) (sha : Bytes) :
    marshal (metaEnv sha1) metaTy (m.val sha) = .ok (benc m.tree) ∧ marshal (metaEnv sha1) (.ptr metaTy) (.ptr (m.val sha)) = .ok (benc m.tree) := by
  have hh := torrent_height m sha
  obtain ⟨d, h⟩ := meta_writes sha1 m sha { addr := false }
  obtain ⟨d', h'⟩ := meta_writes sha1 m sha { addr := true }
  refine ⟨marshal_of (.kind (by simp [UsesMethod, metaTy]) h) (by omega),
    marshal_of (.kind (by simp [UsesMethod, metaTy]) (.ptr (.kind (by simp [UsesMethod, metaTy]) h'))) (by simp only [Val.height]; omega)⟩

/-- **C113.** The info dictionary by itself, passed by pointer, is written as it is within the torrent file. -/
theorem C113_info_partial (sha1 : Bytes → Bytes) (m : Torrent) (sha : Bytes) :
    marshal (metaEnv sha1) (.ptr infoTy) (.ptr (m.infoVal sha)) = .ok (benc m.infoTree) := by
  have hh := infoVal_height m sha
  obtain ⟨d, h⟩ := info_writes (env := metaEnv sha1) rfl m sha
  exact marshal_of (.kind (by simp [UsesMethod, infoTy, metaEnv]) (.ptr (.named (by simp [UsesMethod, metaEnv]) h))) (by simp only [Val.height]; omega)

/-- A torrent of two files. -/
def exTorrent : Torrent where
  pieceLength := 8
  pieces := [List.replicate 20 65, List.replicate 20 66]
  priv := 1
  name := b!"n"
  length := 0
  md5sum := []
  files := [⟨5, [], [b!"a", b!"b"]⟩, ⟨6, b!"m", [b!"c"]⟩]
  announce := b!"t"
  announceList := [[b!"t"], [b!"u", b!"v"]]
  created := some 7
  comment := []
  createdBy := b!"me"
  encoding := []

example : benc exTorrent.tree = b!"d8:announce1:t13:announce-listll1:tel1:u1:vee10:created by2:me13:creation datei7e4:infod5:filesld6:lengthi5e4:pathl1:a1:beed6:lengthi6e6:md5sum1:m4:pathl1:ceee4:name1:n12:piece lengthi8e6:pieces40:AAAAAAAAAAAAAAAAAAAABBBBBBBBBBBBBBBBBBBB7:privatei1eee" := by
  kernel_rfl

/-- **C113 is false** for the info passed by value: its pieces are written as lists of numbers. -/
theorem C113_by_value_refuted : marshal (metaEnv toySha) infoTy ({ exTorrent with pieces := [List.replicate 20 1], files := [], priv := 0 }.infoVal []) =
    .ok (b!"d4:name1:n12:piece lengthi8e6:piecesll" ++ (List.replicate 20 b!"i1e").flatten ++ b!"eee") := by kernel_rfl

end Drip.Metainfo
