import Verif.Props.Metainfo
import Verif.Spec.TorrentFile
/-
Reading torrent files: which texts each field accepts, and what a struct accepts as a whole.
-/

namespace Drip.Metainfo
open Bencode Spec

variable {env : Env}

/-- Decoding one field of a zeroed struct. -/
def FieldReads (env : Env) (ft : Ty) (c : Bytes) (x : Val) : Prop :=
  (NotPtr ft ∧ D env { addr := true } ft (zero ft) c x) ∨ ∃ et y, ft = .ptr et ∧ x = .ptr y ∧ D env { addr := true } et (zero et) c y

theorem FieldReads.unique {ft : Ty} {c : Bytes} {x y : Val} (h : FieldReads env ft c x) (h' : FieldReads env ft c y) : x = y := by
  rcases h with ⟨h1, h2⟩ | ⟨et, z, rfl, rfl, h2⟩
  · rcases h' with ⟨_, h3⟩ | ⟨et, z, rfl, _, _⟩
    · exact h2.unique h3
    · exact absurd h1 (by simp [NotPtr])
  · rcases h' with ⟨h3, _⟩ | ⟨et', z', e, rfl, h3⟩
    · exact absurd h3 (by simp [NotPtr])
    · cases e; rw [h2.unique h3]

theorem keysFrom_lt {es : List (Bytes × Bytes × CTree)} : ∀ {last : Bytes}, KeysFrom last es → ∀ {l k t}, (l, k, t) ∈ es → BLt last k := by
  induction es with
  | nil => intro _ _ _ _ _ h; simp at h
  | cons e es ih =>
    obtain ⟨l', k', t'⟩ := e
    intro last h l k t hm
    rcases List.mem_cons.mp hm with e | hm
    · cases e; exact h.2.1
    · exact BLt.trans h.2.1 (ih h.2.2 hm)

theorem keysFrom_unique {es : List (Bytes × Bytes × CTree)} : ∀ {last : Bytes}, KeysFrom last es → ∀ {l l' k t t'}, (l, k, t) ∈ es → (l', k, t') ∈ es →
    t = t' := by
  induction es with
  | nil => intro _ _ _ _ _ _ _ h; simp at h
  | cons e es ih =>
    obtain ⟨l0, k0, t0⟩ := e
    intro last h l l' k t t' hm hm'
    rcases List.mem_cons.mp hm with e | hm
    · cases e
      rcases List.mem_cons.mp hm' with e | hm'
      · cases e; rfl
      · exact absurd (keysFrom_lt h.2.2 hm') (BLt.irrefl _)
    · rcases List.mem_cons.mp hm' with e | hm'
      · cases e; exact absurd (keysFrom_lt h.2.2 hm) (BLt.irrefl _)
      · exact ih h.2.2 hm hm'

theorem keysFrom_of_valid {s : Bool} {hi : Int} {es : List (Bytes × Bytes × CTree)} : ∀ {last : Bytes}, ValidEs s hi last es → KeysFrom last es := by
  induction es with
  | nil => intro _ _; trivial
  | cons e es ih => obtain ⟨l, k, t⟩ := e; intro last h; exact ⟨h.1, h.2.1, ih h.2.2.2⟩

theorem valid_of_mem {s : Bool} {hi : Int} {es : List (Bytes × Bytes × CTree)} : ∀ {last : Bytes}, ValidEs s hi last es → ∀ {l k t}, (l, k, t) ∈ es →
    t.Valid s hi := by
  induction es with
  | nil => intro _ _ _ _ _ h; simp at h
  | cons e es ih =>
    obtain ⟨l', k', t'⟩ := e
    intro last h l k t hm
    rcases List.mem_cons.mp hm with e | hm
    · cases e; exact h.2.2.1
    · exact ih h.2.2.2 hm

/-- Entries with unknown keys are well-formed, fields that are never written stay. -/
theorem loop_others {id : Nat} {fs : List (Hdr × Ty)} (hp : PlainStruct fs) {last : Bytes} {v w : Val} {es' : List (Bytes × Bytes × Bytes)}
    (h : SLoop env { addr := true } (.struct id fs) last v es' w) : ∀ es us, es' = textEs es → v = .struct us → SynEs es →
    (∀ l k t, (l, k, t) ∈ es → (∀ (i : Nat) (hd : Hdr) (ft : Ty), fs[i]? = some (hd, ft) → ¬ Hidden hd → fieldKey hd ≠ k) → CV t) ∧
    ∃ ws, w = .struct ws ∧ ws.length = us.length ∧ ∀ (i : Nat) (hd : Hdr) (ft : Ty), fs[i]? = some (hd, ft) → Hidden hd → ws[i]? = us[i]? := by
  induction h with
  | nil =>
    intro es us e hv _
    cases es with
    | nil => exact ⟨by intro _ _ _ h; simp at h, us, hv, rfl, fun _ _ _ _ _ => rfl⟩
    | cons e' es => obtain ⟨_, _, _⟩ := e'; simp [textEs] at e
  | skip hl hb hn htr _ ih =>
    intro es us e hv hs
    cases es with
    | nil => simp [textEs] at e
    | cons e' es =>
      obtain ⟨l', k', t'⟩ := e'
      simp only [textEs, List.cons.injEq, Prod.mk.injEq] at e
      obtain ⟨⟨rfl, rfl, e⟩, rfl⟩ := e
      obtain ⟨rfl, -⟩ := print_unique _ _ (Valid.syn _ htr) hs.2.1 [] [] (by simpa using e)
      obtain ⟨h1, h2⟩ := ih es us rfl hv hs.2.2
      refine ⟨?_, h2⟩
      intro l k t hm hk
      rcases List.mem_cons.mp hm with e | hm
      · cases e; exact htr
      · exact h1 l k t hm hk
  | field hl hb hk hd _ ih =>
    intro es us e hv hs
    cases es with
    | nil => simp [textEs] at e
    | cons e' es =>
      obtain ⟨l', k', t'⟩ := e'
      simp only [textEs, List.cons.injEq, Prod.mk.injEq] at e
      obtain ⟨⟨rfl, rfl, rfl⟩, rfl⟩ := e
      subst hv
      obtain ⟨hf, hfk⟩ := lookupKey_some hk
      rw [keyToField_plain hp, mem_infos] at hf
      obtain ⟨i, h, ft, hi, hh, rfl⟩ := hf
      have hidx : (leafInfo [] (0 + i) h ft).index = [i] := by simp [leafInfo]
      rw [hidx] at hd
      obtain ⟨u, rfl⟩ := DA_single hd
      obtain ⟨h1, ws, h2, h3, h4⟩ := ih es _ rfl rfl hs.2.2
      refine ⟨?_, ws, h2, by simpa using h3, ?_⟩
      · intro l k t hm hk'
        rcases List.mem_cons.mp hm with e | hm
        · cases e; exact absurd hfk (hk' i h ft hi hh)
        · exact h1 l k t hm hk'
      · intro j hd' ft' hj hhid
        rw [h4 j hd' ft' hj hhid, List.getElem?_set_ne]
        rintro rfl
        rw [hi] at hj; cases hj; exact hh hhid

/-- There is a run for every dictionary whose known entries can be read. -/
theorem loop_total {id : Nat} {fs : List (Hdr × Ty)} (hp : PlainStruct fs) : ∀ (es : List (Bytes × Bytes × CTree)) (last : Bytes) (us : List Val),
    KeysFrom last es → us.length = fs.length →
    (∀ l k t, (l, k, t) ∈ es → (∀ (i : Nat) (hd : Hdr) (ft : Ty), fs[i]? = some (hd, ft) → ¬ Hidden hd → fieldKey hd ≠ k) → CV t) →
    (∀ l k t, (l, k, t) ∈ es → ∀ (i : Nat) (hd : Hdr) (ft : Ty), fs[i]? = some (hd, ft) → ¬ Hidden hd → fieldKey hd = k →
      us[i]? = some (zero ft) ∧ ∃ x, FieldReads env ft t.print x) →
    ∃ w, SLoop env { addr := true } (.struct id fs) last (.struct us) (textEs es) w := by
  intro es
  induction es with
  | nil => intro last us _ _ _ _; exact ⟨_, .nil⟩
  | cons e es ih =>
    obtain ⟨l, k, t⟩ := e
    intro last us hk hl ho hf
    cases hlk : lookupKey k (keyToField (.struct id fs)) with
    | none =>
      obtain ⟨w, hw⟩ := ih k us hk.2.2 hl (fun l' k' t' hm => ho l' k' t' (by simp [hm])) (fun l' k' t' hm => hf l' k' t' (by simp [hm]))
      refine ⟨w, .skip hk.1 hk.2.1 hlk (ho l k t (by simp) ?_) hw⟩
      intro i hd ft hi hh e
      rw [← e, lookup_plain hp hi hh] at hlk
      cases hlk
    | some f =>
      obtain ⟨hm, hfk⟩ := lookupKey_some hlk
      rw [keyToField_plain hp, mem_infos] at hm
      obtain ⟨i, hd, ft, hi, hh, rfl⟩ := hm
      have hidx : (leafInfo [] (0 + i) hd ft).index = [i] := by simp [leafInfo]
      have hkey : fieldKey hd = k := hfk
      obtain ⟨hz, x, hx⟩ := hf l k t (by simp) i hd ft hi hh hkey
      have hpl : PlainField hd := (hp.1 (hd, ft) (List.mem_of_getElem? hi)).resolve_left hh
      obtain ⟨w, hw⟩ := ih k (us.set i x) hk.2.2 (by simpa using hl) (fun l' k' t' hm => ho l' k' t' (by simp [hm])) (by
        intro l' k' t' hm i' hd' ft' hi' hh' hk'
        obtain ⟨h1, h2⟩ := hf l' k' t' (by simp [hm]) i' hd' ft' hi' hh' hk'
        refine ⟨?_, h2⟩
        rw [List.getElem?_set_ne, h1]
        rintro rfl
        rw [hi] at hi'; cases hi'
        have := keysFrom_lt hk.2.2 hm
        rw [← hk', hkey] at this
        exact BLt.irrefl _ this)
      refine ⟨w, .field hk.1 hk.2.1 hlk ?_ hw⟩
      rw [hidx]
      rcases hx with ⟨h1, h2⟩ | ⟨et, y, rfl, rfl, h2⟩
      · exact (DA_field (id := id) rfl hi hz h1).mpr ⟨x, by simpa [hpl.2.1] using h2, rfl⟩
      · exact (DA_nilptr (id := id) rfl hi hz ⟨rfl, by simp [hpl.2.1]⟩).mpr ⟨y, h2, rfl⟩

/-- What is read into a zeroed struct without embedded fields. -/
theorem struct_reads {id : Nat} {fs : List (Hdr × Ty)} (hp : PlainStruct fs) {es : List (Bytes × Bytes × CTree)} (hs : SynEs es) {w : Val} :
    D env { addr := true } (.struct id fs) (zero (.struct id fs)) (CTree.dict es).print w ↔
      KeysFrom [] es ∧
      (∀ l k t, (l, k, t) ∈ es → (∀ (i : Nat) (hd : Hdr) (ft : Ty), fs[i]? = some (hd, ft) → ¬ Hidden hd → fieldKey hd ≠ k) → CV t) ∧
      ∃ ws, w = .struct ws ∧ ws.length = fs.length ∧ ∀ (i : Nat) (hd : Hdr) (ft : Ty), fs[i]? = some (hd, ft) → ∃ x, ws[i]? = some x ∧
        (Hidden hd → x = zero ft) ∧ (¬ Hidden hd → Entry es (fieldKey hd) (zero ft) (fun t => FieldReads env ft t.print) x) := by
  have fwd : ∀ {w}, D env { addr := true } (.struct id fs) (zero (.struct id fs)) (CTree.dict es).print w →
      KeysFrom [] es ∧
      (∀ l k t, (l, k, t) ∈ es → (∀ (i : Nat) (hd : Hdr) (ft : Ty), fs[i]? = some (hd, ft) → ¬ Hidden hd → fieldKey hd ≠ k) → CV t) ∧
      ∃ ws, w = .struct ws ∧ ws.length = fs.length ∧ ∀ (i : Nat) (hd : Hdr) (ft : Ty), fs[i]? = some (hd, ft) → ∃ x, ws[i]? = some x ∧
        (Hidden hd → x = zero ft) ∧ (¬ Hidden hd → Entry es (fieldKey hd) (zero ft) (fun t => FieldReads env ft t.print) x) := by
    intro w h
    have h4 := (D.struct_iff hs).mp h
    obtain ⟨ho, ws, hw, hl, hhid⟩ := loop_others hp h4 es (zeros fs) rfl rfl hs
    obtain ⟨tr, htr, e⟩ := h.tree
    obtain ⟨rfl, -⟩ := print_unique (.dict es) tr hs (Valid.syn tr htr) [] [] (by simpa using e)
    refine ⟨keysFrom_of_valid htr, ho, ws, hw, by rw [hl, zeros_length], ?_⟩
    intro i hd ft hi
    obtain ⟨ilt, _⟩ := List.getElem?_eq_some_iff.mp hi
    by_cases hh : Hidden hd
    · refine ⟨zero ft, ?_, fun _ => rfl, fun h => absurd hh h⟩
      rw [hhid i hd ft hi hh, zeros_get, hi]; rfl
    · obtain ⟨ws', x, e, -, hx, hy⟩ := field_of_loop hp h4 hi hh
      rw [hw] at e; cases e
      exact ⟨x, hx, fun h => absurd h hh, fun _ => hy⟩
  refine ⟨fwd, ?_⟩
  rintro ⟨hk, ho, ws, rfl, hl, hf⟩
  obtain ⟨w', hw'⟩ := loop_total (env := env) (id := id) hp es [] (zeros fs) hk (zeros_length fs) ho (by
    intro l k t hm i hd ft hi hh hkey
    refine ⟨by rw [zeros_get, hi]; rfl, ?_⟩
    obtain ⟨x, -, -, h2⟩ := hf i hd ft hi
    rcases h2 hh with ⟨h3, _⟩ | ⟨l', t', h3, h4⟩
    · exact absurd hkey.symm (h3 _ hm)
    · rw [hkey] at h3
      rw [keysFrom_unique hk hm h3]
      exact ⟨x, h4⟩)
  have hD := (D.struct_iff hs).mpr hw'
  change D env { addr := true } (.struct id fs) (zero (.struct id fs)) _ w' at hD
  obtain ⟨-, -, ws', rfl, hl', hf'⟩ := fwd hD
  have : ws' = ws := by
    refine List.ext_getElem? fun i => ?_
    by_cases hi : i < fs.length
    · obtain ⟨⟨hd, ft⟩, hfi⟩ : ∃ f, fs[i]? = some f := ⟨fs[i], List.getElem?_eq_getElem hi⟩
      obtain ⟨x, h1, h2, h3⟩ := hf i hd ft hfi
      obtain ⟨x', h1', h2', h3'⟩ := hf' i hd ft hfi
      rw [h1, h1']
      by_cases hh : Hidden hd
      · rw [h2 hh, h2' hh]
      · rcases h3 hh with ⟨a, b⟩ | ⟨l, t, a, b⟩ <;> rcases h3' hh with ⟨a', b'⟩ | ⟨l', t', a', b'⟩
        · rw [b, b']
        · exact absurd rfl (a _ a')
        · exact absurd rfl (a' _ a)
        · rw [keysFrom_unique hk a' a] at b'
          rw [b.unique b']
    · rw [List.getElem?_eq_none (by omega), List.getElem?_eq_none (by omega)]
  rw [← this]; exact hD

/-! ### The types of the fields -/

theorem reads_str {t : CTree} (hs : Syn t) {v x : Val} : D env { addr := true } .str v t.print x ↔ IsStr t x := by
  constructor
  · intro h
    obtain ⟨l, b, hl, e, rfl⟩ := h.str_inv
    obtain ⟨rfl, -⟩ := print_unique t (.str l b) hs hl.1 [] [] (by simpa [CTree.print] using e)
    exact ⟨l, b, rfl, hl, rfl⟩
  · rintro ⟨l, b, rfl, hl, rfl⟩
    exact D.str rfl hl

theorem reads_int {t : CTree} (hs : Syn t) {v x : Val} : D env { addr := true } (.int 64) v t.print x ↔ IsInt t x := by
  constructor
  · intro h
    obtain ⟨s, n, h1, h2, h3, h4, e, rfl⟩ := h.int_inv
    obtain ⟨rfl, -⟩ := print_unique t (.int s n) hs h1 [] [] (by simpa [CTree.print] using e)
    exact ⟨s, n, rfl, h1, h2, h3, h4, by rw [wrapInt_self (by decide) h3 h4]⟩
  · rintro ⟨s, n, rfl, h1, h2, h3, h4, rfl⟩
    have := D.int (env := env) (fl := { addr := true }) (bits := 64) (v := v) rfl h1 h2 h3 h4
    rw [wrapInt_self (by decide) h3 h4] at this
    exact this

theorem syns_mem {ts : List CTree} (h : Syns ts) : ∀ t ∈ ts, Syn t := by
  induction ts with
  | nil => simp
  | cons t ts ih =>
    intro u hu
    rcases List.mem_cons.mp hu with rfl | hu
    · exact h.1
    · exact ih h.2 u hu

theorem dl_trees {et : Ty} {cs : List Bytes} {ws : List Val} (h : DL env et cs ws) :
    ∃ ts, Valids false (2 ^ 64) ts ∧ cs.flatten = prints ts ∧ List.Forall₂ (fun t x => D env { addr := true } et (zero et) t.print x) ts ws := by
  induction h with
  | nil => exact ⟨[], trivial, rfl, .nil⟩
  | cons h _ ih =>
    obtain ⟨ts, h1, h2, h3⟩ := ih
    obtain ⟨tr, htr, rfl⟩ := h.tree
    exact ⟨tr :: ts, ⟨htr, h1⟩, by simp [prints, h2], .cons h h3⟩

theorem dl_of {et : Ty} {ts : List CTree} {ws : List Val} (h : List.Forall₂ (fun t x => D env { addr := true } et (zero et) t.print x) ts ws) :
    ∃ cs, DL env et cs ws ∧ cs.flatten = prints ts := by
  induction h with
  | nil => exact ⟨[], .nil, rfl⟩
  | cons h _ ih =>
    obtain ⟨cs, h1, h2⟩ := ih
    exact ⟨_ :: cs, .cons h h1, by simp [prints, h2]⟩

theorem forall2_imp {R S : CTree → Val → Prop} {ts : List CTree} {ws : List Val} (h : List.Forall₂ R ts ws) :
    (∀ t ∈ ts, ∀ x, R t x → S t x) → List.Forall₂ S ts ws := by
  induction h with
  | nil => intro _; exact .nil
  | cons h _ ih => intro hi; exact .cons (hi _ (by simp) _ h) (ih fun t ht => hi t (by simp [ht]))

theorem reads_list {et : Ty} {R : CTree → Val → Prop} (hR : ∀ t, Syn t → ∀ x, D env { addr := true } et (zero et) t.print x ↔ R t x) {t : CTree}
    (hs : Syn t) {x : Val} : D env { addr := true } (.slice et) .nilSlice t.print x ↔ IsList R t x := by
  constructor
  · intro h
    obtain ⟨cs, ws, h1, e, rfl⟩ := h.slice_inv
    obtain ⟨ts, h2, h3, h4⟩ := dl_trees h1
    obtain ⟨rfl, -⟩ := print_unique t (.list ts) hs (Valids.syn ts h2) [] [] (by simpa [CTree.print, h3] using e)
    exact ⟨ts, ws, rfl, forall2_imp h4 fun u hu y hy => (hR u (syns_mem (Valids.syn ts h2) u hu) y).mp hy, rfl⟩
  · rintro ⟨ts, ws, rfl, h, rfl⟩
    obtain ⟨cs, h1, h2⟩ := dl_of (forall2_imp h fun u hu y hy => (hR u (syns_mem hs u hu) y).mpr hy)
    have := D.slice (fl := { addr := true }) rfl h1
    rw [h2] at this
    exact this

theorem reads_date {env : Env} (henv : (env timeId).unmarshal = some timeUnmarshal) {t : CTree} (hs : Syn t) {v x : Val} :
    D env { addr := true } timeTy v t.print x ↔ IsInt t x := by
  constructor
  · intro h
    obtain ⟨-, h2⟩ := D.method_inv (um := timeUnmarshal) henv rfl h
    obtain ⟨tr, rest, h3, h4, h5⟩ := (unmarshal_D noEnv_sane).mp h2
    obtain ⟨rfl, -⟩ := print_unique t tr hs (Valid.syn tr h3) [] rest (by simpa using h4)
    exact (reads_int hs).mp h5
  · intro h
    have h' := h
    obtain ⟨s, n, rfl, h1, h2, h3, h4, rfl⟩ := h'
    refine D.method (um := timeUnmarshal) henv rfl ⟨h1, h2, h3, h4⟩ ?_
    have := D.unmarshal noEnv_sane ((reads_int (env := noEnv) (v := .int 0) hs).mpr h) []
    rwa [List.append_nil] at this

theorem piecesVal_eq (hs : List Bytes) : piecesVal hs = if hs = [] then .nilSlice else .slice (hs.map fun h => .array (h.map fun x => .uint x.toNat)) := by
  cases hs <;> rfl

theorem reads_pieces {env : Env} (henv : (env piecesId).unmarshal = some piecesUnmarshal) {t : CTree} (hs : Syn t) {v x : Val} :
    D env { addr := true } piecesTy v t.print x ↔ IsPieces t x := by
  have key : D env { addr := true } piecesTy v t.print x ↔ D (metaEnv fun _ => []) { addr := true } piecesTy v t.print x := by
    constructor
    · intro h
      obtain ⟨⟨tr, h1, e⟩, h2⟩ := D.method_inv (um := piecesUnmarshal) henv rfl h
      rw [e] at h2 ⊢
      exact D.method (um := piecesUnmarshal) rfl rfl h1 h2
    · intro h
      obtain ⟨⟨tr, h1, e⟩, h2⟩ := D.method_inv (um := piecesUnmarshal) rfl rfl h
      rw [e] at h2 ⊢
      exact D.method (um := piecesUnmarshal) henv rfl h1 h2
  rw [key]
  constructor
  · intro h
    have := D.unmarshal (metaEnv_sane _) h []
    obtain ⟨l, s, rest, hs', h1, h2, e, h3, h4, rfl⟩ := (C29_unmarshal _ _ _ _).mp this
    obtain ⟨rfl, -⟩ := print_unique t (.str l s) hs h1.1 [] rest (by simpa [CTree.print] using e)
    exact ⟨l, s, hs', rfl, h1, h2, h3, h4, piecesVal_eq _⟩
  · rintro ⟨l, b, hs', rfl, h1, h2, h3, h4, rfl⟩
    have := (C29_unmarshal (fun _ => []) v (piecesVal hs') (l ++ 58 :: b ++ [])).mpr ⟨l, b, [], hs', h1, h2, rfl, h3, h4, rfl⟩
    obtain ⟨tr, rest, h5, h6, h7⟩ := (unmarshal_D (metaEnv_sane _)).mp this
    obtain ⟨rfl, -⟩ := print_unique (.str l b) tr hs (Valid.syn tr h5) [] rest (by simpa [CTree.print] using h6)
    rw [← piecesVal_eq]
    exact h7

theorem reads_files {t : CTree} (hs : Syn t) {x : Val} : D innerEnv { addr := true } (.slice (.ptr fileTy)) .nilSlice t.print x ↔ IsList (fun _ _ => False) t x :=
  reads_list (fun t _ x => ⟨fun h => D_nilptr h rfl, False.elim⟩) hs

end Drip.Metainfo
