import Verif.Lemmas.StorageStart
import Verif.Lemmas.StorageDownload
/-
`Load` with anything on disk: which names count, and what happens to the pieces.
-/

namespace Drip.Storage

open Spec

variable {cfg : Cfg} {A : Fate → Prop}

/-! ### Names -/

/-- `name` looks like the name of piece `i`, a number that fits in 64 bits. -/
def Numbered (name : Bytes) (i : Int) : Prop := LooksLike name i ∧ -2 ^ 63 ≤ i ∧ i < 2 ^ 63

theorem skipSpaces_append {sp : Bytes} (h : ∀ b ∈ sp, b = 32 ∨ b = 9 ∨ b = 11 ∨ b = 12 ∨ b = 13) (s : Bytes) : skipSpaces (sp ++ s) = skipSpaces s := by
  induction sp with
  | nil => rfl
  | cons b sp ih =>
    rw [List.cons_append, skipSpaces, if_pos (h b (by simp)), ih fun c hc => h c (by simp [hc])]

theorem spanDigits_num {ds : Bytes} (h : ∀ b ∈ ds, Digit b) {s : Bytes} (hs : (spanDigits s).1 = []) : spanDigits (ds ++ s) = (ds, s) := by
  induction ds with
  | nil =>
    have := spanDigits_eq s
    rw [hs, List.nil_append] at this
    rw [List.nil_append]
    exact Prod.ext hs this
  | cons b ds ih =>
    have hb : isDigit b = true := by
      have := h b (by simp)
      unfold Digit at this
      simp [isDigit]
      simpa [UInt8.le_iff_toNat_le] using this
    rw [List.cons_append, spanDigits, if_pos hb, ih fun c hc => h c (by simp [hc])]

theorem digit_noSpace {b : UInt8} (h : Digit b) : ¬ (b = 32 ∨ b = 9 ∨ b = 11 ∨ b = 12 ∨ b = 13) ∧ ¬ (b = 43 ∨ b = 45) := by
  unfold Digit at h
  constructor
  · rintro (rfl | rfl | rfl | rfl | rfl) <;> revert h <;> decide
  · rintro (rfl | rfl) <;> revert h <;> decide

theorem sscanf_iff (name : Bytes) (i : Int) : sscanfPiece name = some i ↔ Numbered name i := by
  constructor
  · intro h
    refine ⟨sscanf_looksLike h, ?_⟩
    unfold sscanfPiece at h
    dsimp only at h
    split at h
    · cases h
    · rename_i j hp
      split at h
      · cases h; exact ((parseInt_some _ _).mp hp).2
      · cases h
  · rintro ⟨⟨sp, num, rest, rfl, hsp, hnum⟩, hr⟩
    have hpi : parseInt num = some i := (parseInt_some _ _).mpr ⟨hnum, hr⟩
    have hs : (spanDigits (b!".piece" ++ rest)).1 = [] := rfl
    have hpre : b!".piece".isPrefixOf (b!".piece" ++ rest) = true := List.isPrefixOf_iff_prefix.mpr ⟨rest, rfl⟩
    unfold sscanfPiece
    rw [List.append_assoc, List.append_assoc, skipSpaces_append hsp]
    rcases hnum with ⟨m, ⟨hne, hd, _⟩, _⟩ | ⟨ds, m, rfl, ⟨hne, hd, _⟩, _⟩ | ⟨ds, m, rfl, ⟨hne, hd, _⟩, _⟩
    · cases num with
      | nil => exact absurd rfl hne
      | cons b ds =>
        have hb := digit_noSpace (hd b (by simp))
        rw [List.cons_append, skipSpaces, if_neg hb.1]
        dsimp only
        rw [show splitSign (b :: (ds ++ (b!".piece" ++ rest))) = ([], b :: (ds ++ (b!".piece" ++ rest))) by unfold splitSign; exact if_neg hb.2]
        dsimp only
        rw [← List.cons_append, spanDigits_num hd hs]
        dsimp only
        rw [List.nil_append, hpi]
        dsimp only
        rw [if_pos hpre]
    · rw [List.cons_append, skipSpaces, if_neg (by decide)]
      dsimp only
      rw [show splitSign (43 :: (ds ++ (b!".piece" ++ rest))) = ([43], ds ++ (b!".piece" ++ rest)) from rfl]
      dsimp only
      rw [spanDigits_num hd hs]
      dsimp only
      rw [List.singleton_append, hpi]
      dsimp only
      rw [if_pos hpre]
    · rw [List.cons_append, skipSpaces, if_neg (by decide)]
      dsimp only
      rw [show splitSign (45 :: (ds ++ (b!".piece" ++ rest))) = ([45], ds ++ (b!".piece" ++ rest)) from rfl]
      dsimp only
      rw [spanDigits_num hd hs]
      dsimp only
      rw [List.singleton_append, hpi]
      dsimp only
      rw [if_pos hpre]

/-! ### Memory -/

/-- The memory of a new storage for which the pieces `done` have been completed. -/
structure Loaded (cfg : Cfg) (done : List Nat) (m : Mem) : Prop where
  len : m.pieces.length = cfg.info.pieces.length
  fut : ∀ (i : Nat) (p : Piece), m.pieces[i]? = some p → p.fut = i
  err : m.err = cfg.info.pieces.length
  errFut : m.futs[cfg.info.pieces.length]? = some none
  futs : ∀ i, i < cfg.info.pieces.length → m.futs[i]? = some (if i ∈ done then some none else none)
  bfLen : m.bitfield.length = (Bitfield.new cfg.info.pieces.length).length
  bf : ∀ i : Nat, Bitfield.bit m.bitfield i = true ↔ i ∈ done

theorem newMem_loaded : Loaded cfg [] (newMem cfg.info) := by
  refine ⟨by simp [newMem], fun i p h => ?_, rfl, ?_, fun i hi => ?_, rfl, fun i => ?_⟩
  · obtain ⟨_, rfl⟩ := newMem_get h; rfl
  · simp [newMem]
  · simp [newMem, List.getElem?_replicate]; omega
  · rw [show (newMem cfg.info).bitfield = Bitfield.new cfg.info.pieces.length from rfl, Bitfield.bit_new]; simp

theorem wp_completePiece_loaded {done : List Nat} {s : Sys} (h : Loaded cfg done s.mem) {i : Nat} (hi : i < cfg.info.pieces.length) :
    wp A (completePiece i) ⟨fun _ s' => s'.fs = s.fs ∧ Loaded cfg (i :: done) s'.mem ∧ i ∉ done, fun _ _ => False, fun _ => i ∈ done, fun _ => False⟩ s := by
  have hi' : i < s.mem.pieces.length := by rw [h.len]; exact hi
  unfold completePiece
  refine wp_bind (wp_getPiece ?_ (fun hor => by omega))
  intro j p hj hp
  have : i = j := by omega
  subst this
  have hpf := h.fut i p hp
  have hfi := h.futs i hi
  refine wp_bind (wp_setPiece (wp_bind (wp_deliver ?_ ?_)))
  · intro hf
    have hnot : i ∉ done := by
      intro hin
      have : s.mem.futs[i]? = some none := by rw [← hpf]; exact hf
      rw [hfi, if_pos hin] at this
      cases this
    refine wp_bind (wp_setPiece (wp_bind (wp_getMem ?_)))
    obtain ⟨bf', e1, e2, e3⟩ := Bitfield.add_nat s.mem.bitfield i (by
      have := Bitfield.new_length cfg.info.pieces.length
      have := h.bfLen
      omega)
    refine wp_bind (wp_lift ?_)
    simp only [e1]
    refine wp_setMem ⟨rfl, ?_, hnot⟩
    simp only [List.set_set]
    have hflen : i < s.mem.futs.length := (List.getElem?_eq_some_iff.mp hfi).1
    refine ⟨by simp [h.len], ?_, h.err, ?_, ?_, by rw [← h.bfLen, ← e2], ?_⟩
    · intro j q hq
      dsimp only at hq
      rw [List.getElem?_set] at hq
      by_cases hj : i = j
      · rw [if_pos hj, if_pos hi'] at hq; cases hq; rw [← hj]; exact hpf
      · rw [if_neg hj] at hq; exact h.fut j q hq
    · dsimp only
      rw [hpf, List.getElem?_set, if_neg (by omega)]; exact h.errFut
    · intro j hj
      dsimp only
      rw [hpf, List.getElem?_set]
      by_cases e : i = j
      · rw [if_pos e, if_pos hflen, if_pos (by simp [e])]
      · rw [if_neg e, h.futs j hj]
        have : j ∈ i :: done ↔ j ∈ done := by
          rw [List.mem_cons]; exact ⟨fun h => h.resolve_left (fun e' => e e'.symm), .inr⟩
        simp only [this]
    · intro j
      dsimp only
      rw [e3, Bool.or_eq_true, h.bf j, List.mem_cons, decide_eq_true_eq]
      exact or_comm
  · intro hf
    show i ∈ done
    refine Classical.byContradiction fun hnot => hf ?_
    show s.mem.futs[p.fut]? = some none
    rw [hpf, hfi, if_neg hnot]

theorem wp_completeAll_loaded : ∀ (is : List Nat) {done : List Nat} {s : Sys}, Loaded cfg done s.mem → (∀ i ∈ is, i < cfg.info.pieces.length ∧ i ∉ done) → is.Nodup →
    wp A (completeAll is) (only fun _ s' => ∃ done', Loaded cfg done' s'.mem ∧ ∀ i, i ∈ done' ↔ i ∈ done ∨ i ∈ is) s
  | [], done, s, h, _, _ => wp_pure ⟨done, h, by simp⟩
  | i :: is, done, s, h, hi, hn => by
    unfold completeAll
    rw [List.nodup_cons] at hn
    refine wp_seq (wp_completePiece_loaded h (hi i (by simp)).1) ?_ (fun _ _ h => h) (fun _ h' => (hi i (by simp)).2 h') (fun _ h => h)
    rintro _ s1 ⟨_, h1, _⟩
    refine wp_mono (wp_completeAll_loaded is h1 ?_ hn.2) ?_ (fun _ _ h => h) (fun _ h => h) (fun _ h => h)
    · intro j hj
      refine ⟨(hi j (by simp [hj])).1, ?_⟩
      rw [List.mem_cons]
      rintro (rfl | h')
      · exact hn.1 hj
      · exact (hi j (by simp [hj])).2 h'
    · rintro _ s2 ⟨done', g1, g2⟩
      refine ⟨done', g1, fun j => ?_⟩
      rw [g2 j, List.mem_cons, List.mem_cons]
      constructor
      · rintro ((h | h) | h)
        · exact .inr (.inl h)
        · exact .inl h
        · exact .inr (.inr h)
      · rintro (h | h | h)
        · exact .inl (.inr h)
        · exact .inl (.inl h)
        · exact .inr h

theorem wp_complete_loaded {done : List Nat} {s : Sys} (h : Loaded cfg done s.mem) :
    wp A complete (only fun _ s' => s'.mem.bitfield = s.mem.bitfield) s := by
  unfold complete
  refine wp_bind (wp_getMem (wp_bind (wp_setMem (wp_deliver (fun _ => rfl) (fun hf => hf ?_)))))
  show s.mem.futs[s.mem.err]? = some none
  rw [h.err]; exact h.errFut

/-! ### Directory entries -/

/-- The names that look like pieces have numbers of pieces, not those in `done`, and no two have the same. -/
def Good (cfg : Cfg) (done : List Nat) (es : List (Bytes × Bytes)) : Prop :=
  (∀ x ∈ es, ∀ i : Int, sscanfPiece x.1 = some i → 0 ≤ i ∧ i < cfg.info.pieces.length ∧ i.toNat ∉ done) ∧
  es.Pairwise fun x y => ∀ i : Int, sscanfPiece x.1 = some i → sscanfPiece y.1 ≠ some i

theorem wp_loadEntries_loaded : ∀ (es : List (Bytes × Bytes)) {done : List Nat} {s : Sys}, Loaded cfg done s.mem →
    wp AllOk (loadEntries es) ⟨fun _ s' => Good cfg done es ∧ ∃ done', Loaded cfg done' s'.mem ∧ ∀ i : Nat, i ∈ done' ↔ i ∈ done ∨ ∃ x ∈ es, sscanfPiece x.1 = some (i : Int),
      fun _ _ => False, fun _ => ¬Good cfg done es, fun _ => False⟩ s
  | [], done, s, h => wp_pure ⟨⟨by simp, List.Pairwise.nil⟩, done, h, by simp⟩
  | (name, content) :: es, done, s, h => by
    unfold loadEntries
    cases hn : sscanfPiece name with
    | none =>
      have hg : Good cfg done ((name, content) :: es) ↔ Good cfg done es := by
        unfold Good
        rw [List.pairwise_cons, List.forall_mem_cons]
        constructor
        · rintro ⟨⟨_, h1⟩, _, h2⟩; exact ⟨h1, h2⟩
        · rintro ⟨h1, h2⟩
          refine ⟨⟨fun i hi => ?_, h1⟩, fun y _ i hi => ?_, h2⟩
          · rw [hn] at hi; cases hi
          · rw [hn] at hi; cases hi
      refine wp_mono (wp_loadEntries_loaded es h) ?_ (fun _ _ h => h) (fun _ h h' => h (hg.mp h')) (fun _ h => h)
      rintro _ s' ⟨g1, done', g2, g3⟩
      refine ⟨hg.mpr g1, done', g2, fun i => ?_⟩
      rw [g3 i]
      refine or_congr Iff.rfl ⟨fun ⟨x, hx, he⟩ => ⟨x, by simp [hx], he⟩, fun ⟨x, hx, he⟩ => ?_⟩
      rcases List.mem_cons.mp hx with rfl | hx
      · rw [hn] at he; cases he
      · exact ⟨x, hx, he⟩
    | some i =>
      dsimp only
      refine wp_bind (wp_callTemp ?_ (fun r hr => (noFail ⟨r, hr⟩).elim) (fun r hr => (allOk_noCrash r hr).elim))
      refine wp_bind (wp_getMem (wp_bind (wp_setMem (wp_bind (wp_getPiece ?_ ?_)))))
      · intro k p hk hp
        have h0 : Loaded cfg done { s.mem with downloaded := s.mem.downloaded + content.length } := ⟨h.len, h.fut, h.err, h.errFut, h.futs, h.bfLen, h.bf⟩
        have hkn : k < cfg.info.pieces.length := by rw [← h.len]; exact (List.getElem?_eq_some_iff.mp hp).1
        subst hk
        have hbad : k ∈ done → ¬Good cfg done ((name, content) :: es) := fun hin hg => (hg.1 _ (List.mem_cons_self ..) _ hn).2.2 (by simpa using hin)
        have hg : k ∉ done → (Good cfg done ((name, content) :: es) ↔ Good cfg (k :: done) es) := by
          intro hnot
          unfold Good
          rw [List.pairwise_cons, List.forall_mem_cons]
          constructor
          · rintro ⟨⟨_, h1⟩, h2, h3⟩
            refine ⟨fun x hx j hj => ⟨(h1 x hx j hj).1, (h1 x hx j hj).2.1, ?_⟩, h3⟩
            rw [List.mem_cons]
            rintro (e | e)
            · have := (h1 x hx j hj).1
              have e' : j = (k : Int) := by omega
              exact h2 x hx k hn (e' ▸ hj)
            · exact (h1 x hx j hj).2.2 e
          · rintro ⟨h1, h3⟩
            refine ⟨⟨fun j hj => ?_, fun x hx j hj => ⟨(h1 x hx j hj).1, (h1 x hx j hj).2.1, fun e => (h1 x hx j hj).2.2 (by simp [e])⟩⟩, fun x hx j hj hj' => ?_, h3⟩
            · rw [hn] at hj; cases hj
              exact ⟨by omega, by omega, by simpa using hnot⟩
            · rw [hn] at hj; cases hj
              exact (h1 x hx _ hj').2.2 (by simp)
        refine wp_seq (wp_completePiece_loaded h0 hkn) ?_ (fun _ _ h => h) (fun _ h => hbad h) (fun _ h => h)
        rintro _ s1 ⟨_, h1, hnot⟩
        refine wp_mono (wp_loadEntries_loaded es h1) ?_ (fun _ _ h => h) (fun _ h h' => h ((hg hnot).mp h')) (fun _ h => h)
        rintro _ s2 ⟨g1, done', g2, g3⟩
        refine ⟨(hg hnot).mpr g1, done', g2, fun j => ?_⟩
        rw [g3 j, List.mem_cons]
        constructor
        · rintro ((rfl | e) | ⟨x, hx, e⟩)
          · exact .inr ⟨_, List.mem_cons_self .., hn⟩
          · exact .inl e
          · exact .inr ⟨x, by simp [hx], e⟩
        · rintro (e | ⟨x, hx, e⟩)
          · exact .inl (.inr e)
          · rcases List.mem_cons.mp hx with rfl | hx
            · rw [hn] at e; cases e; exact .inl (.inl rfl)
            · exact .inr ⟨x, hx, e⟩
      · intro hor hg
        have := hg.1 _ (List.mem_cons_self ..) i hn
        have hl := h.len
        change i < 0 ∨ (s.mem.pieces.length : Int) ≤ i at hor
        omega

/-! ### Putting pieces together -/

/-- The memory stays the same, without a panic. -/
def Still (A : Fate → Prop) {α : Type} (p : Op α) : Prop := ∀ s : Sys, wp A p ⟨fun _ s' => s'.mem = s.mem, fun _ s' => s'.mem = s.mem, fun _ => False, fun _ => True⟩ s

theorem Still.pure {α : Type} (a : α) : Still A (Pure.pure a : Op α) := fun _ => wp_pure rfl
theorem Still.fail {α : Type} (e : Err) : Still A (Op.fail e : Op α) := fun _ => wp_fail rfl
theorem Still.call {α : Type} {eff : FS → Option (α × FS)} {part : List Bytes → FS → FS} : Still A (Op.call eff part) :=
  fun _ => wp_call (fun _ _ _ => rfl) (fun _ => rfl) (fun _ _ => rfl) (fun _ _ => trivial)
theorem Still.bind {α β : Type} {p : Op α} {k : α → Op β} (hp : Still A p) (hk : ∀ a, Still A (k a)) : Still A (p >>= k) := fun s =>
  wp_seq (hp s) (fun a s' e => wp_mono (hk a s') (fun _ _ h => h.trans e) (fun _ _ h => h.trans e) (fun _ h => h) (fun _ h => h)) (fun _ _ h => h) (fun _ h => h) (fun _ h => h)
theorem Still.ite {α : Type} {c : Prop} [Decidable c] {p q : Op α} (hp : Still A p) (hq : Still A q) : Still A (if c then p else q) := by split <;> assumption

theorem still_readPieces : ∀ is : List Nat, Still A (readPieces is)
  | [] => Still.pure _
  | i :: is => by unfold readPieces; exact Still.bind Still.call fun _ => Still.bind Still.call fun _ => Still.bind (still_readPieces is) fun _ => Still.pure _

theorem still_copyN (n : Nat) : ∀ (is : List Nat) (buf : Bytes), Still A (copyN n buf is)
  | [], buf => by unfold copyN; exact Still.ite (Still.pure _) (Still.fail _)
  | i :: is, buf => by unfold copyN; exact Still.ite (Still.pure _) (Still.bind Still.call fun _ => still_copyN n is _)

theorem still_writeFiles : ∀ (fs : List Metainfo.File) (buf : Bytes) (is : List Nat) (acc : List (List Bytes × Bytes)), Still A (writeFiles buf is acc fs)
  | [], _, _, _ => Still.pure _
  | f :: fs, buf, is, acc => by
    unfold writeFiles
    exact Still.ite (Still.fail _) (Still.bind Still.call fun _ => Still.bind Still.call fun _ => Still.bind (still_copyN _ _ _) fun _ =>
      Still.bind Still.call fun _ => still_writeFiles fs _ _ _)

theorem wp_coalesce_loaded {done : List Nat} {s : Sys} (h : Loaded cfg done s.mem) :
    wp A (coalescePieces cfg) ⟨fun _ s' => s'.mem.bitfield = s.mem.bitfield, fun _ s' => s'.mem.bitfield = s.mem.bitfield, fun _ => False, fun _ => True⟩ s := by
  have fin : ∀ s1 : Sys, s1.mem = s.mem →
      wp A complete ⟨fun _ s' => s'.mem.bitfield = s.mem.bitfield, fun _ s' => s'.mem.bitfield = s.mem.bitfield, fun _ => False, fun _ => True⟩ s1 := by
    intro s1 e
    refine wp_mono (wp_complete_loaded (cfg := cfg) (done := done) (by rw [e]; exact h)) ?_ (fun _ _ h => h.elim) (fun _ h => h) (fun _ _ => trivial)
    intro _ s' e'
    show s'.mem.bitfield = _
    rw [show s'.mem.bitfield = _ from e', e]
  have go : ∀ {α : Type} {p : Op α} {k : α → Op Unit}, Still A p →
      (∀ a, ∀ s1 : Sys, s1.mem = s.mem → wp A (k a) ⟨fun _ s' => s'.mem.bitfield = s.mem.bitfield, fun _ s' => s'.mem.bitfield = s.mem.bitfield, fun _ => False, fun _ => True⟩ s1) →
      ∀ s1 : Sys, s1.mem = s.mem → wp A (p >>= k) ⟨fun _ s' => s'.mem.bitfield = s.mem.bitfield, fun _ s' => s'.mem.bitfield = s.mem.bitfield, fun _ => False, fun _ => True⟩ s1 := by
    intro α p k hp hk s1 e
    exact wp_seq (hp s1) (fun a s2 e2 => hk a s2 (e2.trans e)) (fun _ s2 e2 => by show s2.mem.bitfield = _; rw [show s2.mem = _ from e2, e]) (fun _ h => h) (fun _ h => h)
  unfold coalescePieces
  refine wp_bind (wp_getMem ?_)
  show wp A (if s.mem.completePieces ≠ (s.mem.pieces.length : Int) then pure () else if cfg.info.files ≠ [] then coalesceMulti cfg else coalesceSingle cfg) _ s
  split
  · exact wp_pure rfl
  · split
    · exact go Still.call (fun _ => go Still.call fun _ => go (still_writeFiles _ _ _ _) fun _ => go Still.call fun _ => go Still.call fun _ => fin) s rfl
    · exact go Still.call (fun _ => go Still.call fun _ => go (still_readPieces _) fun _ => go Still.call fun _ => go Still.call fun _ => fin) s rfl

/-! ### Load -/

theorem wp_load_names (hn : trivialName cfg.info.name = false) {fs : FS} :
    wp AllOk (load cfg) ⟨fun _ s' => (fs.target = none → Good cfg [] (fs.work.getD [])) ∧
        ∀ i : Nat, Bitfield.bit s'.mem.bitfield i = true ↔ (fs.target ≠ none ∧ i < cfg.info.pieces.length) ∨ (fs.target = none ∧ ∃ x ∈ fs.work.getD [], sscanfPiece x.1 = some (i : Int)),
      fun _ s' => fs.target = none ∧ Good cfg [] (fs.work.getD []) ∧ ∀ i : Nat, Bitfield.bit s'.mem.bitfield i = true ↔ ∃ x ∈ fs.work.getD [], sscanfPiece x.1 = some (i : Int),
      fun _ => fs.target = none ∧ ¬Good cfg [] (fs.work.getD []), fun _ => True⟩ ⟨fs, newMem cfg.info⟩ := by
  unfold load
  refine wp_seq (Q1 := only fun o s' => s' = ⟨fs, newMem cfg.info⟩ ∧ (o = none ↔ fs.target = none)) ?_ ?_ (fun _ _ h => h.elim) (fun _ h => h.elim) (fun _ h => h.elim)
  · refine wp_call ?_ ?_ (fun r hr => (noFail ⟨r, hr⟩).elim) (fun r hr => (allOk_noCrash r hr).elim)
    · intro o fs' he
      simp only [hn, Bool.false_eq_true, if_false] at he
      cases ht : fs.target with
      | none => rw [ht] at he; cases he; exact ⟨rfl, by simp⟩
      | some t => cases t <;> rw [ht] at he <;> cases he <;> exact ⟨rfl, by simp⟩
    · intro he
      simp only [hn, Bool.false_eq_true, if_false] at he
      cases ht : fs.target with
      | none => rw [ht] at he; cases he
      | some t => cases t <;> rw [ht] at he <;> cases he
  · rintro o _ ⟨rfl, ho⟩
    cases o with
    | some size =>
      have ht : fs.target ≠ none := fun e => by have := ho.mpr e; cases this
      dsimp only
      refine wp_seq (wp_completeAll_loaded (cfg := cfg) _ newMem_loaded ?_ List.nodup_range) ?_ (fun _ _ h => h.elim) (fun _ h => h.elim) (fun _ h => h.elim)
      · intro i hi; exact ⟨List.mem_range.mp hi, by simp⟩
      · rintro _ s1 ⟨done, h1, h2⟩
        refine wp_seq (wp_complete_loaded h1) ?_ (fun _ _ h => h.elim) (fun _ h => h.elim) (fun _ h => h.elim)
        intro _ s2 e2
        refine wp_bind (wp_getMem (wp_setMem ⟨fun e => absurd e ht, fun i => ?_⟩))
        show Bitfield.bit s2.mem.bitfield i = true ↔ _
        rw [show s2.mem.bitfield = _ from e2, h1.bf i, h2 i, List.mem_range]
        exact ⟨fun h => .inl ⟨ht, h.resolve_left (by simp)⟩, fun h => h.elim (fun h => .inr h.2) (fun h => absurd h.1 ht)⟩
    | none =>
      have ht : fs.target = none := ho.mp rfl
      dsimp only
      refine wp_seq (Q1 := only fun o s' => s' = ⟨fs, newMem cfg.info⟩ ∧ o = fs.work) ?_ ?_ (fun _ _ h => h.elim) (fun _ h => h.elim) (fun _ h => h.elim)
      · refine wp_call ?_ (fun h => by cases h) (fun r hr => (noFail ⟨r, hr⟩).elim) (fun r hr => (allOk_noCrash r hr).elim)
        intro o fs' he
        cases he
        exact ⟨rfl, rfl⟩
      · rintro o _ ⟨rfl, ho⟩
        cases o with
        | none =>
          rw [← ho]
          refine wp_pure ⟨fun _ => ⟨by simp, List.Pairwise.nil⟩, fun i => ?_⟩
          rw [(newMem_loaded (cfg := cfg)).bf i]
          simp [ht]
        | some es =>
          rw [← ho]
          dsimp only [Option.getD_some]
          refine wp_seq (wp_loadEntries_loaded (cfg := cfg) es newMem_loaded) ?_ (fun _ _ h => h.elim) (fun _ h => ⟨ht, h⟩) (fun _ h => h.elim)
          rintro _ s1 ⟨hg, done, h1, h2⟩
          refine wp_mono (wp_coalesce_loaded h1) ?_ ?_ (fun _ h => h.elim) (fun _ _ => trivial)
          · intro _ s2 e2
            refine ⟨fun _ => hg, fun i => ?_⟩
            rw [show s2.mem.bitfield = _ from e2, h1.bf i, h2 i]
            exact ⟨fun h => .inr ⟨ht, h.resolve_left (by simp)⟩, fun h => h.elim (fun h => absurd ht h.1) (fun h => .inr h.2)⟩
          · intro _ s2 e2
            refine ⟨ht, hg, fun i => ?_⟩
            rw [show s2.mem.bitfield = _ from e2, h1.bf i, h2 i]
            exact ⟨fun h => h.resolve_left (by simp), .inr⟩

/-- Names for which `os.Stat` finds the target directory itself, or the one above it. -/
theorem wp_load_trivial (hn : trivialName cfg.info.name = true) {fs : FS} :
    wp AllOk (load cfg) ⟨fun _ s' => ∀ i : Nat, Bitfield.bit s'.mem.bitfield i = true ↔ i < cfg.info.pieces.length, fun _ _ => False, fun _ => False, fun _ => True⟩ ⟨fs, newMem cfg.info⟩ := by
  unfold load
  refine wp_seq (Q1 := only fun o s' => s' = ⟨fs, newMem cfg.info⟩ ∧ o = some cfg.dirSize) ?_ ?_ (fun _ _ h => h.elim) (fun _ h => h.elim) (fun _ h => h.elim)
  · refine wp_call ?_ ?_ (fun r hr => (noFail ⟨r, hr⟩).elim) (fun r hr => (allOk_noCrash r hr).elim)
    · intro o fs' he
      simp only [hn, if_true] at he
      cases he
      exact ⟨rfl, rfl⟩
    · intro he
      simp only [hn, if_true] at he
      cases he
  · rintro o _ ⟨rfl, rfl⟩
    dsimp only
    refine wp_seq (wp_completeAll_loaded (cfg := cfg) _ newMem_loaded ?_ List.nodup_range) ?_ (fun _ _ h => h.elim) (fun _ h => h.elim) (fun _ h => h.elim)
    · intro i hi; exact ⟨List.mem_range.mp hi, by simp⟩
    · rintro _ s1 ⟨done, h1, h2⟩
      refine wp_seq (wp_complete_loaded h1) ?_ (fun _ _ h => h.elim) (fun _ h => h.elim) (fun _ h => h.elim)
      intro _ s2 e2
      refine wp_bind (wp_getMem (wp_setMem fun i => ?_))
      show Bitfield.bit s2.mem.bitfield i = true ↔ _
      rw [show s2.mem.bitfield = _ from e2, h1.bf i, h2 i, List.mem_range]
      exact ⟨fun h => h.resolve_left (by simp), .inr⟩

end Drip.Storage
