import Verif.Lemmas.StorageOps
/-
GetBlock and Load.
-/

namespace Drip.Storage
open Metainfo Spec

variable {A : Fate → Prop} {cfg : Cfg}

/-! ### GetBlock -/

/-- Claims about code that does not change anything but may panic if `pan`. -/
def rop {α : Type} (s : Sys) (ok : α → Prop) (pan : Prop) : Post α :=
  ⟨fun a s' => ok a ∧ s' = s, fun _ s' => s' = s, fun s' => s' = s ∧ pan, fun s' => s' = s⟩

theorem wp_rop {α β : Type} {p : Op α} {k : α → Op β} {Q : Post β} {ok : α → Prop} {pan : Prop} {s : Sys} (h : wp A p (rop s ok pan) s)
    (h1 : ∀ a, ok a → wp A (k a) Q s) (h2 : ∀ e, Q.err e s) (h3 : pan → Q.panic s) (h4 : Q.crash s) : wp A (p >>= k) Q s := by
  refine wp_seq h ?_ ?_ ?_ ?_
  · rintro a s' ⟨ha, rfl⟩; exact h1 a ha
  · rintro e s' rfl; exact h2 e
  · rintro s' ⟨rfl, hp⟩; exact h3 hp
  · rintro s' rfl; exact h4

theorem wp_makeLen {s : Sys} (n : Int) : wp A (makeLen n) (rop s (fun k => k = n.toNat ∧ 0 ≤ n) (n < 0)) s := by
  unfold makeLen
  split
  · rename_i h; exact wp_panic ⟨rfl, h⟩
  · exact wp_pure ⟨⟨rfl, by omega⟩, rfl⟩

theorem wp_readAt {s : Sys} (c : Bytes) (off : Int) (len : Nat) :
    wp A (Op.lift (readAt c off len)) (ro s fun x => 0 ≤ off ∧ x = (slice c off.toNat len, decide ((slice c off.toNat len).length < len))) s := by
  refine wp_lift ?_
  unfold readAt
  by_cases h : off < 0
  · rw [if_pos h]; exact rfl
  · rw [if_neg h]; exact ⟨⟨by omega, rfl⟩, rfl⟩

theorem wp_getFromPiece {s : Sys} (i : Nat) (begin_ length : Int) :
    wp A (getFromPiece i begin_ length) (rop s (fun r => 0 ≤ length ∧ 0 ≤ begin_ ∧ r.length = length.toNat ∧
      ∃ d, W s.fs i d ∧ r = slice d begin_.toNat length.toNat) (length < 0)) s := by
  unfold getFromPiece
  refine wp_rob wp_readWork ?_ (fun _ _ => rfl) rfl
  intro c hc
  refine wp_rop (wp_makeLen length) ?_ (fun _ => rfl) (fun h => ⟨rfl, h⟩) rfl
  rintro n ⟨rfl, hn⟩
  refine wp_ro (wp_readAt c begin_ length.toNat) ?_ (fun _ => rfl) rfl
  rintro x ⟨hb, rfl⟩
  dsimp only
  by_cases he : (slice c begin_.toNat length.toNat).length < length.toNat
  · rw [decide_eq_true he, if_pos rfl]; exact wp_fail rfl
  · rw [decide_eq_false he, if_neg (by simp)]
    refine wp_pure ⟨⟨hn, hb, ?_, c, hc, rfl⟩, rfl⟩
    have : (slice c begin_.toNat length.toNat).length ≤ length.toNat := by unfold slice; simp; omega
    omega

theorem wp_getSingle {s : Sys} (index begin_ length : Int) :
    wp A (getSingle cfg index begin_ length) (rop s (fun r => 0 ≤ length ∧ 0 ≤ index * cfg.info.pieceLength + begin_ ∧ r.length = length.toNat ∧
      ∃ c, s.fs.target = some (.file c) ∧ r = slice c (index * cfg.info.pieceLength + begin_).toNat length.toNat) (length < 0)) s := by
  unfold getSingle
  refine wp_ro (ok := fun c => s.fs.target = some (.file c)) ?_ ?_ (fun _ => rfl) rfl
  · refine wp_call ?_ (fun _ => rfl) (fun r _ => rfl) (fun r _ => rfl)
    intro a fs he
    cases ht : s.fs.target with
    | none => simp [ht] at he
    | some t =>
      cases t with
      | dir l => simp [ht] at he
      | file c => simp [ht] at he; obtain ⟨rfl, rfl⟩ := he; exact ⟨rfl, rfl⟩
  intro c hc
  refine wp_rop (wp_makeLen length) ?_ (fun _ => rfl) (fun h => ⟨rfl, h⟩) rfl
  rintro n ⟨rfl, hn⟩
  refine wp_ro (wp_readAt c _ length.toNat) ?_ (fun _ => rfl) rfl
  rintro x ⟨hb, rfl⟩
  dsimp only
  by_cases he : (slice c (index * cfg.info.pieceLength + begin_).toNat length.toNat).length < length.toNat
  · rw [decide_eq_true he, if_pos rfl]; exact wp_fail rfl
  · rw [decide_eq_false he, if_neg (by simp)]
    refine wp_pure ⟨⟨hn, hb, ?_, c, hc, rfl⟩, rfl⟩
    have : (slice c (index * cfg.info.pieceLength + begin_).toNat length.toNat).length ≤ length.toNat := by unfold slice; simp; omega
    omega

theorem wp_openPath {s : Sys} (path : List Bytes) : wp A (openTargetPath path) (ro s fun c => ∃ l, s.fs.target = some (.dir l) ∧ lookupPath path l = some c) s := by
  refine wp_call ?_ (fun _ => rfl) (fun r _ => rfl) (fun r _ => rfl)
  intro a fs he
  cases ht : s.fs.target with
  | none => simp [ht] at he
  | some t =>
    cases t with
    | file c => simp [ht] at he
    | dir l =>
      simp only [ht, Option.map_eq_some_iff, Prod.mk.injEq] at he
      obtain ⟨c, h1, rfl, rfl⟩ := he
      exact ⟨⟨l, rfl, h1⟩, rfl⟩

theorem wp_openPath_known {s : Sys} {path : List Bytes} {l : List (List Bytes × Bytes)} {c : Bytes} (ht : s.fs.target = some (.dir l))
    (hc : lookupPath path l = some c) : wp A (openTargetPath path) (rof A s fun x => x = c) s := by
  refine wp_call ?_ ?_ (fun r hr => ⟨rfl, r, hr⟩) (fun r _ => rfl)
  · intro a fs he
    simp only [ht, hc, Option.map_some, Option.some.injEq, Prod.mk.injEq] at he
    obtain ⟨rfl, rfl⟩ := he
    exact ⟨rfl, rfl⟩
  · intro he
    simp [ht, hc] at he

theorem wp_readAt_known {s : Sys} (c : Bytes) (off : Int) (len : Nat) (ho : 0 ≤ off) :
    wp A (Op.lift (readAt c off len)) (rof A s fun x => x = (slice c off.toNat len, decide ((slice c off.toNat len).length < len))) s := by
  refine wp_lift ?_
  unfold readAt
  rw [if_neg (by omega)]
  exact ⟨rfl, rfl⟩

/-- `X` is cut into the files of `l`, number `k0` of `all` being the first of `files`. -/
theorem wp_getMultiLoop {s : Sys} {l : List (List Bytes × Bytes)} (ht : s.fs.target = some (.dir l)) (X : Bytes) (start length : Int)
    (hs : 0 ≤ start) (hl : 0 ≤ length) (all : List File) (hfit : fileStart all all.length ≤ X.length)
    (hfile : ∀ (k : Nat) (f : File), all[k]? = some f → lookupPath f.path l = some (slice X (fileStart all k) f.length.toNat))
    (hnn : ∀ f ∈ all, 0 ≤ f.length) :
    ∀ (files : List File) (k0 : Nat) (acc : Bytes), files = all.drop k0 →
      acc = ((X.take (fileStart all k0)).drop start.toNat).take length.toNat →
      wp A (getMultiLoop start (start + length) length.toNat (fileStart all k0 : Nat) acc files)
        (rof A s fun r => r = slice (X.take (fileStart all all.length)) start.toNat length.toNat) s := by
  have hmono : ∀ (k : Nat), fileStart all k ≤ fileStart all all.length := by
    intro k
    have h : (all.map fun f => f.length.toNat).sum = fileStart all k + ((all.drop k).map fun f => f.length.toNat).sum := by
      unfold fileStart
      rw [← List.sum_append, ← List.map_append, List.take_append_drop]
    have h2 : fileStart all all.length = (all.map fun f => f.length.toNat).sum := by
      unfold fileStart
      rw [List.take_length]
    omega
  intro files
  induction files with
  | nil =>
    intro k0 acc hk hacc
    unfold getMultiLoop
    refine wp_pure ⟨?_, rfl⟩
    have hk0 : all.length ≤ k0 := by
      have := congrArg List.length hk
      simp at this; omega
    have : fileStart all k0 = fileStart all all.length := by
      unfold fileStart
      rw [List.take_of_length_le hk0, List.take_length]
    rw [hacc, this]; rfl
  | cons f fs ih =>
    intro k0 acc hk hacc
    have hkf : all[k0]? = some f := by
      have := congrArg (·[0]?) hk
      simpa using this.symm
    have hk1 : fs = all.drop (k0 + 1) := by
      have := congrArg List.tail hk
      simpa using this
    have hstep : fileStart all (k0 + 1) = fileStart all k0 + f.length.toNat := by
      unfold fileStart
      rw [List.take_add_one, hkf]
      simp
    have hnf : 0 ≤ f.length := hnn f (List.mem_of_getElem? hkf)
    have hT : fileStart all k0 ≤ X.length := Nat.le_trans (hmono k0) hfit
    have htot : ((fileStart all k0 : Nat) : Int) + f.length = (fileStart all (k0 + 1) : Nat) := by omega
    have hsplit : X.take (fileStart all (k0 + 1)) = X.take (fileStart all k0) ++ slice X (fileStart all k0) f.length.toNat := by
      rw [hstep, List.take_add]; rfl
    unfold getMultiLoop
    by_cases h1 : start + length ≤ (fileStart all k0 : Nat)
    · rw [if_pos h1]
      refine wp_pure ⟨?_, rfl⟩
      have := hmono k0
      subst hacc
      unfold slice
      rw [List.drop_take, List.take_take, Nat.min_eq_left (by omega), List.drop_take, List.take_take, Nat.min_eq_left (by omega)]
    · rw [if_neg h1]
      by_cases h2 : start ≤ (fileStart all k0 : Nat) + f.length
      · rw [if_pos h2]
        refine wp_rof (wp_openPath_known ht (hfile k0 f hkf)) ?_ (fun h _ => ⟨rfl, h⟩) rfl
        rintro c rfl
        refine wp_rof (wp_readAt_known _ _ _ (by split <;> omega)) ?_ (fun h _ => ⟨rfl, h⟩) rfl
        rintro x rfl
        dsimp only
        rw [htot]
        refine ih (k0 + 1) _ hk1 ?_
        rw [hsplit, List.drop_append, List.take_append, ← hacc, List.length_take, Nat.min_eq_left hT]
        congr 1
        have hoff : (if ((fileStart all k0 : Nat) : Int) < start then start - (fileStart all k0 : Nat) else 0).toNat = start.toNat - fileStart all k0 := by
          split <;> omega
        have hlen : length.toNat - acc.length = length.toNat - ((X.take (fileStart all k0)).drop start.toNat).length := by
          rw [hacc, List.length_take]; omega
        rw [hoff, hlen]
        rfl
      · rw [if_neg h2, htot]
        refine ih (k0 + 1) _ hk1 ?_
        rw [hsplit, List.drop_append, List.take_append, ← hacc]
        have : (slice X (fileStart all k0) f.length.toNat).drop (start.toNat - (X.take (fileStart all k0)).length) = [] := by
          rw [List.drop_eq_nil_iff, List.length_take, Nat.min_eq_left hT]
          unfold slice
          rw [List.length_take]
          omega
        rw [this]
        simp

/-- Each path of the files is used once. -/
def DistinctPaths (info : Info) : Prop := (info.files.map (·.path)).Nodup

theorem DistinctPaths.last {info : Info} (h : DistinctPaths info) (k : Nat) : LastWithPath info.files k := by
  intro j f g hj hf hg e
  unfold DistinctPaths at h
  have h1 : (info.files.map (·.path))[k]? = some f.path := by simp [hf]
  have h2 : (info.files.map (·.path))[j]? = some g.path := by simp [hg]
  rw [e] at h2
  have hk := (List.getElem?_eq_some_iff.mp h1).1
  have := (List.getElem?_inj hk h).mp (h1.trans h2.symm)
  omega

theorem wp_getMulti {s : Sys} {l : List (List Bytes × Bytes)} (ht : s.fs.target = some (.dir l)) (X : Bytes) (index begin_ length : Int)
    (hs : 0 ≤ index * cfg.info.pieceLength + begin_) (hfit : fileStart cfg.info.files cfg.info.files.length ≤ X.length)
    (hfile : ∀ (k : Nat) (f : File), cfg.info.files[k]? = some f → lookupPath f.path l = some (slice X (fileStart cfg.info.files k) f.length.toNat))
    (hnn : ∀ f ∈ cfg.info.files, 0 ≤ f.length) :
    wp A (getMulti cfg index begin_ length) ⟨fun r s' => (0 ≤ length ∧ r.length = length.toNat ∧
      r = slice X (index * cfg.info.pieceLength + begin_).toNat length.toNat) ∧ s' = s,
      fun _ s' => s' = s ∧ ((∃ r, A (.fail r)) ∨ fileStart cfg.info.files cfg.info.files.length < index * cfg.info.pieceLength + begin_ + length),
      fun s' => s' = s ∧ length < 0, fun s' => s' = s⟩ s := by
  unfold getMulti
  refine wp_bind ?_
  unfold makeLen
  by_cases hn : length < 0
  · rw [if_pos hn]; exact wp_panic ⟨rfl, hn⟩
  · rw [if_neg hn]
    refine wp_pure ?_
    show wp A _ _ s
    have hn : 0 ≤ length := by omega
    refine wp_rof (wp_getMultiLoop ht X _ length hs hn cfg.info.files hfit hfile hnn _ 0 [] (by simp) (by simp [fileStart])) ?_
      (fun h _ => ⟨rfl, .inl h⟩) rfl
    intro r hr
    generalize index * cfg.info.pieceLength + begin_ = start at *
    generalize fileStart cfg.info.files cfg.info.files.length = T at *
    unfold slice at hr
    rw [List.drop_take, List.take_take] at hr
    have hrl : r.length = min (min length.toNat (T - start.toNat)) (X.length - start.toNat) := by rw [hr]; simp
    by_cases h : r.length < length.toNat
    · rw [if_pos h]; exact wp_fail ⟨rfl, .inr (by omega)⟩
    · rw [if_neg h]
      refine wp_pure ⟨⟨hn, by omega, ?_⟩, rfl⟩
      rw [hr]
      unfold slice
      rw [Nat.min_eq_left (by omega)]

/-- Reading never changes anything, whatever is on the disk. -/
theorem wp_getMultiLoop_any {s : Sys} (start end_ : Int) (len : Nat) (files : List File) : ∀ (total : Int) (acc : Bytes),
    wp A (getMultiLoop start end_ len total acc files) (ro s fun _ => True) s := by
  induction files with
  | nil => intro total acc; exact wp_pure ⟨trivial, rfl⟩
  | cons f fs ih =>
    intro total acc
    unfold getMultiLoop
    split
    · exact wp_pure ⟨trivial, rfl⟩
    · split
      · refine wp_ro (wp_openPath _) ?_ (fun _ => rfl) rfl
        intro c _
        refine wp_ro (wp_readAt _ _ _) ?_ (fun _ => rfl) rfl
        rintro ⟨r, e⟩ _
        exact ih _ _
      · exact ih _ _

theorem wp_getBlock_any {s : Sys} (index begin_ length : Int) :
    wp A (getBlock cfg index begin_ length) (rop s (fun _ => True)
      (length < 0 ∨ (s.mem.coalesced = false ∧ (index < 0 ∨ (s.mem.pieces.length : Int) ≤ index)))) s := by
  unfold getBlock
  refine wp_bind (wp_getMem ?_)
  show wp A (if s.mem.coalesced = true then _ else _) _ s
  by_cases hc : s.mem.coalesced = true
  · rw [if_pos hc]
    by_cases hf : cfg.info.files ≠ []
    · rw [if_pos hf]
      unfold getMulti
      refine wp_rop (wp_makeLen length) ?_ (fun _ => rfl) (fun h => ⟨rfl, .inl h⟩) rfl
      rintro n ⟨rfl, hn⟩
      refine wp_ro (wp_getMultiLoop_any _ _ _ _ _ _) ?_ (fun _ => rfl) rfl
      intro r _
      split
      · exact wp_fail rfl
      · exact wp_pure ⟨trivial, rfl⟩
    · rw [if_neg hf]
      exact wp_mono (wp_getSingle _ _ _) (fun _ _ h => ⟨trivial, h.2⟩) (fun _ _ h => h) (fun _ h => ⟨h.1, .inl h.2⟩) (fun _ h => h)
  · rw [if_neg hc]
    refine wp_bind (wp_getPiece ?_ ?_)
    · rintro i p rfl hp
      show wp A (if (!p.coalesced) = true then _ else _) _ s
      split
      · exact wp_fail rfl
      · exact wp_mono (wp_getFromPiece _ _ _) (fun _ _ h => ⟨trivial, h.2⟩) (fun _ _ h => h) (fun _ h => ⟨h.1, .inl h.2⟩) (fun _ h => h)
    · intro h
      exact ⟨rfl, .inr ⟨by simpa using hc, h⟩⟩

theorem TargetOk.holds {t : Target} (h : TargetOk cfg t) : ∃ ds, Contents cfg.sha1 cfg.info ds ∧ Holds cfg.info ds.flatten t ∧
    (cfg.info.files ≠ [] → fileStart cfg.info.files cfg.info.files.length ≤ ds.flatten.length) := by
  cases t with
  | file c => obtain ⟨h1, ds, h2, h3⟩ := h; exact ⟨ds, h2, ⟨h1, h3⟩, fun h => absurd h1 h⟩
  | dir l => obtain ⟨_, h1, ds, h2, h3, h4⟩ := h; exact ⟨ds, h2, ⟨h1, h4⟩, fun _ => h3⟩

/-- What GetBlock returns. -/
def BlockResult (cfg : Cfg) (s : Sys) (index begin_ length : Int) (r : Bytes) : Prop :=
  0 ≤ length ∧ r.length = length.toNat ∧
  (s.mem.coalesced = false → 0 ≤ begin_ ∧ ∃ (i : Nat) (d : Bytes), index = i ∧ W s.fs i d ∧ Verified cfg.sha1 cfg.info i d ∧
    (d.length : Int) = cfg.info.getPieceLength i ∧ r = slice d begin_.toNat length.toNat) ∧
  (s.mem.coalesced = true → 0 ≤ index * cfg.info.pieceLength + begin_ ∧ ∃ t ds, s.fs.target = some t ∧ Holds cfg.info ds.flatten t ∧ Contents cfg.sha1 cfg.info ds ∧
    r = slice ds.flatten (index * cfg.info.pieceLength + begin_).toNat length.toNat)

theorem wp_getBlock {s : Sys} (h : SInv cfg s) (index begin_ length : Int) (hd : cfg.info.files ≠ [] → DistinctPaths cfg.info ∧
    (∀ f ∈ cfg.info.files, 0 ≤ f.length) ∧ 0 ≤ index * cfg.info.pieceLength + begin_) :
    wp A (getBlock cfg index begin_ length) (rop s (BlockResult cfg s index begin_ length)
      (length < 0 ∨ (s.mem.coalesced = false ∧ (index < 0 ∨ (s.mem.pieces.length : Int) ≤ index)))) s := by
  unfold getBlock
  refine wp_bind (wp_getMem ?_)
  show wp A (if s.mem.coalesced = true then _ else _) _ s
  by_cases hc : s.mem.coalesced = true
  · rw [if_pos hc]
    have htn := (h.2.all hc).1
    by_cases hf : cfg.info.files ≠ []
    · rw [if_pos hf]
      obtain ⟨t, ht⟩ := Option.ne_none_iff_exists'.mp htn
      have hok := h.1.target t ht
      cases t with
      | file c => exact absurd hok.1 hf
      | dir l =>
        obtain ⟨_, _, ds, hcon, hfit, hlook⟩ := hok
        obtain ⟨hd, hnn, hs⟩ := hd hf
        refine wp_mono (wp_getMulti ht ds.flatten index begin_ length hs hfit (fun k f hk => hlook.lookup k f hk (hd.last k)) hnn) ?_ (fun _ _ h => h.1)
          (fun _ h => ⟨h.1, .inl h.2⟩) (fun _ h => h)
        rintro r s' ⟨⟨h1, h2, h3⟩, rfl⟩
        exact ⟨⟨h1, h2, (fun e => by rw [hc] at e; cases e), fun _ => ⟨hs, _, ds, ht, ⟨hf, hlook⟩, hcon, h3⟩⟩, rfl⟩
    · rw [if_neg hf]
      refine wp_mono (wp_getSingle _ _ _) ?_ (fun _ _ h => h) (fun _ h => ⟨h.1, .inl h.2⟩) (fun _ h => h)
      rintro r s' ⟨⟨h1, h2, h3, c, h4, h5⟩, rfl⟩
      obtain ⟨hfe, ds, hcon, rfl⟩ := h.1.target _ h4
      exact ⟨⟨h1, h3, (fun e => by rw [hc] at e; cases e), fun _ => ⟨h2, _, ds, h4, ⟨hfe, rfl⟩, hcon, h5⟩⟩, rfl⟩
  · rw [if_neg hc]
    refine wp_bind (wp_getPiece ?_ ?_)
    · rintro i p rfl hp
      show wp A (if (!p.coalesced) = true then _ else _) _ s
      split
      · exact wp_fail rfl
      · refine wp_mono (wp_getFromPiece _ _ _) ?_ (fun _ _ h => h) (fun _ h => ⟨h.1, .inl h.2⟩) (fun _ h => h)
        rintro r s' ⟨⟨h1, h2, h3, d, h4, h5⟩, rfl⟩
        have hv := h4.verified h.1
        exact ⟨⟨h1, h3, fun _ => ⟨h2, i, d, rfl, h4, hv.1, hv.2, h5⟩, fun e => absurd e hc⟩, rfl⟩
    · intro h
      exact ⟨rfl, .inr ⟨by simpa using hc, h⟩⟩

/-! ### GetBlock works -/

theorem wp_readAt_all {s : Sys} (c : Bytes) (off : Int) (len : Nat) (ho : 0 ≤ off) (hl : off.toNat + len ≤ c.length) :
    wp A (Op.lift (readAt c off len)) (only fun x s' => x = (slice c off.toNat len, false) ∧ s' = s) s := by
  refine wp_lift ?_
  unfold readAt
  rw [if_neg (by omega)]
  refine ⟨?_, rfl⟩
  have : ¬ ((c.drop off.toNat).take len).length < len := by simp; omega
  rw [decide_eq_false this]
  rfl

/-- A block inside a piece that is complete can be read. -/
theorem wp_getFromPiece_works {s : Sys} {i : Nat} {d : Bytes} (hw : W s.fs i d) {begin_ length : Int} (hb : 0 ≤ begin_) (hl : 0 ≤ length)
    (hfit : begin_ + length ≤ d.length) :
    wp A (getFromPiece i begin_ length) ⟨fun r s' => r = slice d begin_.toNat length.toNat ∧ s' = s, fun _ _ => ∃ r, A (.fail r), fun _ => False, fun _ => True⟩ s := by
  unfold getFromPiece
  refine wp_rob wp_readWork ?_ ?_ trivial
  · intro c hc
    cases hc.unique hw
    unfold makeLen
    rw [if_neg (by omega)]
    refine wp_bind (wp_pure ?_)
    refine wp_seq (wp_readAt_all d begin_ length.toNat hb (by omega)) ?_ (fun _ _ h => h.elim) (fun _ h => h.elim) (fun _ h => h.elim)
    rintro _ s' ⟨rfl, rfl⟩
    exact wp_pure ⟨rfl, rfl⟩
  · rintro (h | h) _
    · exact h
    · exact absurd ⟨d, hw⟩ h

/-- A block of a finished single file can be read. -/
theorem wp_getSingle_works {s : Sys} {c : Bytes} (ht : s.fs.target = some (.file c)) {index begin_ length : Int} (hb : 0 ≤ index * cfg.info.pieceLength + begin_)
    (hl : 0 ≤ length) (hfit : index * cfg.info.pieceLength + begin_ + length ≤ c.length) :
    wp A (getSingle cfg index begin_ length) ⟨fun r s' => r = slice c (index * cfg.info.pieceLength + begin_).toNat length.toNat ∧ s' = s,
      fun _ _ => ∃ r, A (.fail r), fun _ => False, fun _ => True⟩ s := by
  unfold getSingle
  refine wp_bind (wp_call ?_ ?_ (fun r hr => ⟨r, hr⟩) (fun _ _ => trivial))
  · intro a fs he
    simp [ht] at he
    obtain ⟨rfl, rfl⟩ := he
    show wp A _ _ s
    unfold makeLen
    rw [if_neg (by omega)]
    refine wp_bind (wp_pure ?_)
    refine wp_seq (wp_readAt_all _ _ length.toNat hb (by omega)) ?_ (fun _ _ h => h.elim) (fun _ h => h.elim) (fun _ h => h.elim)
    rintro _ s' ⟨rfl, rfl⟩
    exact wp_pure ⟨rfl, rfl⟩
  · intro he; simp [ht] at he

end Drip.Storage
