import Verif.Lemmas.StorageConc
import Verif.Model.KernelRfl
/-
Storage used by any number of goroutines (C49, C50).

`es` is any history that ends with a running process; then goroutines `ls0` make one call each.
-/

namespace Drip.StorageConc
open Drip.Storage
open Drip.Spec (Verified Contents)

variable {cfg : Cfg}

/-! ### C49 -/

/-- C49. There is an order of the calls such that each returns what it returns if the calls are made in that order one after the other, and when no call is
under way the disk and the memory are those after these calls. (A PutBlock whose index is not that of a piece may panic where the panic is not possible anymore: C43.) -/
theorem C49_linearizable (hu : Usable cfg) {strict : Bool} {es : List (Event × List Fate)} {fs : FS} {m : Mem} (h0 : run cfg es World.empty = ⟨fs, some m⟩) {ls0 : List Th}
    (hf : ∀ t ∈ ls0, t.fresh = true) {s : Shared} {ls : List Th} (hr : Reach cfg strict (⟨⟨fs, m⟩, false, es⟩, ls0) (s, ls)) :
    (∃ r, s.hist = es ++ r) ∧
    (∀ n, es.length ≤ n → n < s.hist.length → ∃ (a : Nat) (t : Th), ls[a]? = some t ∧ t.pos = some n ∧ ∀ (a' : Nat) (t' : Th), ls[a']? = some t' → t'.pos = some n → a' = a) ∧
    (∀ i b d r n, Th.put i b d (.done r n) ∈ ls → es.length ≤ n ∧ ∃ f, s.hist[n]? = some (.put i b d, f) ∧
      ((runOp (putBlock cfg i b d) (run cfg (s.hist.take n) World.empty) f).1 = r ∨ ¬ (0 ≤ i ∧ i < cfg.info.pieces.length) ∧ r = .panic)) ∧
    (∀ i b l r n, Th.get i b l (.done r n) ∈ ls → es.length ≤ n ∧ ∃ f, s.hist[n]? = some (.get i b l, f) ∧
      (runOp (getBlock cfg i b l) (run cfg (s.hist.take n) World.empty) f).1 = r) ∧
    (∀ i r n, Th.reset i (.done r n) ∈ ls → es.length ≤ n ∧ ∃ f, s.hist[n]? = some (.reset i, f) ∧
      (runOp (resetPiece i) (run cfg (s.hist.take n) World.empty) f).1 = r) ∧
    (s.dead = false → (∀ t ∈ ls, t.fresh = true ∨ t.finished = true) → run cfg s.hist World.empty = ⟨s.sys.fs, some s.sys.mem⟩) ∧
    (s.dead = true → ∃ es', run cfg es' World.empty = ⟨s.sys.fs, none⟩) := by
  have inv := (Inv.init h0 hf).reach hu hr
  have pos := (Pos.init (s := ⟨⟨fs, m⟩, false, es⟩) (ls := ls0) fun t ht => fresh_pos (hf t ht)).reach hr
  refine ⟨pos.pre, fun n h1 h2 => ?_, fun i b d r n ht => ?_, fun i b l r n ht => ?_, fun i r n ht => ?_, fun hd hq => ?_, inv.core.bad⟩
  · obtain ⟨a, t, h3, h4⟩ := pos.all n h1 h2
    exact ⟨a, t, h3, h4, fun a' t' h5 h6 => pos.inj a' a t' t n h5 h3 h6 h4⟩
  · obtain ⟨a, ha⟩ := List.getElem?_of_mem ht
    obtain ⟨h1, f, h2⟩ := pos.rng a _ n ha rfl
    rcases (show Took _ _ _ _ _ _ ∨ _ from inv.th _ ht) with ⟨f', h3, h4⟩ | h3
    · exact ⟨h1, f', h3, .inl h4⟩
    · exact ⟨h1, f, h2, .inr h3⟩
  · obtain ⟨a, ha⟩ := List.getElem?_of_mem ht
    obtain ⟨h1, _⟩ := pos.rng a _ n ha rfl
    exact ⟨h1, inv.th _ ht⟩
  · obtain ⟨a, ha⟩ := List.getElem?_of_mem ht
    obtain ⟨h1, _⟩ := pos.rng a _ n ha rfl
    exact ⟨h1, inv.th _ ht⟩
  · obtain ⟨m', h1, sim⟩ := inv.core.ok hd
    have h1 : run cfg s.hist World.empty = ⟨s.sys.fs, some m'⟩ := h1
    have sim : Sim cfg ls m' s.sys := sim
    have hp : s.sys.mem.pieces = m'.pieces := by
      apply List.ext_getElem?
      intro k
      cases hk : m'.pieces[k]? with
      | none =>
        have := List.getElem?_eq_none_iff.1 hk
        exact List.getElem?_eq_none (by rw [sim.len]; exact this)
      | some p =>
        obtain ⟨p', h2, ⟨_, h3⟩ | ⟨b, d, ⟨t, ht, hx⟩, _⟩⟩ := sim.piece k p hk
        · rw [h2, h3]
        · exfalso
          rcases hq t ht with h3 | h3
          · rw [(fresh_holds h3).2.2.2.2] at hx; cases hx
          · cases t with
            | put i b d pc => cases pc <;> first | cases h3; done | cases hx
            | get i b l pc => cases hx
            | reset i pc => cases hx
    rw [h1]
    have : s.sys.mem = m' := by rw [sim.mem, hp]
    rw [this]

/-- C49 (the order). A call that returned before another was made precedes it. -/
theorem C49_order {strict : Bool} {es : List (Event × List Fate)} {fs : FS} {m : Mem} {ls0 : List Th} (hf : ∀ t ∈ ls0, t.fresh = true) {s s' : Shared} {ls ls' : List Th}
    (hr : Reach cfg strict (⟨⟨fs, m⟩, false, es⟩, ls0) (s, ls)) (hr' : Reach cfg strict (s, ls) (s', ls')) {a b : Nat} {t u t' u' : Th}
    (ha : ls[a]? = some t) (hb : ls[b]? = some u) (hta : t.finished = true) (hub : u.fresh = true) (ha' : ls'[a]? = some t') (hb' : ls'[b]? = some u') {i j : Nat}
    (hi : t'.pos = some i) (hj : u'.pos = some j) : i < j := by
  have pos := (Pos.init (s := ⟨⟨fs, m⟩, false, es⟩) (ls := ls0) fun t ht => fresh_pos (hf t ht)).reach hr
  obtain ⟨_, _, later⟩ := pos_later hr'
  obtain ⟨t1, h1, _, h2⟩ := later a t ha
  obtain ⟨u1, h3, _, h4⟩ := later b u hb
  have h1 : ls'[a]? = some t1 := h1
  have h3 : ls'[b]? = some u1 := h3
  rw [ha'] at h1; injection h1 with h1; subst h1
  rw [hb'] at h3; injection h3 with h3; subst h3
  have htp : t.pos ≠ none := by
    cases t with
    | put i b d pc => cases pc <;> first | cases hta; done | (intro h; cases h)
    | get i b l pc => cases pc <;> first | cases hta; done | (intro h; cases h)
    | reset i pc => cases pc <;> first | cases hta; done | (intro h; cases h)
  have hti : t.pos = some i := by
    rcases h2 with h2 | ⟨h2, _⟩
    · rw [← h2, hi]
    · exact absurd h2 htp
  obtain ⟨_, f, h5⟩ := pos.rng a t i ha hti
  have h5 : s.hist[i]? = some (t.event, f) := h5
  have := (List.getElem?_eq_some_iff.1 h5).1
  rcases h4 with h4 | ⟨_, n, h4, h6⟩
  · rw [fresh_pos hub, hj] at h4; cases h4
  · rw [hj] at h4; injection h4 with h4
    have h6 : s.hist.length ≤ n := h6
    omega

/-- The memory that observers see differs from a sequential one only in blocks. -/
theorem sees {ls : List Th} {m : Mem} {sys : Sys} (h : Sim cfg ls m sys) (i : Nat) (e : Option Err) :
    (Reported sys.mem i ↔ Reported m i) ∧ (PieceResult sys.mem i e ↔ PieceResult m i e) ∧ (TorrentResult sys.mem e ↔ TorrentResult m e) ∧ sys.mem.completePieces = m.completePieces := by
  have hb : sys.mem.bitfield = m.bitfield := by rw [h.mem]
  have hfu : sys.mem.futs = m.futs := by rw [h.mem]
  have he : sys.mem.err = m.err := by rw [h.mem]
  refine ⟨by unfold Reported; rw [hb], ?_, by unfold TorrentResult; rw [hfu, he], by rw [h.mem]⟩
  unfold PieceResult
  rw [hfu]
  constructor
  · rintro ⟨p', h1, h2⟩
    have hlt : i < m.pieces.length := by rw [← h.len]; exact (List.getElem?_eq_some_iff.1 h1).1
    obtain ⟨q, h3, h4⟩ := h.piece i _ (List.getElem?_eq_getElem hlt)
    rw [h1] at h3; injection h3 with h3; subst h3
    refine ⟨_, List.getElem?_eq_getElem hlt, ?_⟩
    rcases h4 with ⟨_, h4⟩ | ⟨b, d, _, h4⟩
    · rw [← h4]; exact h2
    · rw [← h4.fut]; exact h2
  · rintro ⟨p, h1, h2⟩
    obtain ⟨q, h3, h4⟩ := h.piece i p h1
    refine ⟨q, h3, ?_⟩
    rcases h4 with ⟨_, h4⟩ | ⟨b, d, _, h4⟩
    · rw [h4]; exact h2
    · rw [h4.fut]; exact h2

/-- C49 (integrity). Whatever the goroutines do, a piece that is reported complete has data with the right hash on disk. -/
theorem C49_verified (hu : Usable cfg) {strict : Bool} {es : List (Event × List Fate)} {fs : FS} {m : Mem} (h0 : run cfg es World.empty = ⟨fs, some m⟩) {ls0 : List Th}
    (hf : ∀ t ∈ ls0, t.fresh = true) {s : Shared} {ls : List Th} (hr : Reach cfg strict (⟨⟨fs, m⟩, false, es⟩, ls0) (s, ls)) (hd : s.dead = false) (i : Nat)
    (h : Reported s.sys.mem i ∨ PieceResult s.sys.mem i none ∨ TorrentResult s.sys.mem none ∧ i < cfg.info.pieces.length) : ∃ d, OnDisk cfg s.sys.fs i d := by
  obtain ⟨m', h1, sim⟩ := ((Inv.init h0 hf).reach hu hr).core.ok hd
  have h1 : run cfg s.hist World.empty = ⟨s.sys.fs, some m'⟩ := h1
  obtain ⟨h2, h3, h4, _⟩ := sees sim i none
  have := C38_verified hu s.hist (m := m') (by rw [h1]) i (by
    rcases h with h | h | ⟨h, hi⟩
    · exact .inl (h2.1 h)
    · exact .inr (.inl (h3.1 h))
    · exact .inr (.inr ⟨h4.1 h, hi⟩))
  rw [h1] at this
  exact this

/-- C49 (bookkeeping). -/
theorem C49_consistent (hu : Usable cfg) {strict : Bool} {es : List (Event × List Fate)} {fs : FS} {m : Mem} (h0 : run cfg es World.empty = ⟨fs, some m⟩) {ls0 : List Th}
    (hf : ∀ t ∈ ls0, t.fresh = true) {s : Shared} {ls : List Th} (hr : Reach cfg strict (⟨⟨fs, m⟩, false, es⟩, ls0) (s, ls)) (hd : s.dead = false) :
    (∀ i, Reported s.sys.mem i ↔ PieceResult s.sys.mem i none) ∧ (∀ i, Reported s.sys.mem i → i < cfg.info.pieces.length) ∧
    s.sys.mem.completePieces = ((List.range cfg.info.pieces.length).countP fun i => decide (Reported s.sys.mem i) : Nat) ∧
    (TorrentResult s.sys.mem none → ∀ i, i < cfg.info.pieces.length → Reported s.sys.mem i) := by
  obtain ⟨m', h1, sim⟩ := ((Inv.init h0 hf).reach hu hr).core.ok hd
  have h1 : run cfg s.hist World.empty = ⟨s.sys.fs, some m'⟩ := h1
  obtain ⟨c1, c2, c3, c4⟩ := C45_consistent hu s.hist (m := m') (by rw [h1])
  have see := fun i => sees sim i none
  refine ⟨fun i => ((see i).1.trans (c1 i)).trans (see i).2.1.symm, fun i hi => c2 i ((see i).1.1 hi), ?_, fun ht i hi => (see i).1.2 (c4 ((see i).2.2.1.1 ht) i hi)⟩
  rw [(see 0).2.2.2, c3]
  have : (fun i => decide (Reported s.sys.mem i)) = fun i => decide (Reported m' i) := by
    funext i
    exact decide_eq_decide.2 (see i).1
  rw [this]

/-- Reported pieces stay reported. -/
theorem reported_step (hu : Usable cfg) {strict : Bool} {x y : Shared × List Th} (hx : Inv cfg x) (hs : Step cfg strict x y) (hd : y.1.dead = false) {i : Nat}
    (h : Reported x.1.sys.mem i) : Reported y.1.sys.mem i := by
  have hy := hx.step hu hs
  cases hs with
  | @mk s s' l l' ls k hdx hl ha =>
  obtain ⟨m, h1, sim⟩ := hx.core.ok hdx
  obtain ⟨m', h1', sim'⟩ := hy.core.ok hd
  have h1 : run cfg s.hist World.empty = ⟨s.sys.fs, some m⟩ := h1
  have h1' : run cfg s'.hist World.empty = ⟨s'.sys.fs, some m'⟩ := h1'
  have hm := (sees sim i none).1.1 h
  refine (sees sim' i none).1.2 ?_
  obtain ⟨_, ⟨h2, _⟩ | ⟨_, _, f, h2⟩⟩ := act_pos ha
  · rw [h2, h1] at h1'
    injection h1' with _ h1'
    injection h1' with h1'
    rw [← h1']; exact hm
  · refine C45_monotone hu s.hist [(l.event, f)] (by rw [h1]) (m' := m') ?_ ?_ i hm
    · have : run cfg [(l.event, f)] (run cfg s.hist World.empty) = run cfg s'.hist World.empty := by rw [h2, run_snoc]; rfl
      rw [this, h1']
    · intro z hz
      rcases List.mem_singleton.1 hz with rfl
      cases l <;> (intro hz; cases hz)

/-- C49 (integrity, in time). -/
theorem C49_monotone (hu : Usable cfg) {strict : Bool} {es : List (Event × List Fate)} {fs : FS} {m : Mem} (h0 : run cfg es World.empty = ⟨fs, some m⟩) {ls0 : List Th}
    (hf : ∀ t ∈ ls0, t.fresh = true) {s s' : Shared} {ls ls' : List Th} (hr : Reach cfg strict (⟨⟨fs, m⟩, false, es⟩, ls0) (s, ls)) (hr' : Reach cfg strict (s, ls) (s', ls'))
    (hd : s'.dead = false) (i : Nat) (h : Reported s.sys.mem i) : Reported s'.sys.mem i := by
  have inv := (Inv.init h0 hf).reach hu hr
  suffices hs : ∀ {y : Shared × List Th}, Reach cfg strict (s, ls) y → Inv cfg y ∧ (y.1.dead = false → Reported y.1.sys.mem i) from (hs hr').2 hd
  intro y hy
  induction hy with
  | refl => exact ⟨inv, fun _ => h⟩
  | tail _ hs ih =>
    refine ⟨ih.1.step hu hs, fun hd => reported_step hu ih.1 hs hd (ih.2 ?_)⟩
    cases hs with
    | mk k hd' _ _ => exact hd'

/-- C49 (GetBlock). The bytes returned are the requested part of data with the right hash. -/
theorem C49_right_bytes (hu : Usable cfg) {strict : Bool} {es : List (Event × List Fate)} {fs : FS} {m : Mem} (h0 : run cfg es World.empty = ⟨fs, some m⟩) {ls0 : List Th}
    (hf : ∀ t ∈ ls0, t.fresh = true) {s : Shared} {ls : List Th} (hr : Reach cfg strict (⟨⟨fs, m⟩, false, es⟩, ls0) (s, ls)) {index begin_ length : Int} {r : Bytes} {n : Nat}
    (hfiles : cfg.info.files ≠ [] → (cfg.info.files.map (·.path)).Nodup ∧ (∀ f ∈ cfg.info.files, 0 ≤ f.length) ∧ 0 ≤ index * cfg.info.pieceLength + begin_)
    (h : Th.get index begin_ length (.done (.ok r) n) ∈ ls) :
    (r.length : Int) = length ∧
    ((0 ≤ begin_ ∧ ∃ (i : Nat) (d : Bytes), index = i ∧ Verified cfg.sha1 cfg.info i d ∧ (d.length : Int) = cfg.info.getPieceLength i ∧ r = Spec.slice d begin_.toNat length.toNat) ∨
      (0 ≤ index * cfg.info.pieceLength + begin_ ∧ ∃ ds, Contents cfg.sha1 cfg.info ds ∧
        r = Spec.slice ds.flatten (index * cfg.info.pieceLength + begin_).toNat length.toNat)) := by
  obtain ⟨_, _, _, hget, _⟩ := C49_linearizable hu h0 hf hr
  obtain ⟨_, f, _, h2⟩ := hget index begin_ length (.ok r) n h
  generalize hw : run cfg (s.hist.take n) World.empty = w at h2
  cases hm : w.mem with
  | none =>
    simp only [runOp, hm] at h2
    cases h2
  | some m' =>
    rcases hq : runOp (getBlock cfg index begin_ length) w f with ⟨o, w'⟩
    rw [hq] at h2
    have h2 : o = .ok r := h2
    subst h2
    rw [← hw] at hm hq
    obtain ⟨_, h3, h4⟩ := C39_right_bytes hu _ hm index begin_ length f hfiles hq
    refine ⟨h3, ?_⟩
    rcases h4 with ⟨h4, i, d, h5, h6, h7⟩ | ⟨_, h4, t, ds, _, _, h5, h6⟩
    · exact .inl ⟨h4, i, d, h5, h6.1, h6.2.1, h7⟩
    · exact .inr ⟨h4, ds, h5, h6⟩

/-! ### C50 -/

/-- C50 (as far as it is true). As long as no GetBlock waits for a piece while a PutBlock of that piece waits for the torrent, some call can
continue, even if readers wait for waiting writers. -/
theorem C50_progress_partial (hu : Usable cfg) {strict strict' : Bool} {es : List (Event × List Fate)} {fs : FS} {m : Mem} (h0 : run cfg es World.empty = ⟨fs, some m⟩) {ls0 : List Th}
    (hf : ∀ t ∈ ls0, t.fresh = true) {s : Shared} {ls : List Th} (hr : Reach cfg strict (⟨⟨fs, m⟩, false, es⟩, ls0) (s, ls)) (hd : s.dead = false)
    (hpair : ∀ i b l, Th.get i b l .wanting ∈ ls → ∀ b' d, Th.put i b' d .stored ∉ ls) (hnot : ∃ t ∈ ls, t.finished = false) : ∃ y, Step cfg strict' (s, ls) y :=
  progress hu ((Inv.init h0 hf).reach hu hr) hd hpair hnot strict'

/-- The call stays the same. -/
theorem event_back {strict : Bool} {x y : Shared × List Th} (hr : Reach cfg strict x y) {t' : Th} (h : t' ∈ y.2) : ∃ t ∈ x.2, t.event = t'.event := by
  obtain ⟨a, ha⟩ := List.getElem?_of_mem h
  obtain ⟨_, hlen, later⟩ := pos_later hr
  have hlt : a < x.2.length := by rw [← hlen]; exact (List.getElem?_eq_some_iff.1 ha).1
  obtain ⟨t1, h1, h2, _⟩ := later a _ (List.getElem?_eq_getElem hlt)
  rw [ha] at h1; injection h1 with h1; subst h1
  exact ⟨_, List.getElem_mem hlt, h2.symm⟩

/-- C50 (partial: the pieces that are read are not those that are written). Nobody waits for ever. -/
theorem C50_disjoint_partial (hu : Usable cfg) {strict strict' : Bool} {es : List (Event × List Fate)} {fs : FS} {m : Mem} (h0 : run cfg es World.empty = ⟨fs, some m⟩) {ls0 : List Th}
    (hf : ∀ t ∈ ls0, t.fresh = true) (hdis : ∀ i b l b' d, Th.get i b l .start ∈ ls0 → Th.put i b' d .start ∉ ls0) {s : Shared} {ls : List Th}
    (hr : Reach cfg strict (⟨⟨fs, m⟩, false, es⟩, ls0) (s, ls)) (hd : s.dead = false) (hnot : ∃ t ∈ ls, t.finished = false) : ∃ y, Step cfg strict' (s, ls) y := by
  refine C50_progress_partial hu h0 hf hr hd (fun i b l hg b' d hp => ?_) hnot
  obtain ⟨t, ht, h1⟩ := event_back hr hg
  obtain ⟨u, hu', h2⟩ := event_back hr hp
  have ht : t ∈ ls0 := ht
  have hu' : u ∈ ls0 := hu'
  have f1 := hf t ht
  have f2 := hf u hu'
  cases t with
  | put => cases h1
  | reset => cases h1
  | get i1 b1 l1 pc1 =>
    cases u with
    | get => cases h2
    | reset => cases h2
    | put i2 b2 d2 pc2 =>
      injection h1 with h1 h3 h4
      injection h2 with h2 h5 h6
      subst h1 h3 h4 h2 h5 h6
      cases pc1 <;> first | cases f1; done | skip
      cases pc2 <;> first | cases f2; done | skip
      exact hdis _ _ _ _ _ ht hu'

/-- A step in which a GetBlock that starts is for a piece that is reported complete. -/
def Careful (cfg : Cfg) (strict : Bool) (x y : Shared × List Th) : Prop :=
  Step cfg strict x y ∧ ∀ (k : Nat) (i : Nat) (b l : Int), x.2[k]? = some (.get i b l .start) → y.2[k]? = some (.get i b l .reading) → Reported x.1.sys.mem i

/-- C50 (partial: blocks are only asked of pieces that are reported complete). Nobody waits for ever. -/
theorem C50_reported_partial (hu : Usable cfg) {strict strict' : Bool} {es : List (Event × List Fate)} {fs : FS} {m : Mem} (h0 : run cfg es World.empty = ⟨fs, some m⟩) {ls0 : List Th}
    (hf : ∀ t ∈ ls0, t.fresh = true) {s : Shared} {ls : List Th} (hr : Relation.ReflTransGen (Careful cfg strict) (⟨⟨fs, m⟩, false, es⟩, ls0) (s, ls)) (hd : s.dead = false)
    (hnot : ∃ t ∈ ls, t.finished = false) : ∃ y, Step cfg strict' (s, ls) y := by
  have main : ∀ {y : Shared × List Th}, Relation.ReflTransGen (Careful cfg strict) (⟨⟨fs, m⟩, false, es⟩, ls0) y →
      Inv cfg y ∧ (y.1.dead = false → ∀ (i : Nat) (b l : Int) (pc : GetPc), Th.get i b l pc ∈ y.2 → (Th.get i b l pc).readsT = true → Reported y.1.sys.mem i) := by
    intro y hy
    induction hy with
    | refl =>
      refine ⟨Inv.init h0 hf, fun _ i b l pc hg hw => ?_⟩
      rw [(fresh_holds (hf _ hg)).2.1] at hw; cases hw
    | tail _ hs ih =>
      obtain ⟨hst, hc⟩ := hs
      refine ⟨ih.1.step hu hst, fun hd i b l pc hg hw => ?_⟩
      refine reported_step hu ih.1 hst hd ?_
      cases hst with
      | @mk s0 s1 l0 l1 ls1 k hd0 hl ha =>
        obtain ⟨a, ha'⟩ := List.getElem?_of_mem hg
        have ha' : (ls1.set k l1)[a]? = _ := ha'
        by_cases hak : k = a
        · subst hak
          have ha2 := ha'
          rw [List.getElem?_set_self (List.getElem?_eq_some_iff.1 hl).1] at ha2
          injection ha2 with ha2
          subst ha2
          have old : (l0.readsT = true → Reported s0.sys.mem i) := by
            intro h
            obtain ⟨he, _⟩ := act_pos ha
            cases l0 with
            | put => cases he
            | reset => cases he
            | get i0 b0 l0 pc0 =>
              injection he with h1 h2 h3
              subst h1 h2 h3
              exact ih.2 hd0 i b l pc0 (List.mem_of_getElem? hl) h
          cases ha with
          | getRead _ => exact hc k i b l hl ha'
          | want _ _ => exact old rfl
          | getLock _ => exact old rfl
          | getUnlock => exact old rfl
          | getUnlockT => cases hw
          | whole _ _ => exact old rfl
          | getNone _ _ => exact old rfl
          | read _ _ => exact old rfl
        · rw [List.getElem?_set_ne hak] at ha'
          exact ih.2 hd0 i b l pc (List.mem_of_getElem? ha') hw
  obtain ⟨inv, hrep⟩ := main hr
  refine progress hu inv hd (fun i b l hg b' d hp => ?_) hnot strict'
  obtain ⟨hi0, hi1⟩ := (show InRange cfg i ∧ _ from inv.th _ hg).1
  obtain ⟨k, rfl⟩ : ∃ k : Nat, i = k := ⟨i.toNat, by omega⟩
  have rep := hrep hd k b l .wanting hg rfl
  obtain ⟨m', h1, sim⟩ := inv.core.ok hd
  have sinv := seq_inv hu h1
  obtain ⟨p, h2, h3⟩ := (reported_iff sinv).1 ((sees sim k none).1.1 rep)
  obtain ⟨p', h4, ⟨h5, _⟩ | ⟨_, _, _, h5⟩⟩ := sim.piece k p h2
  · exact h5 (b', d) ⟨_, hp, by simp [Th.pends]⟩
  · rw [h5.was] at h3; cases h3

/-- C50 (termination). Calls need no more than nine steps each. -/
theorem C50_terminates_partial {strict : Bool} {f : Nat → Shared × List Th} {n : Nat} (h : ∀ k, k < n → Step cfg strict (f k) (f (k + 1))) : n ≤ 9 * (f 0).2.length := by
  have h1 : ∀ k, k ≤ n → ((f k).2.map Th.rank).sum + k ≤ ((f 0).2.map Th.rank).sum := by
    intro k
    induction k with
    | zero => intro _; exact Nat.le_refl _
    | succ k ih =>
      intro hk
      have h1 := ih (by omega)
      have h2 := step_rank (h k (by omega))
      omega
  have h2 : ∀ ls : List Th, (ls.map Th.rank).sum ≤ 9 * ls.length := by
    intro ls
    induction ls with
    | nil => exact Nat.le_refl _
    | cons t ls ih =>
      have : t.rank ≤ 9 := by
        cases t with
        | put i b d pc => cases pc <;> simp [Th.rank]
        | get i b l pc => cases pc <;> simp [Th.rank]
        | reset i pc => cases pc <;> simp [Th.rank]
      simp only [List.map_cons, List.sum_cons, List.length_cons]
      omega
  have := h1 n (Nat.le_refl _)
  have := h2 (f 0).2
  omega

/-! ### Examples -/

namespace Ex
open Drip.Storage.Ex

/-- The process has just started (2 pieces, of 4 and 2 bytes). -/
def s0 : Shared := ⟨⟨(run single [(.start, [])] World.empty).fs, newMem single.info⟩, false, [(.start, [])]⟩

def p0 : Piece := ((newMem single.info).pieces[0]?).getD ⟨false, 0, none, 0⟩

/-- After storing the block of piece 0. -/
def s1 : Shared := { s0 with sys := (putBlockP single.info 0 p0 0 [1, 2, 3, 4] s0.sys []).2.1 }

def ls0 : List Th := [.put 0 0 [1, 2, 3, 4] .start, .get 0 0 4 .start]

def stuck : List Th := [.put 0 0 [1, 2, 3, 4] .stored, .get 0 0 4 .wanting]

theorem start_stuck : Reach single false (s0, ls0) (s1, stuck) := by
  refine .head (.mk 0 rfl rfl (.check (by kernel_rfl))) ?_
  refine .head (.mk 0 rfl rfl (.putRead ⟨by decide, (fun h => by cases h)⟩)) ?_
  refine .head (.mk 0 rfl rfl (.pass rfl)) ?_
  refine .head (.mk 0 rfl rfl (.putLock ⟨by decide, by decide +kernel⟩ (show ∀ _, _ from by decide))) ?_
  refine .head (.mk 0 rfl rfl (.store (p := p0) (t := s1.sys) (f := []) (by kernel_rfl) (by kernel_rfl))) ?_
  refine .head (.mk 1 rfl rfl (.getRead ⟨by decide, (fun h => by cases h)⟩)) ?_
  refine .head (.mk 1 rfl rfl (.want (by kernel_rfl) ⟨by decide, by decide +kernel⟩)) ?_
  exact .refl

theorem no_step (y : Shared × List Th) : ¬ Step single false (s1, stuck) y := by
  intro h
  cases h with
  | @mk s s' l l' ls k hd hl ha =>
    match k, hl with
    | 0, hl =>
      injection hl with hl
      subst hl
      cases ha with
      | putLockT h =>
        have := (h (.get 0 0 4 .wanting) (by simp [stuck])).2
        cases this
    | 1, hl =>
      injection hl with hl
      subst hl
      cases ha with
      | getLock h =>
        have := h.1 (.put 0 0 [1, 2, 3, 4] .stored) (by simp [stuck])
        cases this

/-- The process may start with any torrent. -/
theorem s0_run : run single [(.start, [])] World.empty = ⟨s0.sys.fs, some s0.sys.mem⟩ := rfl

/-- A block of piece 1 is put and read, while piece 0 is reset. -/
def ls1 : List Th := [.put 1 0 [5, 6] .start, .get 1 1 1 .start, .reset 0 .start]

def q1 : Piece := ((newMem single.info).pieces[1]?).getD ⟨false, 0, none, 0⟩

def a1 : Shared := { s0 with sys := (putBlockP single.info 1 q1 0 [5, 6] s0.sys []).2.1 }

def o2 : Out Unit := (resetP 0 p0 a1.sys []).1

def a2 : Shared := a1.after o2 (resetP 0 p0 a1.sys []).2.1 (.reset 0) []

def o3 : Out Unit := (finishPut single 1 q1.fut a2.sys []).1

def a3 : Shared := a2.after o3 (finishPut single 1 q1.fut a2.sys []).2.1 (.put 1 0 [5, 6]) []

def q3 : Piece := (a3.sys.mem.pieces[1]?).getD ⟨false, 0, none, 0⟩

def q2 : Piece := (a2.sys.mem.pieces[1]?).getD ⟨false, 0, none, 0⟩

def a4 : Shared := a3.after (.ok [6]) a3.sys (.get 1 1 1) []

def done1 : List Th := [.put 1 0 [5, 6] (.done o3 2), .get 1 1 1 (.done (.ok [6]) 3), .reset 0 (.done o2 1)]

theorem runs : Reach single true (s0, ls1) (a4, done1) := by
  refine .head (.mk 0 rfl rfl (.check (by kernel_rfl))) ?_
  refine .head (.mk 2 rfl rfl (.resetLock ⟨by decide, by decide +kernel⟩ (show ∀ _, _ from by decide))) ?_
  refine .head (.mk 0 rfl rfl (.putRead ⟨by decide, fun _ => by decide⟩)) ?_
  refine .head (.mk 0 rfl rfl (.pass rfl)) ?_
  refine .head (.mk 0 rfl rfl (.putLock ⟨by decide, by decide +kernel⟩ (show ∀ _, _ from by decide))) ?_
  refine .head (.mk 0 rfl rfl (.store (p := q1) (t := a1.sys) (f := []) (by kernel_rfl) (by kernel_rfl))) ?_
  refine .head (.mk 2 rfl rfl (.reset (p := p0) (o := o2) (t := a2.sys) (f := []) (by kernel_rfl) (by kernel_rfl))) ?_
  refine .head (.mk 0 (by kernel_rfl) rfl (.putLockT (show ∀ _, _ from by decide))) ?_
  refine .head (.mk 2 (by kernel_rfl) rfl .resetUnlock) ?_
  refine .head (.mk 0 (by kernel_rfl) rfl (.finish (p := q2) (o := o3) (t := a3.sys) (fates := []) (f := []) (by kernel_rfl) (by kernel_rfl))) ?_
  refine .head (.mk 0 (by kernel_rfl) rfl .putUnlockT) ?_
  refine .head (.mk 1 (by kernel_rfl) rfl (.getRead ⟨by decide, fun _ => by decide⟩)) ?_
  refine .head (.mk 1 (by kernel_rfl) rfl (.want (by kernel_rfl) ⟨by decide, by decide +kernel⟩)) ?_
  refine .head (.mk 0 (by kernel_rfl) rfl .putUnlock) ?_
  refine .head (.mk 1 (by kernel_rfl) rfl (.getLock ⟨by decide, fun _ => by decide⟩)) ?_
  refine .head (.mk 1 (by kernel_rfl) rfl (.read (p := q3) (o := .ok [6]) (t := a3.sys) (fates := []) (f := []) (by kernel_rfl) (by kernel_rfl))) ?_
  refine .head (.mk 1 (by kernel_rfl) rfl .getUnlock) ?_
  refine .head (.mk 1 (by kernel_rfl) rfl .getUnlockT) ?_
  exact .refl

end Ex

/-- C50 is false: PutBlock holds a piece and waits for the torrent, GetBlock of the same piece holds the torrent and waits for the piece. -/
theorem C50_progress_refuted : ∃ (s : Shared) (ls : List Th), Reach Storage.Ex.single false (Ex.s0, Ex.ls0) (s, ls) ∧ s.dead = false ∧ (∀ t ∈ ls, t.finished = false) ∧
    ∀ y, ¬ Step Storage.Ex.single false (s, ls) y :=
  ⟨Ex.s1, Ex.stuck, Ex.start_stuck, rfl, by decide, Ex.no_step⟩

/-- The calls of the example were made by fresh goroutines after a start; the results are those of the order reset, put, get. -/
example : run Storage.Ex.single [(.start, [])] World.empty = ⟨Ex.s0.sys.fs, some Ex.s0.sys.mem⟩ ∧ (∀ t ∈ Ex.ls1, t.fresh = true) ∧ (∀ t ∈ Ex.ls0, t.fresh = true) ∧
    Ex.a4.dead = false ∧ (∀ t ∈ Ex.done1, t.finished = true) :=
  ⟨rfl, by decide, by decide, rfl, by decide⟩
example : Ex.o3 = .ok () ∧ Ex.o2 = .ok () := ⟨by kernel_rfl, by kernel_rfl⟩
example : Ex.a4.hist.map (·.1) = [.start, .reset 0, .put 1 0 [5, 6], .get 1 1 1] := by kernel_rfl
example : Reported Ex.a4.sys.mem 1 := by unfold Reported; kernel_rfl
example : run Storage.Ex.single Ex.a4.hist World.empty = ⟨Ex.a4.sys.fs, some Ex.a4.sys.mem⟩ :=
  (C49_linearizable Storage.Ex.usable Ex.s0_run (by decide) Ex.runs).2.2.2.2.2.1 rfl fun t ht => .inr ((by decide : ∀ t ∈ Ex.done1, t.finished = true) t ht)

end Drip.StorageConc
