import Verif.Model.StorageConc
import Verif.Lemmas.StorageFrame
import Verif.Props.Storage
/-
Goroutines that use a storage: every reachable state is that of calls made one after the other, except that blocks that are
stored in a piece are not counted before the call has the mutex of the torrent.
-/

namespace Drip.StorageConc
open Drip.Storage

variable {cfg : Cfg}

/-! ### The calls, one at a time -/

theorem run_snoc (es : List (Event × List Fate)) (e : Event) (f : List Fate) (w : World) : run cfg (es ++ [(e, f)]) w = step cfg (run cfg es w) e f := by
  induction es generalizing w with
  | nil => rfl
  | cons x es ih => exact ih _

theorem putBlock_check {i b : Int} {d : Bytes} {e : Err} (h : checkBlockSize cfg.info i b d.length = .err e) (s : Sys) (f : List Fate) : putBlock cfg i b d s f = (.err e, s, f) := by
  show Op.bind (Op.lift (checkBlockSize cfg.info i b d.length)) _ s f = _
  rw [h]; rfl

theorem putBlock_ok {i b : Int} {d : Bytes} (h : checkBlockSize cfg.info i b d.length = .ok ()) (s : Sys) (f : List Fate) :
    putBlock cfg i b d s f = (if s.mem.coalesced then (Op.fail .blockExists : Op Unit) else getPiece i >>= fun x => putBlockP cfg.info x.1 x.2 b d >>= fun _ => finishPut cfg x.1 x.2.fut) s f := by
  show Op.bind (Op.lift (checkBlockSize cfg.info i b d.length)) _ s f = _
  rw [h]; rfl

theorem getPiece_some {i : Int} {s : Sys} {p : Piece} (h0 : 0 ≤ i) (hp : s.mem.pieces[i.toNat]? = some p) {β : Type} (k : Nat × Piece → Op β) (f : List Fate) :
    (getPiece i >>= k) s f = k (i.toNat, p) s f := by
  show Op.bind (getPiece i) k s f = _
  have h1 : getPiece i s f = (.ok (i.toNat, p), s, f) := by
    show (if i < 0 then (Op.panic : Op (Nat × Piece)) else (match s.mem.pieces[i.toNat]? with
      | some p => pure (i.toNat, p)
      | none => Op.panic)) s f = _
    rw [if_neg (by omega), hp]; rfl
  unfold Op.bind
  rw [h1]

theorem getPiece_none {i : Int} {s : Sys} (h : ¬ (0 ≤ i ∧ i < s.mem.pieces.length)) {β : Type} (k : Nat × Piece → Op β) (f : List Fate) :
    (getPiece i >>= k) s f = (.panic, s, f) := by
  show Op.bind (getPiece i) k s f = _
  have h1 : getPiece i s f = (.panic, s, f) := by
    show (if i < 0 then (Op.panic : Op (Nat × Piece)) else (match s.mem.pieces[i.toNat]? with
      | some p => pure (i.toNat, p)
      | none => Op.panic)) s f = _
    by_cases h0 : i < 0
    · rw [if_pos h0]; rfl
    · rw [if_neg h0, List.getElem?_eq_none (by omega)]; rfl
  unfold Op.bind
  rw [h1]

theorem putBlock_none {i b : Int} {d : Bytes} (h : checkBlockSize cfg.info i b d.length = .ok ()) {s : Sys} (hc : s.mem.coalesced = false)
    (hn : ¬ (0 ≤ i ∧ i < s.mem.pieces.length)) (f : List Fate) : putBlock cfg i b d s f = (.panic, s, f) := by
  rw [putBlock_ok h, hc]
  exact getPiece_none hn _ f

theorem putBlock_some {i b : Int} {d : Bytes} (h : checkBlockSize cfg.info i b d.length = .ok ()) {s : Sys} (hc : s.mem.coalesced = false) {p : Piece}
    (h0 : 0 ≤ i) (hp : s.mem.pieces[i.toNat]? = some p) (f : List Fate) :
    putBlock cfg i b d s f = (putBlockP cfg.info i.toNat p b d >>= fun _ => finishPut cfg i.toNat p.fut) s f := by
  rw [putBlock_ok h, hc]
  exact getPiece_some h0 hp _ f

theorem putBlock_seen {i b : Int} {d : Bytes} (h : checkBlockSize cfg.info i b d.length = .ok ()) {s : Sys} (hc : s.mem.coalesced = true) (f : List Fate) :
    putBlock cfg i b d s f = (.err .blockExists, s, f) := by
  rw [putBlock_ok h, hc]; rfl

/-- Put a piece. -/
def setP (s : Sys) (k : Nat) (p : Piece) : Sys := { s with mem := { s.mem with pieces := s.mem.pieces.set k p } }

/-- Storing a block at `b` turns piece `p` into `p'`. -/
structure Stores (cfg : Cfg) (k : Nat) (b : Int) (d : Bytes) (p p' : Piece) : Prop where
  was : p.coalesced = false
  now : p'.coalesced = false
  fut : p'.fut = p.fut
  put : ∀ (s : Sys) (f : List Fate), s.mem.pieces[k]? = some p → putBlockP cfg.info k p b d s f = (.ok (), setP s k p', f)

theorem setPiece_bind (k : Nat) (p : Piece) {β : Type} (q : Unit → Op β) (s : Sys) (f : List Fate) : (setPiece k p >>= q) s f = q () (setP s k p) f := rfl

theorem setP_setP (s : Sys) (k : Nat) (p q : Piece) : setP (setP s k p) k q = setP s k q := by
  unfold setP; simp

theorem setP_self {s : Sys} {k : Nat} {p : Piece} (h : s.mem.pieces[k]? = some p) : setP s k p = s := by
  have : s.mem.pieces.set k p = s.mem.pieces := by
    apply List.ext_getElem?
    intro j
    rw [List.getElem?_set]
    by_cases hj : k = j
    · subst hj
      have := (List.getElem?_eq_some_iff.1 h).1
      rw [if_pos rfl, if_pos this, h]
    · rw [if_neg hj]
  unfold setP
  rw [this]

theorem storeBlock_eq (k : Nat) (p : Piece) (bs : List (Option Bytes)) (x : Int) (d : Bytes) (s : Sys) (f : List Fate) : storeBlock k p bs x d s f =
    if x < 0 then (.panic, s, f) else match bs[x.toNat]? with
    | none => (.panic, s, f)
    | some (some _) => (.err .blockExists, s, f)
    | some none => (.ok (), setP s k { p with blocks := some (bs.set x.toNat (some d)), completeBlocks := p.completeBlocks + 1 }, f) := by
  unfold storeBlock
  by_cases h : x < 0
  · rw [if_pos h, if_pos h]; rfl
  · rw [if_neg h, if_neg h]
    cases bs[x.toNat]? with
    | none => rfl
    | some y => cases y <;> rfl

/-- `putBlock` of a piece: it changes nothing but the piece, if it returns an error it changes nothing. -/
theorem putBlockP_cases (k : Nat) (p : Piece) (b : Int) (d : Bytes) :
    (∃ p', Stores cfg k b d p p') ∨
    (∀ (s : Sys) (f : List Fate), s.mem.pieces[k]? = some p → putBlockP cfg.info k p b d s f = (.err .blockExists, s, f)) ∨
    (p.coalesced = false ∧ ∀ (s : Sys) (f : List Fate), s.mem.pieces[k]? = some p → ∃ t, t.fs = s.fs ∧ putBlockP cfg.info k p b d s f = (.panic, t, f)) := by
  by_cases hc : p.coalesced = true
  · right; left
    intro s f _
    unfold putBlockP; rw [if_pos hc]; rfl
  have hc : p.coalesced = false := by cases h : p.coalesced <;> simp_all
  -- after the allocation
  have after : ∀ bs : List (Option Bytes), (p.blocks = some bs ∨ p.blocks = none ∧ ∀ y ∈ bs, y = none) →
      (∃ p', p'.coalesced = false ∧ p'.fut = p.fut ∧ ∀ (s : Sys) (f : List Fate), s.mem.pieces[k]? = some p →
        (setPiece k { p with blocks := some bs } >>= fun _ => storeBlock k p bs (b.tdiv blockLength) d) s f = (.ok (), setP s k p', f)) ∨
      (∀ (s : Sys) (f : List Fate), s.mem.pieces[k]? = some p → (setPiece k { p with blocks := some bs } >>= fun _ => storeBlock k p bs (b.tdiv blockLength) d) s f = (.err .blockExists, s, f)) ∨
      (∀ (s : Sys) (f : List Fate), s.mem.pieces[k]? = some p → ∃ t, t.fs = s.fs ∧
        (setPiece k { p with blocks := some bs } >>= fun _ => storeBlock k p bs (b.tdiv blockLength) d) s f = (.panic, t, f)) := by
    intro bs hbs
    simp only [setPiece_bind, storeBlock_eq]
    by_cases hx : b.tdiv blockLength < 0
    · right; right
      intro s f _
      exact ⟨setP s k { p with blocks := some bs }, rfl, by rw [if_pos hx]⟩
    · cases hy : bs[(b.tdiv blockLength).toNat]? with
      | none =>
        right; right
        intro s f _
        exact ⟨setP s k { p with blocks := some bs }, rfl, by rw [if_neg hx]⟩
      | some y =>
        cases y with
        | none =>
          left
          refine ⟨{ p with blocks := some (bs.set (b.tdiv blockLength).toNat (some d)), completeBlocks := p.completeBlocks + 1 }, hc, rfl, fun s f _ => ?_⟩
          rw [if_neg hx]
          simp only [setP_setP]
        | some z =>
          right; left
          intro s f hp
          rw [if_neg hx]
          have : ({ p with blocks := some bs } : Piece) = p := by
            rcases hbs with hbs | ⟨_, hbs⟩
            · rw [← hbs]
            · exact absurd (hbs _ (List.mem_of_getElem? hy)) (by simp)
          simp only [this, setP_self hp]
  have unf : ∀ (s : Sys) (f : List Fate), putBlockP cfg.info k p b d s f =
      (allocBlocks cfg.info k p >>= fun bs => setPiece k { p with blocks := some bs } >>= fun _ => storeBlock k p bs (b.tdiv blockLength) d) s f := by
    intro s f
    unfold putBlockP; rw [hc]; rfl
  cases hb : p.blocks with
  | some bs =>
    have ha : ∀ (s : Sys) (f : List Fate), putBlockP cfg.info k p b d s f = (setPiece k { p with blocks := some bs } >>= fun _ => storeBlock k p bs (b.tdiv blockLength) d) s f := by
      intro s f
      rw [unf]
      have : allocBlocks cfg.info k p = pure bs := by unfold allocBlocks; rw [hb]
      rw [this]; rfl
    rcases after bs (.inl hb) with ⟨p', h1, h2, h3⟩ | h | h
    · exact .inl ⟨p', hc, h1, h2, fun s f hp => (ha s f).trans (h3 s f hp)⟩
    · exact .inr (.inl fun s f hp => (ha s f).trans (h s f hp))
    · exact .inr (.inr ⟨hc, fun s f hp => let ⟨t, h1, h2⟩ := h s f hp; ⟨t, h1, (ha s f).trans h2⟩⟩)
  | none =>
    by_cases hn : numBlocks cfg.info k < 0
    · refine .inr (.inr ⟨hc, fun s f _ => ⟨s, rfl, ?_⟩⟩)
      rw [unf]
      have : allocBlocks cfg.info k p = Op.panic := by unfold allocBlocks; rw [hb]; simp only; rw [if_pos hn]
      rw [this]; rfl
    · have ha : ∀ (s : Sys) (f : List Fate), putBlockP cfg.info k p b d s f =
          (setPiece k { p with blocks := some (List.replicate (numBlocks cfg.info k).toNat none) } >>= fun _ =>
            storeBlock k p (List.replicate (numBlocks cfg.info k).toNat none) (b.tdiv blockLength) d) s f := by
        intro s f
        rw [unf]
        have : allocBlocks cfg.info k p = pure (List.replicate (numBlocks cfg.info k).toNat none) := by unfold allocBlocks; rw [hb]; simp only; rw [if_neg hn]
        rw [this]; rfl
      rcases after (List.replicate (numBlocks cfg.info k).toNat none) (.inr ⟨hb, fun y hy => (List.mem_replicate.1 hy).2⟩) with ⟨p', h1, h2, h3⟩ | h | h
      · exact .inl ⟨p', hc, h1, h2, fun s f hp => (ha s f).trans (h3 s f hp)⟩
      · exact .inr (.inl fun s f hp => (ha s f).trans (h s f hp))
      · exact .inr (.inr ⟨hc, fun s f hp => let ⟨t, h1, h2⟩ := h s f hp; ⟨t, h1, (ha s f).trans h2⟩⟩)

/-- Coalesced pieces refuse blocks. -/
theorem putBlockP_done {k : Nat} {p : Piece} (hc : p.coalesced = true) (b : Int) (d : Bytes) (s : Sys) (f : List Fate) :
    putBlockP cfg.info k p b d s f = (.err .blockExists, s, f) := by
  unfold putBlockP; rw [if_pos hc]; rfl

theorem getBlock_whole {i b l : Int} {s : Sys} (hc : s.mem.coalesced = true) (f : List Fate) : getBlock cfg i b l s f = getWhole cfg i b l s f := by
  show (if s.mem.coalesced then _ else _ : Op Bytes) s f = _
  rw [hc]; rfl

theorem getBlock_none {i b l : Int} {s : Sys} (hc : s.mem.coalesced = false) (hn : ¬ (0 ≤ i ∧ i < s.mem.pieces.length)) (f : List Fate) : getBlock cfg i b l s f = (.panic, s, f) := by
  show (if s.mem.coalesced then _ else (getPiece i >>= _) : Op Bytes) s f = _
  rw [hc]; exact getPiece_none hn _ f

theorem getBlock_some {i b l : Int} {s : Sys} (hc : s.mem.coalesced = false) {p : Piece} (h0 : 0 ≤ i) (hp : s.mem.pieces[i.toNat]? = some p) (f : List Fate) :
    getBlock cfg i b l s f = getFrom i.toNat p b l s f := by
  show (if s.mem.coalesced then _ else (getPiece i >>= _) : Op Bytes) s f = _
  rw [hc]; exact getPiece_some h0 hp _ f

theorem resetPiece_some {i : Int} {s : Sys} {p : Piece} (h0 : 0 ≤ i) (hp : s.mem.pieces[i.toNat]? = some p) (f : List Fate) : resetPiece i s f = resetP i.toNat p s f :=
  getPiece_some h0 hp _ f

theorem resetPiece_none {i : Int} {s : Sys} (hn : ¬ (0 ≤ i ∧ i < s.mem.pieces.length)) (f : List Fate) : resetPiece i s f = (.panic, s, f) := getPiece_none hn _ f

/-- `GetBlock` changes nothing. -/
theorem getBlock_same (i b l : Int) (s : Sys) (f : List Fate) : (getBlock cfg i b l s f).2.1 = s := by
  have h := (wp_getBlock_any (cfg := cfg) (A := fun _ => True) (s := s) i b l f (fun _ _ => trivial)).1
  rcases hr : getBlock cfg i b l s f with ⟨o, t, f'⟩
  rw [hr] at h
  cases o with
  | ok a => exact h.2
  | err e => exact h
  | panic => exact h.1
  | crash => exact h

/-- `ResetPiece` keeps the flag of the torrent. -/
theorem resetP_coalesced (k : Nat) (p : Piece) (s : Sys) (f : List Fate) : (resetP k p s f).2.1.mem.coalesced = s.mem.coalesced ∧ (resetP k p s f).2.1.fs = s.fs := by
  have h : wp (fun _ => True) (resetP k p) ⟨fun _ t => t.mem.coalesced = s.mem.coalesced ∧ t.fs = s.fs, fun _ t => t.mem.coalesced = s.mem.coalesced ∧ t.fs = s.fs,
      fun t => t.mem.coalesced = s.mem.coalesced ∧ t.fs = s.fs, fun t => t.mem.coalesced = s.mem.coalesced ∧ t.fs = s.fs⟩ s := by
    unfold resetP
    refine wp_bind (wp_deliver (fun _ => ?_) (fun _ => ⟨rfl, rfl⟩))
    refine wp_bind (wp_getMem ?_)
    refine wp_bind (wp_setMem ?_)
    exact wp_setPiece ⟨rfl, rfl⟩
  have := (h f fun _ _ => trivial).1
  rcases hr : resetP k p s f with ⟨o, t, f'⟩
  rw [hr] at this
  cases o <;> exact this

/-! ### Blocks that are stored but not counted -/

/-- The block that a call has put into piece `k` without having taken effect. -/
def Th.pends (k : Nat) : Th → Option (Int × Bytes)
  | .put i b d .stored => if i = k then some (b, d) else none
  | .put i b d .both => if i = k then some (b, d) else none
  | _ => none

def Pending (ls : List Th) (k : Nat) (x : Int × Bytes) : Prop := ∃ t ∈ ls, t.pends k = some x

/-- The memory `m` of the calls one after the other, and the actual one. -/
structure Sim (cfg : Cfg) (ls : List Th) (m : Mem) (sys : Sys) : Prop where
  mem : sys.mem = { m with pieces := sys.mem.pieces }
  len : sys.mem.pieces.length = m.pieces.length
  piece : ∀ (k : Nat) (p : Piece), m.pieces[k]? = some p → ∃ p', sys.mem.pieces[k]? = some p' ∧
    ((∀ x, ¬ Pending ls k x) ∧ p' = p ∨ ∃ b d, Pending ls k (b, d) ∧ Stores cfg k b d p p')

theorem pending_set {ls : List Th} {a : Nat} {l l' : Th} (hl : ls[a]? = some l) {k : Nat} (h : l'.pends k = l.pends k) (x : Int × Bytes) :
    Pending (ls.set a l') k x ↔ Pending ls k x := by
  have hlt : a < ls.length := (List.getElem?_eq_some_iff.1 hl).1
  constructor
  · rintro ⟨t, ht, hx⟩
    rcases List.mem_or_eq_of_mem_set ht with ht | rfl
    · exact ⟨t, ht, hx⟩
    · exact ⟨l, List.mem_of_getElem? hl, by rw [← h]; exact hx⟩
  · rintro ⟨t, ht, hx⟩
    obtain ⟨j, hj⟩ := List.getElem?_of_mem ht
    by_cases hja : a = j
    · subst hja
      rw [hl] at hj
      injection hj with hj
      subst hj
      exact ⟨l', List.mem_of_getElem? (List.getElem?_set_self hlt), by rw [h]; exact hx⟩
    · exact ⟨t, List.mem_of_getElem? (by rw [List.getElem?_set_ne hja]; exact hj), hx⟩

theorem Sim.congr {ls ls' : List Th} {m : Mem} {sys : Sys} (h : Sim cfg ls m sys) (hp : ∀ k x, Pending ls' k x ↔ Pending ls k x) : Sim cfg ls' m sys := by
  refine ⟨h.mem, h.len, fun k p hk => ?_⟩
  obtain ⟨p', h1, h2⟩ := h.piece k p hk
  refine ⟨p', h1, ?_⟩
  rcases h2 with ⟨h2, h3⟩ | ⟨b, d, h2, h3⟩
  · exact .inl ⟨fun x hx => h2 x ((hp k x).1 hx), h3⟩
  · exact .inr ⟨b, d, (hp k (b, d)).2 h2, h3⟩

/-- The other pieces as they are. -/
def rest (ps : List Piece) (k : Nat) (j : Nat) (p : Piece) : Piece := if j = k then p else ps[j]?.getD p

theorem rest_self (ps : List Piece) (k : Nat) (p : Piece) : rest ps k k p = p := by simp [rest]

theorem over_rest {sys X : Sys} {k : Nat} (hfs : sys.fs = X.fs) (hmem : sys.mem = { X.mem with pieces := sys.mem.pieces }) (hlen : sys.mem.pieces.length = X.mem.pieces.length)
    (hk : sys.mem.pieces[k]? = X.mem.pieces[k]?) : sys = over (rest sys.mem.pieces k) X := by
  have hp : X.mem.pieces.mapIdx (rest sys.mem.pieces k) = sys.mem.pieces := by
    apply List.ext_getElem?
    intro j
    rw [List.getElem?_mapIdx]
    by_cases hj : j = k
    · subst hj
      rw [hk]
      cases X.mem.pieces[j]? with
      | none => rfl
      | some p => simp [rest]
    · cases hx : X.mem.pieces[j]? with
      | none =>
        have : X.mem.pieces.length ≤ j := List.getElem?_eq_none_iff.1 hx
        rw [List.getElem?_eq_none (by omega)]; rfl
      | some p =>
        have hlt : j < X.mem.pieces.length := (List.getElem?_eq_some_iff.1 hx).1
        rw [List.getElem?_eq_getElem (by omega : j < sys.mem.pieces.length)]
        simp [rest, hj, List.getElem?_eq_getElem (by omega : j < sys.mem.pieces.length)]
  unfold over
  rw [hp]
  obtain ⟨fs, mem⟩ := sys
  have hfs : fs = X.fs := hfs
  have hmem : mem = { X.mem with pieces := mem.pieces } := hmem
  subst hfs
  show (⟨X.fs, mem⟩ : Sys) = ⟨X.fs, { X.mem with pieces := mem.pieces }⟩
  rw [← hmem]

/-- Operations on piece `k` leave the others alone. -/
theorem fr_others {α : Type} {p : Op α} {k : Nat} (hfr : ∀ g : Nat → Piece → Piece, (∀ q, g k q = q) → Fr g p) (s : Sys) (f : List Fate) {j : Nat} (hj : j ≠ k)
    (hlen : (p s f).2.1.mem.pieces.length = s.mem.pieces.length) : (p s f).2.1.mem.pieces[j]? = s.mem.pieces[j]? := by
  have h1 : s = over (rest s.mem.pieces k) s := over_rest rfl rfl rfl rfl
  have h2 := hfr (rest s.mem.pieces k) (rest_self _ _) s f
  rw [← h1] at h2
  have h3 : (p s f).2.1 = over (rest s.mem.pieces k) (p s f).2.1 := congrArg (·.2.1) h2
  have h4 : (p s f).2.1.mem.pieces[j]? = ((p s f).2.1.mem.pieces.mapIdx (rest s.mem.pieces k))[j]? := congrArg (fun x : Sys => x.mem.pieces[j]?) h3
  rw [List.getElem?_mapIdx] at h4
  cases hx : (p s f).2.1.mem.pieces[j]? with
  | none =>
    have : (p s f).2.1.mem.pieces.length ≤ j := List.getElem?_eq_none_iff.1 hx
    rw [List.getElem?_eq_none (by omega)]
  | some q =>
    rw [hx] at h4
    have hlt : j < (p s f).2.1.mem.pieces.length := (List.getElem?_eq_some_iff.1 hx).1
    have hlt' : j < s.mem.pieces.length := by omega
    simp only [Option.map_some, rest, hj, if_false, List.getElem?_eq_getElem hlt', Option.getD_some] at h4
    rw [h4, List.getElem?_eq_getElem hlt']

/-- A call takes effect on piece `k`. -/
theorem Sim.op {α : Type} {ls ls' : List Th} {m : Mem} {sys : Sys} {k : Nat} (hs : Sim cfg ls m sys) {pk : Piece} (hk : sys.mem.pieces[k]? = some pk) {p : Op α}
    (hfr : ∀ g : Nat → Piece → Piece, (∀ q, g k q = q) → Fr g p) {f f' : List Fate} {o : Out α} {t : Sys} (hrun : p sys f = (o, t, f'))
    (hnone : ∀ x, ¬ Pending ls' k x) (hpend : ∀ j, j ≠ k → ∀ x, Pending ls' j x ↔ Pending ls j x) :
    ∃ t0, p (setP ⟨sys.fs, m⟩ k pk) f = (o, t0, f') ∧ t.fs = t0.fs ∧ (t0.mem.pieces.length = m.pieces.length → Sim cfg ls' t0.mem t) := by
  have hkl : k < m.pieces.length := by rw [← hs.len]; exact (List.getElem?_eq_some_iff.1 hk).1
  have hlenX : (setP ⟨sys.fs, m⟩ k pk).mem.pieces.length = m.pieces.length := by simp [setP]
  have hX : sys = over (rest sys.mem.pieces k) (setP ⟨sys.fs, m⟩ k pk) := by
    refine over_rest rfl ?_ (by rw [hlenX]; exact hs.len) ?_
    · rw [hs.mem]; rfl
    · rw [hk]
      show _ = (m.pieces.set k pk)[k]?
      rw [List.getElem?_set_self hkl]
  have h1 := hfr (rest sys.mem.pieces k) (rest_self _ _) (setP ⟨sys.fs, m⟩ k pk) f
  rw [← hX, hrun] at h1
  rcases hr : p (setP ⟨sys.fs, m⟩ k pk) f with ⟨o', t0, f''⟩
  rw [hr] at h1
  injection h1 with h1 h2
  injection h2 with h2 h3
  subst h1 h3
  have h2 : t = over (rest sys.mem.pieces k) t0 := h2
  refine ⟨t0, rfl, by rw [h2]; rfl, fun hlen => ?_⟩
  have oth : ∀ j, j ≠ k → t0.mem.pieces[j]? = m.pieces[j]? := by
    intro j hj
    have := fr_others hfr (setP ⟨sys.fs, m⟩ k pk) f hj (by rw [hr, hlenX]; exact hlen)
    rw [hr] at this
    rw [this]
    show (m.pieces.set k pk)[j]? = _
    rw [List.getElem?_set_ne (Ne.symm hj)]
  have tp : ∀ j, t.mem.pieces[j]? = (t0.mem.pieces[j]?).map (rest sys.mem.pieces k j) := by
    intro j
    rw [h2]
    show (t0.mem.pieces.mapIdx _)[j]? = _
    rw [List.getElem?_mapIdx]
  refine ⟨by rw [h2]; rfl, by rw [h2]; exact List.length_mapIdx, fun j q hj => ?_⟩
  by_cases hjk : j = k
  · subst hjk
    exact ⟨q, by rw [tp, hj]; simp [rest], .inl ⟨hnone, rfl⟩⟩
  · rw [oth j hjk] at hj
    obtain ⟨p', h3, h4⟩ := hs.piece j q hj
    refine ⟨p', by rw [tp, oth j hjk, hj]; simp [rest, hjk, h3], ?_⟩
    rcases h4 with ⟨h4, h5⟩ | ⟨b, d, h4, h5⟩
    · exact .inl ⟨fun x hx => h4 x ((hpend j hjk x).1 hx), h5⟩
    · exact .inr ⟨b, d, (hpend j hjk (b, d)).2 h4, h5⟩

/-- Code that does not look at the pieces and changes nothing. -/
theorem Sim.look {α : Type} {ls : List Th} {m : Mem} {sys : Sys} (hs : Sim cfg ls m sys) {p : Op α} (hfr : ∀ g : Nat → Piece → Piece, Fr g p)
    {f f' : List Fate} {o : Out α} {t : Sys} (hrun : p sys f = (o, t, f')) (hsame : (p ⟨sys.fs, m⟩ f).2.1 = ⟨sys.fs, m⟩) :
    p ⟨sys.fs, m⟩ f = (o, ⟨sys.fs, m⟩, f') ∧ t = sys := by
  have hX : sys = over (rest sys.mem.pieces m.pieces.length) ⟨sys.fs, m⟩ := by
    refine over_rest rfl hs.mem hs.len ?_
    rw [List.getElem?_eq_none (by rw [hs.len]; exact Nat.le_refl _), List.getElem?_eq_none (Nat.le_refl _)]
  have h1 := hfr (rest sys.mem.pieces m.pieces.length) ⟨sys.fs, m⟩ f
  rw [← hX, hrun, hsame, ← hX] at h1
  injection h1 with h1 h2
  injection h2 with h2 h3
  refine ⟨?_, h2⟩
  rw [h1, h3]
  exact Prod.ext rfl (Prod.ext hsame rfl)

theorem pends_writesP {t : Th} {k : Nat} {x : Int × Bytes} (h : t.pends k = some x) : t.writesP k = true := by
  cases t with
  | put i b d pc =>
    cases pc <;> simp [Th.pends] at h <;> simp [Th.writesP, h.1]
  | get i b l pc => simp [Th.pends] at h
  | reset i pc => simp [Th.pends] at h

/-! ### The invariant -/

/-- No mutex is held by two goroutines, if one of them writes. -/
structure Excl (ls : List Th) : Prop where
  tor : ∀ (a b : Nat) (t u : Th), a ≠ b → ls[a]? = some t → ls[b]? = some u → t.writesT = true → u.writesT = false ∧ u.readsT = false
  pie : ∀ (a b : Nat) (t u : Th), a ≠ b → ls[a]? = some t → ls[b]? = some u → ∀ j, t.writesP j = true → u.writesP j = false ∧ u.readsP j = false

/-- A step of goroutine `a` that takes no mutex unless it can. -/
theorem Excl.set {ls : List Th} (h : Excl ls) {a : Nat} {l l' : Th} (hl : ls[a]? = some l)
    (h1 : l'.writesT = true → l.writesT = true ∨ canWriteT ls) (h2 : l'.readsT = true → l.readsT = true ∨ ∀ t ∈ ls, t.writesT = false)
    (h3 : ∀ j, l'.writesP j = true → l.writesP j = true ∨ canWriteP ls j) (h4 : ∀ j, l'.readsP j = true → l.readsP j = true ∨ ∀ t ∈ ls, t.writesP j = false) :
    Excl (ls.set a l') := by
  have hlt : a < ls.length := (List.getElem?_eq_some_iff.1 hl).1
  have other : ∀ {x : Nat} {t : Th}, x ≠ a → (ls.set a l')[x]? = some t → ls[x]? = some t := by
    intro x t hx ht
    rwa [List.getElem?_set_ne (Ne.symm hx)] at ht
  have self : ∀ {t : Th}, (ls.set a l')[a]? = some t → t = l' := by
    intro t ht
    rw [List.getElem?_set_self hlt] at ht
    injection ht with ht
    exact ht.symm
  constructor
  · intro x y t u hxy ht hu hw
    by_cases hx : x = a
    · subst hx
      have := self ht
      subst this
      have hu := other (Ne.symm hxy) hu
      rcases h1 hw with hw | hw
      · exact h.tor x y l u hxy hl hu hw
      · exact hw u (List.mem_of_getElem? hu)
    · have ht' := other hx ht
      by_cases hy : y = a
      · subst hy
        have := self hu
        subst this
        have hold := h.tor x y t l hxy ht' hl hw
        constructor
        · cases hq : u.writesT with
          | false => rfl
          | true =>
            rcases h1 hq with hq | hq
            · rw [hold.1] at hq; cases hq
            · have := (hq t (List.mem_of_getElem? ht')).1; rw [hw] at this; cases this
        · cases hq : u.readsT with
          | false => rfl
          | true =>
            rcases h2 hq with hq | hq
            · rw [hold.2] at hq; cases hq
            · have := hq t (List.mem_of_getElem? ht'); rw [hw] at this; cases this
      · exact h.tor x y t u hxy ht' (other hy hu) hw
  · intro x y t u hxy ht hu j hw
    by_cases hx : x = a
    · subst hx
      have := self ht
      subst this
      have hu := other (Ne.symm hxy) hu
      rcases h3 j hw with hw | hw
      · exact h.pie x y l u hxy hl hu j hw
      · exact hw u (List.mem_of_getElem? hu)
    · have ht' := other hx ht
      by_cases hy : y = a
      · subst hy
        have := self hu
        subst this
        have hold := h.pie x y t l hxy ht' hl j hw
        constructor
        · cases hq : u.writesP j with
          | false => rfl
          | true =>
            rcases h3 j hq with hq | hq
            · rw [hold.1] at hq; cases hq
            · have := (hq t (List.mem_of_getElem? ht')).1; rw [hw] at this; cases this
        · cases hq : u.readsP j with
          | false => rfl
          | true =>
            rcases h4 j hq with hq | hq
            · rw [hold.2] at hq; cases hq
            · have := hq t (List.mem_of_getElem? ht'); rw [hw] at this; cases this
      · exact h.pie x y t u hxy ht' (other hy hu) j hw

/-- A goroutine that holds piece `k` has nothing pending there: nobody has. -/
theorem Excl.noPend {ls : List Th} (h : Excl ls) {a : Nat} {l l' : Th} (hl : ls[a]? = some l) {k : Nat} (hk : l.writesP k = true ∨ l.readsP k = true)
    (hn : l'.pends k = none) (x : Int × Bytes) : ¬ Pending (ls.set a l') k x := by
  rintro ⟨t, ht, hx⟩
  obtain ⟨y, hy⟩ := List.getElem?_of_mem ht
  have hlt : a < ls.length := (List.getElem?_eq_some_iff.1 hl).1
  by_cases hya : a = y
  · subst hya
    rw [List.getElem?_set_self hlt] at hy
    injection hy with hy
    subst hy
    rw [hn] at hx; cases hx
  · rw [List.getElem?_set_ne hya] at hy
    have := h.pie y a t l (Ne.symm hya) hy hl k (pends_writesP hx)
    rcases hk with hk | hk
    · rw [this.1] at hk; cases hk
    · rw [this.2] at hk; cases hk

/-- The pending block of the goroutine itself is the only one. -/
theorem Excl.onlyPend {ls : List Th} (h : Excl ls) {a : Nat} {l : Th} (hl : ls[a]? = some l) {k : Nat} {x y : Int × Bytes} (hx : l.pends k = some x)
    (hy : Pending ls k y) : x = y := by
  obtain ⟨t, ht, hy⟩ := hy
  obtain ⟨z, hz⟩ := List.getElem?_of_mem ht
  by_cases hza : z = a
  · subst hza
    rw [hl] at hz
    injection hz with hz
    subst hz
    rw [hx] at hy
    injection hy
  · have := h.pie z a t l hza hz hl k (pends_writesP hy)
    rw [pends_writesP hx] at this
    cases this.1

/-- The result `r` of the call is the one it would have had, had all calls been made one after the other; it is number `n`. -/
def Took {α : Type} (cfg : Cfg) (hist : List (Event × List Fate)) (e : Event) (p : Op α) (r : Out α) (n : Nat) : Prop :=
  ∃ f, hist[n]? = some (e, f) ∧ (runOp p (run cfg (hist.take n) World.empty) f).1 = r

theorem Took.append {α : Type} {hist : List (Event × List Fate)} {e : Event} {p : Op α} {r : Out α} {n : Nat} (h : Took cfg hist e p r n) (es : List (Event × List Fate)) :
    Took cfg (hist ++ es) e p r n := by
  obtain ⟨f, h1, h2⟩ := h
  have hlt : n < hist.length := (List.getElem?_eq_some_iff.1 h1).1
  exact ⟨f, by rw [List.getElem?_append_left hlt]; exact h1, by rw [List.take_append_of_le_length (by omega)]; exact h2⟩

def InRange (cfg : Cfg) (i : Int) : Prop := 0 ≤ i ∧ i < cfg.info.pieces.length

/-- What is known about a goroutine. -/
def ThOK (cfg : Cfg) (s : Shared) : Th → Prop
  | .put _ _ _ .start => True
  | .put i b d .checked => checkBlockSize cfg.info i b d.length = .ok ()
  | .put i b d .reading => checkBlockSize cfg.info i b d.length = .ok ()
  | .put i b d .passed => checkBlockSize cfg.info i b d.length = .ok ()
  | .put i b d .locked => checkBlockSize cfg.info i b d.length = .ok () ∧ InRange cfg i
  | .put i b d .stored => checkBlockSize cfg.info i b d.length = .ok () ∧ InRange cfg i
  | .put i b d .both => checkBlockSize cfg.info i b d.length = .ok () ∧ InRange cfg i
  | .put i b d (.closing r n) => Took cfg s.hist (.put i b d) (putBlock cfg i b d) r n ∨ ¬ InRange cfg i ∧ r = .panic
  | .put i b d (.unlocking r n) => Took cfg s.hist (.put i b d) (putBlock cfg i b d) r n ∨ ¬ InRange cfg i ∧ r = .panic
  | .put i b d (.done r n) => Took cfg s.hist (.put i b d) (putBlock cfg i b d) r n ∨ ¬ InRange cfg i ∧ r = .panic
  | .get _ _ _ .start => True
  | .get _ _ _ .reading => True
  | .get i _ _ .wanting => InRange cfg i ∧ (s.dead = false → s.sys.mem.coalesced = false)
  | .get i _ _ .both => InRange cfg i ∧ (s.dead = false → s.sys.mem.coalesced = false)
  | .get i b l (.closing r n) => Took cfg s.hist (.get i b l) (getBlock cfg i b l) r n
  | .get i b l (.leaving r n) => Took cfg s.hist (.get i b l) (getBlock cfg i b l) r n
  | .get i b l (.done r n) => Took cfg s.hist (.get i b l) (getBlock cfg i b l) r n
  | .reset _ .start => True
  | .reset i .locked => InRange cfg i
  | .reset i (.unlocking r n) => Took cfg s.hist (.reset i) (resetPiece i) r n
  | .reset i (.done r n) => Took cfg s.hist (.reset i) (resetPiece i) r n

theorem ThOK.mono {s s' : Shared} {t : Th} (h : ThOK cfg s t) (hd : s.dead = false) {es : List (Event × List Fate)} (hh : s'.hist = s.hist ++ es)
    (hc : t.readsT = true → s'.dead = false → s'.sys.mem.coalesced = s.sys.mem.coalesced) : ThOK cfg s' t := by
  cases t with
  | put i b d pc =>
    cases pc with
    | start => trivial
    | checked | reading | passed | locked | stored | both => exact h
    | closing r n | unlocking r n | done r n =>
      show Took cfg s'.hist _ _ _ _ ∨ _
      rw [hh]
      rcases h with h | h
      · exact .inl (h.append es)
      · exact .inr h
  | get i b l pc =>
    cases pc with
    | start | reading => trivial
    | wanting | both => exact ⟨h.1, fun hd' => by rw [hc rfl hd']; exact h.2 hd⟩
    | closing r n | leaving r n | done r n =>
      show Took cfg s'.hist _ _ _ _
      rw [hh]
      exact Took.append h es
  | reset i pc =>
    cases pc with
    | start => trivial
    | locked => exact h
    | unlocking r n | done r n =>
      show Took cfg s'.hist _ _ _ _
      rw [hh]
      exact Took.append h es

/-- The state is that of calls one after the other. -/
structure Core (cfg : Cfg) (s : Shared) (ls : List Th) : Prop where
  ok : s.dead = false → ∃ m, run cfg s.hist World.empty = ⟨s.sys.fs, some m⟩ ∧ Sim cfg ls m s.sys
  bad : s.dead = true → ∃ es, run cfg es World.empty = ⟨s.sys.fs, none⟩

structure Inv (cfg : Cfg) (x : Shared × List Th) : Prop where
  core : Core cfg x.1 x.2
  excl : Excl x.2
  th : ∀ t ∈ x.2, ThOK cfg x.1 t

theorem seq_inv (hu : Usable cfg) {es : List (Event × List Fate)} {fs : FS} {m : Mem} (h : run cfg es World.empty = ⟨fs, some m⟩) : SInv cfg ⟨fs, m⟩ := by
  have := reach hu es (m := m) (by rw [h])
  rw [h] at this
  exact this

/-- A call takes effect. -/
theorem Core.take {α : Type} (hu : Usable cfg) {s : Shared} {ls' : List Th} {m : Mem} (hm : run cfg s.hist World.empty = ⟨s.sys.fs, some m⟩) {p : Op α} {e : Event}
    {f f' : List Fate} (hstep : ∀ w, step cfg w e f = (runOp p w f).2) {o : Out α} {t0 t : Sys} (hp : p ⟨s.sys.fs, m⟩ f = (o, t0, f')) (hfs : t.fs = t0.fs)
    (hsim : Out.fatal o = false → t0.mem.pieces.length = m.pieces.length → Sim cfg ls' t0.mem t) :
    Core cfg (s.after o t e f) ls' ∧ Took cfg (s.after o t e f).hist e p o s.hist.length := by
  have hr : run cfg (s.after o t e f).hist World.empty = (runOp p ⟨s.sys.fs, some m⟩ f).2 := by
    show run cfg (s.hist ++ [(e, f)]) World.empty = _
    rw [run_snoc, hm, hstep]
  have ht : Took cfg (s.after o t e f).hist e p o s.hist.length := by
    refine ⟨f, by simp [Shared.after], ?_⟩
    have : (s.after o t e f).hist.take s.hist.length = s.hist := by simp [Shared.after]
    rw [this, hm]
    simp only [runOp, hp]
    cases o <;> rfl
  refine ⟨⟨fun hd => ?_, fun hd => ?_⟩, ht⟩
  · have hd : Out.fatal o = false := hd
    have hr' : run cfg (s.after o t e f).hist World.empty = ⟨t.fs, some t0.mem⟩ := by
      rw [hr, hfs]
      simp only [runOp, hp]
      cases o <;> first | rfl | cases hd
    refine ⟨t0.mem, hr', hsim hd ?_⟩
    have h1 := (seq_inv hu hr').2.len
    have h2 := (seq_inv hu hm).2.len
    exact h1.trans h2.symm
  · have hd : Out.fatal o = true := hd
    refine ⟨(s.after o t e f).hist, ?_⟩
    rw [hr]
    show _ = (⟨t.fs, none⟩ : World)
    rw [hfs]
    simp only [runOp, hp]
    cases o <;> first | rfl | cases hd

/-- A step without effect. -/
theorem Inv.move {s : Shared} {ls : List Th} (h : Inv cfg (s, ls)) (hd : s.dead = false) {a : Nat} {l l' : Th} (hl : ls[a]? = some l) (hp : ∀ k, l'.pends k = l.pends k)
    (hok : ThOK cfg s l') (he : Excl (ls.set a l')) : Inv cfg (s, ls.set a l') := by
  refine ⟨⟨fun hd' => ?_, h.core.bad⟩, he, fun t ht => ?_⟩
  · obtain ⟨m, h1, h2⟩ := h.core.ok hd'
    exact ⟨m, h1, h2.congr fun k x => pending_set hl (hp k) x⟩
  · rcases List.mem_or_eq_of_mem_set ht with ht | rfl
    · exact h.th t ht
    · exact hok

/-- A step with effect. -/
theorem Inv.after {s s' : Shared} {ls : List Th} (h : Inv cfg (s, ls)) (hd : s.dead = false) {a : Nat} {l l' : Th} (hl : ls[a]? = some l)
    (hc : Core cfg s' (ls.set a l')) (hok : ThOK cfg s' l') (he : Excl (ls.set a l')) {es : List (Event × List Fate)} (hh : s'.hist = s.hist ++ es)
    (hsys : s'.dead = false → l.writesT = true ∨ s'.sys.mem.coalesced = s.sys.mem.coalesced) : Inv cfg (s', ls.set a l') := by
  refine ⟨hc, he, fun t ht => ?_⟩
  obtain ⟨y, hy⟩ := List.getElem?_of_mem ht
  by_cases hya : a = y
  · subst hya
    rw [List.getElem?_set_self (List.getElem?_eq_some_iff.1 hl).1] at hy
    injection hy with hy
    subst hy
    exact hok
  · rw [List.getElem?_set_ne hya] at hy
    refine ThOK.mono (h.th t (List.mem_of_getElem? hy)) hd hh fun hr hd' => ?_
    rcases hsys hd' with hw | hw
    · have := (h.excl.tor a y l t hya hl hy hw).2
      rw [hr] at this; cases this
    · exact hw

theorem fr_getFrom {g : Nat → Piece → Piece} (i : Nat) (p : Piece) (b l : Int) : Fr g (getFrom i p b l) :=
  fr_ite (fun _ => fr_fail _) fun _ => fr_getFromPiece i b l

theorem fr_getWhole {g : Nat → Piece → Piece} (i b l : Int) : Fr g (getWhole cfg i b l) :=
  fr_ite (fun _ => fr_getMulti i b l) fun _ => fr_getSingle i b l

theorem Sim.coalesced {ls : List Th} {m : Mem} {sys : Sys} (h : Sim cfg ls m sys) : sys.mem.coalesced = m.coalesced := by rw [h.mem]

theorem after_hist {α : Type} (s : Shared) (o : Out α) (t : Sys) (e : Event) (f : List Fate) : (s.after o t e f).hist = s.hist ++ [(e, f)] := rfl

/-- A call that changes nothing takes effect. -/
theorem Inv.same {α : Type} (hu : Usable cfg) {s : Shared} {ls : List Th} (h : Inv cfg (s, ls)) (hd : s.dead = false) {a : Nat} {l l' : Th} (hl : ls[a]? = some l)
    (hp : ∀ k, l'.pends k = l.pends k) (he : Excl (ls.set a l')) {m : Mem} (hm : run cfg s.hist World.empty = ⟨s.sys.fs, some m⟩) (hs : Sim cfg ls m s.sys)
    {p : Op α} {e : Event} {f f' : List Fate} (hstep : ∀ w, step cfg w e f = (runOp p w f).2) {o : Out α}
    (hpo : p ⟨s.sys.fs, m⟩ f = (o, ⟨s.sys.fs, m⟩, f')) (hok : Took cfg (s.after o s.sys e f).hist e p o s.hist.length → ThOK cfg (s.after o s.sys e f) l') :
    Inv cfg (s.after o s.sys e f, ls.set a l') := by
  have := Core.take hu (ls' := ls.set a l') hm hstep hpo (t := s.sys) rfl fun _ _ => hs.congr fun k x => pending_set hl (hp k) x
  exact h.after hd hl this.1 (hok this.2) he (after_hist ..) fun _ => .inr rfl

theorem toNat_cast {i : Int} (h : 0 ≤ i) : ((i.toNat : Nat) : Int) = i := Int.toNat_of_nonneg h

theorem Inv.step (hu : Usable cfg) {strict : Bool} {x y : Shared × List Th} (h : Inv cfg x) (hs : Step cfg strict x y) : Inv cfg y := by
  cases hs with
  | @mk s s' l l' ls a hd hl ha =>
  have hok : ThOK cfg s l := h.th l (List.mem_of_getElem? hl)
  obtain ⟨m, hm, sim⟩ := h.core.ok hd
  have hm : run cfg s.hist World.empty = ⟨s.sys.fs, some m⟩ := hm
  have sim : Sim cfg ls m s.sys := sim
  have inv := seq_inv hu hm
  have hlen : s.sys.mem.pieces.length = cfg.info.pieces.length := sim.len.trans inv.2.len
  cases ha with
  | check hc => exact h.move hd hl (fun _ => rfl) hc (h.excl.set hl (fun h => by cases h) (fun h => by cases h) (fun _ h => by cases h) (fun _ h => by cases h))
  | @checkErr i b d e hc =>
    exact h.same hu hd hl (l' := .put i b d (.done (.err e) s.hist.length)) (e := .put i b d) (fun _ => rfl) (h.excl.set hl (fun h => by cases h) (fun h => by cases h) (fun _ h => by cases h) (fun _ h => by cases h)) hm sim
      (fun _ => rfl) (putBlock_check hc _ _) (fun ht => .inl ht)
  | putRead hc => exact h.move hd hl (fun _ => rfl) hok (h.excl.set hl (fun h => by cases h) (fun _ => .inr hc.1) (fun _ h => by cases h) (fun _ h => by cases h))
  | @seen i b d hc =>
    exact h.same hu hd hl (l' := .put i b d (.done (.err .blockExists) s.hist.length)) (e := .put i b d) (fun _ => rfl) (h.excl.set hl (fun h => by cases h) (fun h => by cases h) (fun _ h => by cases h) (fun _ h => by cases h)) hm sim
      (fun _ => rfl) (putBlock_seen hok (by rw [← hc]; exact sim.coalesced.symm) _) (fun ht => .inl ht)
  | pass hc => exact h.move hd hl (fun _ => rfl) hok (h.excl.set hl (fun h => by cases h) (fun h => by cases h) (fun _ h => by cases h) (fun _ h => by cases h))
  | putNone hc =>
    have hc' : ¬ InRange cfg _ := fun hr => hc (by rw [hlen]; exact hr)
    refine h.after hd hl ⟨(fun hd => by cases hd), fun _ => ⟨s.hist ++ [(.reset (-1), [])], ?_⟩⟩ (.inr ⟨hc', rfl⟩)
      (h.excl.set hl (fun h => by cases h) (fun h => by cases h) (fun _ h => by cases h) (fun _ h => by cases h)) (after_hist ..) fun hd => by cases hd
    rw [run_snoc, hm]
    show (runOp (resetPiece (-1)) _ []).2 = _
    simp only [runOp, resetPiece_none (i := -1) (s := ⟨s.sys.fs, m⟩) (by omega)]
    rfl
  | putLock hr hc =>
    exact h.move hd hl (fun _ => rfl) ⟨hok, by rw [hlen] at hr; exact hr⟩
      (h.excl.set hl (fun h => by cases h) (fun h => by cases h) (fun j hj => .inr (by have := of_decide_eq_true hj; subst this; exact hc)) (fun _ h => by cases h))
  | @store i b d p t f hp hq =>
    have hi := toNat_cast hok.2.1
    have hh : (Th.put i b d .locked).writesP (i.toNat : Nat) = true := by rw [hi]; simp [Th.writesP]
    have hex : Excl (ls.set a (.put i b d .stored)) :=
      h.excl.set hl (fun h => by cases h) (fun h => by cases h) (fun j hj => .inl hj) (fun _ h => by cases h)
    rcases putBlockP_cases (cfg := cfg) i.toNat p b d with ⟨p', hst⟩ | hb | ⟨_, hb⟩
    · rw [hst.put _ _ hp] at hq
      injection hq with _ hq
      injection hq with hq _
      subst hq
      refine h.after hd hl ⟨fun _ => ⟨m, hm, ⟨?_, ?_, fun k q hk => ?_⟩⟩, fun hd' => by rw [hd] at hd'; cases hd'⟩ hok hex (es := []) (List.append_nil _).symm (fun _ => .inr rfl)
      · show _ = _
        simp only [setP]
        rw [sim.mem]
      · simp [setP, sim.len]
      · obtain ⟨q', h1, h2⟩ := sim.piece k q hk
        by_cases hki : k = i.toNat
        · subst hki
          rw [hp] at h1
          injection h1 with h1
          subst h1
          have hlt : i.toNat < s.sys.mem.pieces.length := (List.getElem?_eq_some_iff.1 hp).1
          refine ⟨p', by simp [setP, List.getElem?_set_self hlt], .inr ⟨b, d, ⟨_, List.mem_of_getElem? (List.getElem?_set_self (List.getElem?_eq_some_iff.1 hl).1), ?_⟩, ?_⟩⟩
          · simp [Th.pends, hi]
          · rcases h2 with ⟨_, h2⟩ | ⟨b', d', h2, _⟩
            · rw [← h2]; exact hst
            · have := h.excl.noPend hl (l' := .put i b d .locked) (.inl hh) rfl (b', d')
              rw [pending_set hl rfl] at this
              exact absurd h2 this
        · have hpe : ∀ x, Pending (ls.set a (.put i b d .stored)) k x ↔ Pending ls k x := by
            intro x
            refine pending_set hl ?_ x
            have : i ≠ (k : Int) := by omega
            simp [Th.pends, this]
          refine ⟨q', by simp only [setP]; rw [List.getElem?_set_ne (Ne.symm hki)]; exact h1, ?_⟩
          rcases h2 with ⟨h2, h3⟩ | ⟨b', d', h2, h3⟩
          · exact .inl ⟨fun x hx => h2 x ((hpe x).1 hx), h3⟩
          · exact .inr ⟨b', d', (hpe _).2 h2, h3⟩
    · rw [hb _ _ hp] at hq; cases hq
    · obtain ⟨t', _, hb⟩ := hb _ _ hp
      rw [hb] at hq; cases hq
  | @noStore i b d p o t f hp hq hne =>
    have hi := toNat_cast hok.2.1
    have hh : (Th.put i b d .locked).writesP (i.toNat : Nat) = true := by rw [hi]; simp [Th.writesP]
    have hex : Excl (ls.set a (.put i b d (.unlocking o s.hist.length))) :=
      h.excl.set hl (fun h => by cases h) (fun h => by cases h) (fun j hj => .inl hj) (fun _ h => by cases h)
    -- the piece is the same
    have hpm : m.pieces[i.toNat]? = some p := by
      have hlt : i.toNat < m.pieces.length := by rw [← sim.len]; exact (List.getElem?_eq_some_iff.1 hp).1
      obtain ⟨q', h1, h2⟩ := sim.piece i.toNat _ (List.getElem?_eq_getElem hlt)
      rw [hp] at h1
      injection h1 with h1
      subst h1
      rcases h2 with ⟨_, h2⟩ | ⟨b', d', h2, _⟩
      · rw [h2, List.getElem?_eq_getElem hlt]
      · have := h.excl.noPend hl (l' := .put i b d .locked) (.inl hh) rfl (b', d')
        rw [pending_set hl rfl] at this
        exact absurd h2 this
    rcases putBlockP_cases (cfg := cfg) i.toNat p b d with ⟨p', hst⟩ | hb | ⟨hpc, hb⟩
    · rw [hst.put _ _ hp] at hq
      injection hq with hq _
      exact absurd hq.symm hne
    · rw [hb _ _ hp] at hq
      injection hq with h1 hq
      injection hq with h2 h3
      subst h1 h2
      refine h.same hu hd hl (l' := .put i b d (.unlocking (.err .blockExists) s.hist.length)) (p := putBlock cfg i b d) (e := .put i b d) (fun _ => rfl) hex hm sim (fun _ => rfl) (f' := []) ?_ (fun ht => .inl ht)
      by_cases hc : m.coalesced = true
      · exact putBlock_seen hok.1 hc _
      · have hc : m.coalesced = false := by cases h : m.coalesced <;> simp_all
        rw [putBlock_some hok.1 (s := ⟨s.sys.fs, m⟩) hc hok.2.1 hpm]
        show Op.bind _ _ _ _ = _
        unfold Op.bind
        rw [hb _ _ hpm]
    · obtain ⟨t', ht', hb'⟩ := hb _ [] hp
      rw [hb'] at hq
      injection hq with h1 hq
      injection hq with h2 h3
      subst h1 h2
      have hc : m.coalesced = false := by
        cases hc : m.coalesced with
        | false => rfl
        | true =>
          have := (inv.2.all hc).2 p (List.mem_of_getElem? hpm)
          rw [hpc] at this; cases this
      obtain ⟨t0, ht0, hb0⟩ := hb ⟨s.sys.fs, m⟩ [] hpm
      have hseq : putBlock cfg i b d ⟨s.sys.fs, m⟩ [] = (.panic, t0, []) := by
        rw [putBlock_some hok.1 (s := ⟨s.sys.fs, m⟩) hc hok.2.1 hpm]
        show Op.bind _ _ _ _ = _
        unfold Op.bind
        rw [hb0]
      have := Core.take hu (ls' := ls.set a (.put i b d (.unlocking .panic s.hist.length))) (e := .put i b d) hm (fun _ => rfl) hseq (t := t') (ht'.trans ht0.symm) (fun hf => by cases hf)
      exact h.after hd hl this.1 (.inl this.2) hex (after_hist ..) (fun hd => by cases hd)
  | putLockT hc => 
    exact h.move hd hl (fun _ => rfl) hok (h.excl.set hl (fun _ => .inr hc) (fun h => by cases h) (fun j hj => .inl hj) (fun _ h => by cases h))
  | @finish i b d p' o t fates f hp hq =>
    have hi := toNat_cast hok.2.1
    have hh : (Th.put i b d .both).writesP (i.toNat : Nat) = true := by rw [hi]; simp [Th.writesP]
    have hpd : (Th.put i b d .both).pends i.toNat = some (b, d) := by simp [Th.pends, hi]
    have hex : Excl (ls.set a (.put i b d (.closing o s.hist.length))) :=
      h.excl.set hl (fun _ => .inl rfl) (fun h => by cases h) (fun j hj => .inl hj) (fun _ h => by cases h)
    have hlt : i.toNat < m.pieces.length := by rw [← sim.len]; exact (List.getElem?_eq_some_iff.1 hp).1
    obtain ⟨p, hpm⟩ : ∃ p, m.pieces[i.toNat]? = some p := ⟨_, List.getElem?_eq_getElem hlt⟩
    have hst : Stores cfg i.toNat b d p p' := by
      obtain ⟨q', h1, h2⟩ := sim.piece i.toNat _ hpm
      rw [hp] at h1
      injection h1 with h1
      subst h1
      rcases h2 with ⟨h2, _⟩ | ⟨b', d', h2, h3⟩
      · exact absurd ⟨_, List.mem_of_getElem? hl, hpd⟩ (h2 (b, d))
      · have := h.excl.onlyPend hl hpd h2
        injection this with h4 h5
        subst h4 h5
        exact h3
    have hc : m.coalesced = false := by
      cases hc : m.coalesced with
      | false => rfl
      | true =>
        have := (inv.2.all hc).2 p (List.mem_of_getElem? hpm)
        rw [hst.was] at this; cases this
    obtain ⟨t0, h1, h2, h3⟩ := sim.op (ls' := ls.set a (.put i b d (.closing o s.hist.length))) hp (p := finishPut cfg i.toNat p'.fut) (fun g hg => fr_finish hg) hq
      (h.excl.noPend hl (.inl hh) rfl) (fun j hj x => pending_set hl (by
        have : i ≠ (j : Int) := by omega
        simp [Th.pends, this]) x)
    have hseq : putBlock cfg i b d ⟨s.sys.fs, m⟩ fates = (o, t0, f) := by
      rw [putBlock_some hok.1 (s := ⟨s.sys.fs, m⟩) hc hok.2.1 hpm]
      show Op.bind _ _ _ _ = _
      unfold Op.bind
      rw [hst.put _ _ hpm]
      show finishPut cfg i.toNat p.fut _ _ = _
      rw [← hst.fut]
      exact h1
    have := Core.take hu (ls' := ls.set a (.put i b d (.closing o s.hist.length))) (e := .put i b d) hm (fun _ => rfl) hseq (t := t) h2 (fun _ => h3)
    exact h.after hd hl this.1 (.inl this.2) hex (after_hist ..) (fun _ => .inl rfl)
  | putUnlockT => exact h.move hd hl (fun _ => rfl) hok (h.excl.set hl (fun h => by cases h) (fun h => by cases h) (fun j hj => .inl hj) (fun _ h => by cases h))
  | putUnlock => exact h.move hd hl (fun _ => rfl) hok (h.excl.set hl (fun h => by cases h) (fun h => by cases h) (fun _ h => by cases h) (fun _ h => by cases h))
  | getRead hc => exact h.move hd hl (fun _ => rfl) trivial (h.excl.set hl (fun h => by cases h) (fun _ => .inr hc.1) (fun _ h => by cases h) (fun _ h => by cases h))
  | @whole i b l' o t fates f hc hq =>
    have hcm : m.coalesced = true := by rw [← hc]; exact sim.coalesced.symm
    have hsame : (getWhole cfg i b l' ⟨s.sys.fs, m⟩ fates).2.1 = ⟨s.sys.fs, m⟩ := by
      rw [← getBlock_whole (s := ⟨s.sys.fs, m⟩) hcm]; exact getBlock_same ..
    obtain ⟨h1, rfl⟩ := sim.look (fun g => fr_getWhole i b l') hq hsame
    rw [← getBlock_whole (s := ⟨s.sys.fs, m⟩) hcm] at h1
    exact h.same hu hd hl (l' := .get i b l' (.leaving o s.hist.length)) (e := .get i b l') (p := getBlock cfg i b l') (fun _ => rfl) (h.excl.set hl (fun h => by cases h) (fun _ => .inl rfl) (fun _ h => by cases h) (fun _ h => by cases h)) hm sim
      (fun _ => rfl) h1 id
  | @getNone i b l' hc hr =>
    exact h.same hu hd hl (l' := .get i b l' (.leaving .panic s.hist.length)) (e := .get i b l') (p := getBlock cfg i b l') (fun _ => rfl) (h.excl.set hl (fun h => by cases h) (fun _ => .inl rfl) (fun _ h => by cases h) (fun _ h => by cases h)) hm sim
      (fun _ => rfl) (getBlock_none (s := ⟨s.sys.fs, m⟩) (by rw [← hc]; exact sim.coalesced.symm) (by rw [← sim.len]; exact hr) _) id
  | want hc hr =>
    exact h.move hd hl (fun _ => rfl) ⟨by rw [hlen] at hr; exact hr, fun _ => hc⟩
      (h.excl.set hl (fun h => by cases h) (fun _ => .inl rfl) (fun _ h => by cases h) (fun _ h => by cases h))
  | getLock hc =>
    exact h.move hd hl (fun _ => rfl) hok
      (h.excl.set hl (fun h => by cases h) (fun _ => .inl rfl) (fun _ h => by cases h) (fun j hj => .inr (by have := of_decide_eq_true hj; subst this; exact hc.1)))
  | @read i b l' p o t fates f hp hq =>
    have hi := toNat_cast hok.1.1
    have hh : (Th.get i b l' .both).readsP (i.toNat : Nat) = true := by rw [hi]; simp [Th.readsP]
    have hcm : m.coalesced = false := by rw [← hok.2 hd]; exact sim.coalesced.symm
    have hpm : m.pieces[i.toNat]? = some p := by
      have hlt : i.toNat < m.pieces.length := by rw [← sim.len]; exact (List.getElem?_eq_some_iff.1 hp).1
      obtain ⟨q', h1, h2⟩ := sim.piece i.toNat _ (List.getElem?_eq_getElem hlt)
      rw [hp] at h1
      injection h1 with h1
      subst h1
      rcases h2 with ⟨_, h2⟩ | ⟨b', d', h2, _⟩
      · rw [h2, List.getElem?_eq_getElem hlt]
      · have := h.excl.noPend hl (l' := .get i b l' .both) (.inr hh) rfl (b', d')
        rw [pending_set hl rfl] at this
        exact absurd h2 this
    have hsame : (getFrom i.toNat p b l' ⟨s.sys.fs, m⟩ fates).2.1 = ⟨s.sys.fs, m⟩ := by
      rw [← getBlock_some (cfg := cfg) (s := ⟨s.sys.fs, m⟩) hcm hok.1.1 hpm]; exact getBlock_same ..
    obtain ⟨h1, rfl⟩ := sim.look (fun g => fr_getFrom i.toNat p b l') hq hsame
    rw [← getBlock_some (cfg := cfg) (s := ⟨s.sys.fs, m⟩) hcm hok.1.1 hpm] at h1
    exact h.same hu hd hl (l' := .get i b l' (.closing o s.hist.length)) (e := .get i b l') (p := getBlock cfg i b l') (fun _ => rfl) (h.excl.set hl (fun h => by cases h) (fun _ => .inl rfl) (fun _ h => by cases h) (fun j hj => .inl hj)) hm sim
      (fun _ => rfl) h1 id
  | getUnlock => exact h.move hd hl (fun _ => rfl) hok (h.excl.set hl (fun h => by cases h) (fun _ => .inl rfl) (fun _ h => by cases h) (fun _ h => by cases h))
  | getUnlockT => exact h.move hd hl (fun _ => rfl) hok (h.excl.set hl (fun h => by cases h) (fun h => by cases h) (fun _ h => by cases h) (fun _ h => by cases h))
  | @resetNone i hr =>
    exact h.same hu hd hl (l' := .reset i (.done .panic s.hist.length)) (e := .reset i) (p := resetPiece i) (fun _ => rfl) (h.excl.set hl (fun h => by cases h) (fun h => by cases h) (fun _ h => by cases h) (fun _ h => by cases h)) hm sim
      (fun _ => rfl) (resetPiece_none (s := ⟨s.sys.fs, m⟩) (by rw [← sim.len]; exact hr) _) id
  | resetLock hr hc =>
    exact h.move hd hl (fun _ => rfl) (by rw [hlen] at hr; exact hr)
      (h.excl.set hl (fun h => by cases h) (fun h => by cases h) (fun j hj => .inr (by have := of_decide_eq_true hj; subst this; exact hc)) (fun _ h => by cases h))
  | @reset i p o t f hp hq =>
    have hi := toNat_cast hok.1
    have hh : (Th.reset i .locked).writesP (i.toNat : Nat) = true := by rw [hi]; simp [Th.writesP]
    have hex : Excl (ls.set a (.reset i (.unlocking o s.hist.length))) :=
      h.excl.set hl (fun h => by cases h) (fun h => by cases h) (fun j hj => .inl hj) (fun _ h => by cases h)
    have hpm : m.pieces[i.toNat]? = some p := by
      have hlt : i.toNat < m.pieces.length := by rw [← sim.len]; exact (List.getElem?_eq_some_iff.1 hp).1
      obtain ⟨q', h1, h2⟩ := sim.piece i.toNat _ (List.getElem?_eq_getElem hlt)
      rw [hp] at h1
      injection h1 with h1
      subst h1
      rcases h2 with ⟨_, h2⟩ | ⟨b', d', h2, _⟩
      · rw [h2, List.getElem?_eq_getElem hlt]
      · have := h.excl.noPend hl (l' := .reset i .locked) (.inl hh) rfl (b', d')
        rw [pending_set hl rfl] at this
        exact absurd h2 this
    obtain ⟨t0, h1, h2, h3⟩ := sim.op (ls' := ls.set a (.reset i (.unlocking o s.hist.length))) hp (p := resetP i.toNat p) (fun g hg => fr_resetP hg p) hq
      (h.excl.noPend hl (.inl hh) rfl) (fun j hj x => pending_set hl (l' := .reset i (.unlocking o s.hist.length)) rfl x)
    rw [setP_self (s := ⟨s.sys.fs, m⟩) hpm, ← resetPiece_some (s := ⟨s.sys.fs, m⟩) hok.1 hpm] at h1
    have := Core.take hu (ls' := ls.set a (.reset i (.unlocking o s.hist.length))) (e := .reset i) hm (fun _ => rfl) h1 (t := t) h2 (fun _ => h3)
    refine h.after hd hl this.1 this.2 hex (after_hist ..) (fun _ => .inr ?_)
    have := (resetP_coalesced i.toNat p s.sys []).1
    rw [hq] at this
    exact this
  | resetUnlock => exact h.move hd hl (fun _ => rfl) hok (h.excl.set hl (fun h => by cases h) (fun h => by cases h) (fun _ h => by cases h) (fun _ h => by cases h))

theorem fresh_holds {t : Th} (h : t.fresh = true) : t.writesT = false ∧ t.readsT = false ∧ (∀ j, t.writesP j = false) ∧ (∀ j, t.readsP j = false) ∧ (∀ k, t.pends k = none) := by
  cases t with
  | put i b d pc => cases pc <;> first | exact ⟨rfl, rfl, fun _ => rfl, fun _ => rfl, fun _ => rfl⟩ | cases h
  | get i b l pc => cases pc <;> first | exact ⟨rfl, rfl, fun _ => rfl, fun _ => rfl, fun _ => rfl⟩ | cases h
  | reset i pc => cases pc <;> first | exact ⟨rfl, rfl, fun _ => rfl, fun _ => rfl, fun _ => rfl⟩ | cases h

theorem Inv.init {es : List (Event × List Fate)} {fs : FS} {m : Mem} (h : run cfg es World.empty = ⟨fs, some m⟩) {ls : List Th} (hf : ∀ t ∈ ls, t.fresh = true) :
    Inv cfg (⟨⟨fs, m⟩, false, es⟩, ls) := by
  refine ⟨⟨fun _ => ⟨m, h, rfl, rfl, fun k p hk => ⟨p, hk, .inl ⟨?_, rfl⟩⟩⟩, fun hd => by cases hd⟩, ⟨?_, ?_⟩, fun t ht => ?_⟩
  · rintro x ⟨t, ht, hx⟩
    rw [(fresh_holds (hf t ht)).2.2.2.2] at hx; cases hx
  · intro a b t u _ ht _ hw
    rw [(fresh_holds (hf t (List.mem_of_getElem? ht))).1] at hw; cases hw
  · intro a b t u _ ht _ j hw
    rw [(fresh_holds (hf t (List.mem_of_getElem? ht))).2.2.1] at hw; cases hw
  · have := hf t ht
    cases t with
    | put i b d pc => cases pc <;> first | trivial | cases this
    | get i b l pc => cases pc <;> first | trivial | cases this
    | reset i pc => cases pc <;> first | trivial | cases this

theorem Inv.reach (hu : Usable cfg) {strict : Bool} {x y : Shared × List Th} (h : Inv cfg x) (hr : Reach cfg strict x y) : Inv cfg y := by
  induction hr with
  | refl => exact h
  | tail _ hs ih => exact ih.step hu hs

/-! ### Positions -/

/-- The position of the call in the history, once it has taken effect. -/
def Th.pos : Th → Option Nat
  | .put _ _ _ (.closing _ n) => some n
  | .put _ _ _ (.unlocking _ n) => some n
  | .put _ _ _ (.done _ n) => some n
  | .get _ _ _ (.closing _ n) => some n
  | .get _ _ _ (.leaving _ n) => some n
  | .get _ _ _ (.done _ n) => some n
  | .reset _ (.unlocking _ n) => some n
  | .reset _ (.done _ n) => some n
  | _ => none

/-- The call that a goroutine makes. -/
def Th.event : Th → Event
  | .put i b d _ => .put i b d
  | .get i b l _ => .get i b l
  | .reset i _ => .reset i

/-- A step either has no effect or is the next in the history. -/
theorem act_pos {strict : Bool} {ls : List Th} {s s' : Shared} {l l' : Th} (h : Act cfg strict ls s l s' l') : l'.event = l.event ∧
    (s'.hist = s.hist ∧ l'.pos = l.pos ∨ l.pos = none ∧ l'.pos = some s.hist.length ∧ ∃ f, s'.hist = s.hist ++ [(l.event, f)]) := by
  cases h with
  | check _ | putRead _ | pass _ | putLock _ _ | store _ _ | putLockT _ | putUnlockT | putUnlock | getRead _ | want _ _ | getLock _ | getUnlock | getUnlockT | resetLock _ _ | resetUnlock =>
    exact ⟨rfl, .inl ⟨rfl, rfl⟩⟩
  | checkErr _ | seen _ | putNone _ | noStore _ _ _ | finish _ _ | whole _ _ | getNone _ _ | read _ _ | resetNone _ | reset _ _ => exact ⟨rfl, .inr ⟨rfl, rfl, _, rfl⟩⟩

/-- The calls since history `es` and the positions since then correspond. -/
structure Pos (es : List (Event × List Fate)) (x : Shared × List Th) : Prop where
  pre : ∃ r, x.1.hist = es ++ r
  rng : ∀ (a : Nat) (t : Th) (n : Nat), x.2[a]? = some t → t.pos = some n → es.length ≤ n ∧ ∃ f, x.1.hist[n]? = some (t.event, f)
  inj : ∀ (a b : Nat) (t u : Th) (n : Nat), x.2[a]? = some t → x.2[b]? = some u → t.pos = some n → u.pos = some n → a = b
  all : ∀ n, es.length ≤ n → n < x.1.hist.length → ∃ (a : Nat) (t : Th), x.2[a]? = some t ∧ t.pos = some n

theorem Pos.step {es : List (Event × List Fate)} {strict : Bool} {x y : Shared × List Th} (h : Pos es x) (hs : Step cfg strict x y) : Pos es y := by
  cases hs with
  | @mk s s' l l' ls a hd hl ha =>
  have hlt : a < ls.length := (List.getElem?_eq_some_iff.1 hl).1
  have other : ∀ {x : Nat}, x ≠ a → (ls.set a l')[x]? = ls[x]? := fun hx => List.getElem?_set_ne (Ne.symm hx)
  have self : (ls.set a l')[a]? = some l' := List.getElem?_set_self hlt
  obtain ⟨he, ⟨h1, h2⟩ | ⟨h1, h2, f, h3⟩⟩ := act_pos ha
  · have back : ∀ (x : Nat) (t : Th), (ls.set a l')[x]? = some t → ∃ t', ls[x]? = some t' ∧ t'.pos = t.pos ∧ t'.event = t.event := by
      intro x t ht
      by_cases hx : x = a
      · subst hx; rw [self] at ht; injection ht with ht; subst ht; exact ⟨l, hl, h2.symm, he.symm⟩
      · rw [other hx] at ht; exact ⟨t, ht, rfl, rfl⟩
    refine ⟨by show ∃ r, s'.hist = _; rw [h1]; exact h.pre, ?_, ?_, ?_⟩
    · intro x t n ht hn
      obtain ⟨t', h3, h4, h5⟩ := back x t ht
      have := h.rng x t' n h3 (h4.trans hn)
      rw [h5] at this
      show _ ∧ ∃ f, s'.hist[n]? = _
      rw [h1]; exact this
    · intro x z t u n ht hu hn hn'
      obtain ⟨t', h3, h4, _⟩ := back x t ht
      obtain ⟨u', h5, h6, _⟩ := back z u hu
      exact h.inj x z t' u' n h3 h5 (h4.trans hn) (h6.trans hn')
    · intro n hn hn'
      have hn' : n < s'.hist.length := hn'
      rw [h1] at hn'
      obtain ⟨x, t, h3, h4⟩ := h.all n hn hn'
      by_cases hx : x = a
      · subst hx
        have h3 : ls[x]? = some t := h3
        rw [hl] at h3; injection h3 with h3; subst h3
        exact ⟨x, l', self, h2.trans h4⟩
      · exact ⟨x, t, by show (ls.set a l')[x]? = _; rw [other hx]; exact h3, h4⟩
  · obtain ⟨r, hr⟩ := h.pre
    have hr : s.hist = es ++ r := hr
    have old : ∀ (x : Nat) (t : Th) (n : Nat), x ≠ a → (ls.set a l')[x]? = some t → t.pos = some n → es.length ≤ n ∧ n < s.hist.length ∧ ∃ f, s.hist[n]? = some (t.event, f) := by
      intro x t n hx ht hn
      rw [other hx] at ht
      obtain ⟨h4, f, h5⟩ := h.rng x t n ht hn
      exact ⟨h4, (List.getElem?_eq_some_iff.1 h5).1, f, h5⟩
    refine ⟨⟨r ++ [(l.event, f)], ?_⟩, ?_, ?_, ?_⟩
    · show s'.hist = _
      rw [h3, hr, List.append_assoc]
    · intro x t n ht hn
      show _ ∧ ∃ f, s'.hist[n]? = _
      rw [h3]
      by_cases hx : x = a
      · subst hx
        have ht : (ls.set x l')[x]? = some t := ht
        rw [self] at ht; injection ht with ht; subst ht
        rw [h2] at hn; injection hn with hn; subst hn
        exact ⟨by rw [hr]; simp, f, by rw [he]; simp⟩
      · obtain ⟨h4, h5, g, h6⟩ := old x t n hx ht hn
        exact ⟨h4, g, by rw [List.getElem?_append_left h5]; exact h6⟩
    · intro x z t u n ht hu hn hn'
      by_cases hx : x = a
      · by_cases hz : z = a
        · rw [hx, hz]
        · subst hx
          have ht : (ls.set x l')[x]? = some t := ht
          rw [self] at ht; injection ht with ht; subst ht
          rw [h2] at hn; injection hn with hn
          have := (old z u n hz hu hn').2.1
          omega
      · by_cases hz : z = a
        · subst hz
          have hu : (ls.set z l')[z]? = some u := hu
          rw [self] at hu; injection hu with hu; subst hu
          rw [h2] at hn'; injection hn' with hn'
          have := (old x t n hx ht hn).2.1
          omega
        · have ht : (ls.set a l')[x]? = some t := ht
          have hu : (ls.set a l')[z]? = some u := hu
          rw [other hx] at ht
          rw [other hz] at hu
          exact h.inj x z t u n ht hu hn hn'
    · intro n hn hn'
      have hn' : n < s'.hist.length := hn'
      rw [h3, List.length_append] at hn'
      by_cases hlast : n = s.hist.length
      · exact ⟨a, l', self, by rw [h2, hlast]⟩
      · obtain ⟨x, t, h4, h5⟩ := h.all n hn (by show n < s.hist.length; simp at hn'; omega)
        have hx : x ≠ a := by
          rintro rfl
          have h4 : ls[x]? = some t := h4
          rw [hl] at h4; injection h4 with h4; subst h4
          rw [h1] at h5; cases h5
        exact ⟨x, t, by show (ls.set a l')[x]? = _; rw [other hx]; exact h4, h5⟩

theorem Pos.init {s : Shared} {ls : List Th} (hf : ∀ t ∈ ls, t.pos = none) : Pos s.hist (s, ls) := by
  refine ⟨⟨[], (List.append_nil _).symm⟩, ?_, ?_, ?_⟩
  · intro a t n ht hn
    rw [hf t (List.mem_of_getElem? ht)] at hn; cases hn
  · intro a b t u n ht _ hn _
    rw [hf t (List.mem_of_getElem? ht)] at hn; cases hn
  · intro n hn hn'
    have hn' : n < s.hist.length := hn'
    omega

theorem Pos.reach {es : List (Event × List Fate)} {strict : Bool} {x y : Shared × List Th} (h : Pos es x) (hr : Reach cfg strict x y) : Pos es y := by
  induction hr with
  | refl => exact h
  | tail _ hs ih => exact ih.step hs

theorem fresh_pos {t : Th} (h : t.fresh = true) : t.pos = none := by
  cases t with
  | put i b d pc => cases pc <;> first | rfl | cases h
  | get i b l pc => cases pc <;> first | rfl | cases h
  | reset i pc => cases pc <;> first | rfl | cases h

/-- Calls take effect after they start. -/
theorem pos_later {strict : Bool} {x y : Shared × List Th} (hr : Reach cfg strict x y) : (∃ r, y.1.hist = x.1.hist ++ r) ∧ y.2.length = x.2.length ∧
    ∀ (a : Nat) (t : Th), x.2[a]? = some t → ∃ t', y.2[a]? = some t' ∧ t'.event = t.event ∧ (t'.pos = t.pos ∨ t.pos = none ∧ ∃ n, t'.pos = some n ∧ x.1.hist.length ≤ n) := by
  induction hr with
  | refl => exact ⟨⟨[], (List.append_nil _).symm⟩, rfl, fun a t ht => ⟨t, ht, rfl, .inl rfl⟩⟩
  | tail _ hs ih =>
    cases hs with
    | @mk s s' l l' ls k hd hl ha =>
    obtain ⟨⟨r, hr⟩, hlen, ih⟩ := ih
    have hr : s.hist = x.1.hist ++ r := hr
    have hlen : ls.length = x.2.length := hlen
    obtain ⟨he, hp⟩ := act_pos ha
    refine ⟨?_, by simpa using hlen, fun a t ht => ?_⟩
    · rcases hp with ⟨h1, _⟩ | ⟨_, _, f, h1⟩
      · exact ⟨r, h1.trans hr⟩
      · exact ⟨r ++ [(l.event, f)], by show s'.hist = _; rw [h1, hr, List.append_assoc]⟩
    · obtain ⟨t', h1, h2, h3⟩ := ih a t ht
      by_cases hak : a = k
      · subst hak
        have h1 : ls[a]? = some t' := h1
        rw [hl] at h1; injection h1 with h1; subst h1
        refine ⟨l', List.getElem?_set_self (List.getElem?_eq_some_iff.1 hl).1, he.trans h2, ?_⟩
        rcases hp with ⟨_, h4⟩ | ⟨h4, h5, f, _⟩
        · rw [h4]; exact h3
        · rcases h3 with h3 | ⟨_, n, h3, _⟩
          · exact .inr ⟨by rw [← h3, h4], _, h5, by rw [hr]; simp⟩
          · rw [h4] at h3; cases h3
      · exact ⟨t', by show (ls.set k l')[a]? = _; rw [List.getElem?_set_ne (Ne.symm hak)]; exact h1, h2, h3⟩

/-! ### Progress -/

/-- Can always move: takes no mutex. -/
def Th.ready : Th → Bool
  | .put _ _ _ .start => true
  | .put _ _ _ .reading => true
  | .put _ _ _ .locked => true
  | .put _ _ _ .both => true
  | .put _ _ _ (.closing _ _) => true
  | .put _ _ _ (.unlocking _ _) => true
  | .get _ _ _ .reading => true
  | .get _ _ _ .both => true
  | .get _ _ _ (.closing _ _) => true
  | .get _ _ _ (.leaving _ _) => true
  | .reset _ .locked => true
  | .reset _ (.unlocking _ _) => true
  | _ => false

theorem ready_moves {strict : Bool} {s : Shared} {ls : List Th} (hlen : s.sys.mem.pieces.length = cfg.info.pieces.length) {t : Th} (hok : ThOK cfg s t) (ht : t.ready = true) :
    ∃ s' t', Act cfg strict ls s t s' t' := by
  have piece : ∀ {i : Int}, InRange cfg i → ∃ p, s.sys.mem.pieces[i.toNat]? = some p := by
    intro i hi
    obtain ⟨h1, h2⟩ := hi
    exact ⟨_, List.getElem?_eq_getElem (by omega)⟩
  cases t with
  | put i b d pc =>
    cases pc with
    | start =>
      cases hc : checkBlockSize cfg.info i b d.length with
      | ok u => exact ⟨_, _, .check hc⟩
      | err e => exact ⟨_, _, .checkErr hc⟩
      | panic => exact absurd hc checkBlockSize_noPanic
    | reading =>
      cases hc : s.sys.mem.coalesced with
      | true => exact ⟨_, _, .seen hc⟩
      | false => exact ⟨_, _, .pass hc⟩
    | locked =>
      obtain ⟨p, hp⟩ := piece hok.2
      rcases hq : putBlockP cfg.info i.toNat p b d s.sys [] with ⟨o, t, f⟩
      by_cases ho : o = .ok ()
      · subst ho; exact ⟨_, _, .store hp hq⟩
      · exact ⟨_, _, .noStore hp hq ho⟩
    | both =>
      obtain ⟨p, hp⟩ := piece hok.2
      rcases hq : finishPut cfg i.toNat p.fut s.sys [] with ⟨o, t, f⟩
      exact ⟨_, _, .finish hp hq⟩
    | closing r n => exact ⟨_, _, .putUnlockT⟩
    | unlocking r n => exact ⟨_, _, .putUnlock⟩
    | checked | passed | stored | done r n => cases ht
  | get i b l pc =>
    cases pc with
    | reading =>
      cases hc : s.sys.mem.coalesced with
      | true =>
        rcases hq : getWhole cfg i b l s.sys [] with ⟨o, t, f⟩
        exact ⟨_, _, .whole hc hq⟩
      | false =>
        by_cases hr : 0 ≤ i ∧ i < s.sys.mem.pieces.length
        · exact ⟨_, _, .want hc hr⟩
        · exact ⟨_, _, .getNone hc hr⟩
    | both =>
      obtain ⟨p, hp⟩ := piece hok.1
      rcases hq : getFrom i.toNat p b l s.sys [] with ⟨o, t, f⟩
      exact ⟨_, _, .read hp hq⟩
    | closing r n => exact ⟨_, _, .getUnlock⟩
    | leaving r n => exact ⟨_, _, .getUnlockT⟩
    | start | wanting | done r n => cases ht
  | reset i pc =>
    cases pc with
    | locked =>
      obtain ⟨p, hp⟩ := piece hok
      rcases hq : resetP i.toNat p s.sys [] with ⟨o, t, f⟩
      exact ⟨_, _, .reset hp hq⟩
    | unlocking r n => exact ⟨_, _, .resetUnlock⟩
    | start | done r n => cases ht

theorem progress (hu : Usable cfg) {s : Shared} {ls : List Th} (h : Inv cfg (s, ls)) (hd : s.dead = false)
    (hpair : ∀ i b l, Th.get i b l .wanting ∈ ls → ∀ b' d, Th.put i b' d .stored ∉ ls) (hnot : ∃ t ∈ ls, t.finished = false) (strict : Bool) :
    ∃ y, Step cfg strict (s, ls) y := by
  have go : ∀ {t : Th}, t ∈ ls → (∃ s' t', Act cfg strict ls s t s' t') → ∃ y, Step cfg strict (s, ls) y := by
    rintro t ht ⟨s', t', ha⟩
    obtain ⟨k, hk⟩ := List.getElem?_of_mem ht
    exact ⟨_, .mk k hd hk ha⟩
  obtain ⟨m, hm, sim⟩ := h.core.ok hd
  have hlen : s.sys.mem.pieces.length = cfg.info.pieces.length := (sim.len.trans (seq_inv hu hm).2.len)
  by_cases h1 : ∃ t ∈ ls, t.ready = true
  · obtain ⟨t, ht, hr⟩ := h1
    exact go ht (ready_moves hlen (h.th t ht) hr)
  have h1 : ∀ t ∈ ls, t.ready = false := fun t ht => by
    cases hr : t.ready with
    | false => rfl
    | true => exact absurd ⟨t, ht, hr⟩ h1
  have noWT : ∀ t ∈ ls, t.writesT = false := by
    intro t ht
    have := h1 t ht
    cases t with
    | put i b d pc => cases pc <;> first | rfl | cases this
    | get i b l pc => rfl
    | reset i pc => rfl
  have noRP : ∀ j, ∀ t ∈ ls, t.readsP j = false := by
    intro j t ht
    have := h1 t ht
    cases t with
    | put i b d pc => rfl
    | get i b l pc => cases pc <;> first | rfl | cases this
    | reset i pc => rfl
  have wp : ∀ j, ∀ t ∈ ls, t.writesP j = true → ∃ b d, t = .put j b d .stored := by
    intro j t ht hw
    have := h1 t ht
    cases t with
    | put i b d pc =>
      cases pc <;> first | cases hw; done | cases this; done | skip
      have := of_decide_eq_true hw
      subst this
      exact ⟨b, d, rfl⟩
    | get i b l pc => cases hw
    | reset i pc => cases pc <;> first | cases hw; done | cases this
  have rT : ∀ t ∈ ls, t.readsT = true → ∃ i b l, t = .get i b l .wanting := by
    intro t ht hw
    have := h1 t ht
    cases t with
    | put i b d pc => cases pc <;> first | cases hw; done | cases this
    | get i b l pc => cases pc <;> first | cases hw; done | cases this; done | exact ⟨i, b, l, rfl⟩
    | reset i pc => cases hw
  -- a call that wants to write piece `j`, while nobody holds it
  have lockP : ∀ j, (∀ b d, Th.put j b d .stored ∉ ls) → (∃ t ∈ ls, t.waitsP j = true) → ∃ y, Step cfg strict (s, ls) y := by
    rintro j hj ⟨t, ht, hw⟩
    have can : canWriteP ls j := by
      intro u hu
      refine ⟨?_, noRP j u hu⟩
      cases hq : u.writesP j with
      | false => rfl
      | true =>
        obtain ⟨b, d, rfl⟩ := wp j u hu hq
        exact absurd hu (hj b d)
    refine go ht ?_
    cases t with
    | put i b d pc =>
      cases pc <;> first | cases hw; done | skip
      have := of_decide_eq_true hw
      subst this
      by_cases hr : 0 ≤ i ∧ i < s.sys.mem.pieces.length
      · exact ⟨_, _, .putLock hr can⟩
      · exact ⟨_, _, .putNone hr⟩
    | get i b l pc => cases hw
    | reset i pc =>
      cases pc <;> first | cases hw; done | skip
      have := of_decide_eq_true hw
      subst this
      by_cases hr : 0 ≤ i ∧ i < s.sys.mem.pieces.length
      · exact ⟨_, _, .resetLock hr can⟩
      · exact ⟨_, _, .resetNone hr⟩
  by_cases h2 : ∃ i b l, Th.get i b l .wanting ∈ ls
  · obtain ⟨i, b, l, ht⟩ := h2
    by_cases h3 : ∃ t ∈ ls, t.waitsP i = true
    · exact lockP i (hpair i b l ht) h3
    · refine go ht ⟨_, _, .getLock ⟨fun u hu => ?_, fun _ u hu => ?_⟩⟩
      · cases hq : u.writesP i with
        | false => rfl
        | true =>
          obtain ⟨b', d, rfl⟩ := wp i u hu hq
          exact absurd hu (hpair i b l ht b' d)
      · cases hq : u.waitsP i with
        | false => rfl
        | true => exact absurd ⟨u, hu, hq⟩ h3
  · have noRT : ∀ t ∈ ls, t.readsT = false := by
      intro t ht
      cases hq : t.readsT with
      | false => rfl
      | true =>
        obtain ⟨i, b, l, rfl⟩ := rT t ht hq
        exact absurd ⟨i, b, l, ht⟩ h2
    by_cases h3 : ∃ i b d, Th.put i b d .stored ∈ ls
    · obtain ⟨i, b, d, ht⟩ := h3
      exact go ht ⟨_, _, .putLockT fun u hu => ⟨noWT u hu, noRT u hu⟩⟩
    · by_cases h4 : ∃ j, ∃ t ∈ ls, t.waitsP j = true
      · obtain ⟨j, h4⟩ := h4
        exact lockP j (fun b d hm => h3 ⟨j, b, d, hm⟩) h4
      · have can : canReadT strict ls := by
          refine ⟨noWT, fun _ u hu => ?_⟩
          cases hq : u.waitsT with
          | false => rfl
          | true =>
            exfalso
            cases u with
            | put i b d pc => cases pc <;> first | cases hq; done | exact h3 ⟨i, b, d, hu⟩
            | get i b l pc => cases hq
            | reset i pc => cases hq
        obtain ⟨t, ht, hn⟩ := hnot
        have hr := h1 t ht
        cases t with
        | put i b d pc =>
          cases pc <;> first | cases hr; done | cases hn; done | skip
          · exact go ht ⟨_, _, .putRead can⟩
          · exact absurd ⟨i, _, ht, by simp [Th.waitsP]⟩ h4
          · exact absurd ⟨i, b, d, ht⟩ h3
        | get i b l pc =>
          cases pc <;> first | cases hr; done | cases hn; done | skip
          · exact go ht ⟨_, _, .getRead can⟩
          · exact absurd ⟨i, b, l, ht⟩ h2
        | reset i pc =>
          cases pc <;> first | cases hr; done | cases hn; done | skip
          exact absurd ⟨i, _, ht, by simp [Th.waitsP]⟩ h4

/-! ### Termination -/

/-- An upper bound for the number of steps of a call. -/
def Th.rank : Th → Nat
  | .put _ _ _ .start => 9
  | .put _ _ _ .checked => 8
  | .put _ _ _ .reading => 7
  | .put _ _ _ .passed => 6
  | .put _ _ _ .locked => 5
  | .put _ _ _ .stored => 4
  | .put _ _ _ .both => 3
  | .put _ _ _ (.closing _ _) => 2
  | .put _ _ _ (.unlocking _ _) => 1
  | .put _ _ _ (.done _ _) => 0
  | .get _ _ _ .start => 6
  | .get _ _ _ .reading => 5
  | .get _ _ _ .wanting => 4
  | .get _ _ _ .both => 3
  | .get _ _ _ (.closing _ _) => 2
  | .get _ _ _ (.leaving _ _) => 1
  | .get _ _ _ (.done _ _) => 0
  | .reset _ .start => 3
  | .reset _ .locked => 2
  | .reset _ (.unlocking _ _) => 1
  | .reset _ (.done _ _) => 0

theorem act_rank {strict : Bool} {ls : List Th} {s s' : Shared} {l l' : Th} (h : Act cfg strict ls s l s' l') : l'.rank < l.rank := by
  cases h <;> simp [Th.rank]

theorem sum_set_lt {α : Type} (f : α → Nat) : ∀ {ls : List α} {k : Nat} {a b : α}, ls[k]? = some a → f b < f a → ((ls.set k b).map f).sum < (ls.map f).sum
  | [], _, _, _, h, _ => by cases h
  | x :: ls, 0, a, b, h, hlt => by
    injection h with h
    subst h
    simp; exact hlt
  | x :: ls, k + 1, a, b, h, hlt => by
    have := sum_set_lt f (ls := ls) (k := k) h hlt
    simp only [List.set_cons_succ, List.map_cons, List.sum_cons]
    omega

theorem step_rank {strict : Bool} {x y : Shared × List Th} (h : Step cfg strict x y) : (y.2.map Th.rank).sum < (x.2.map Th.rank).sum := by
  cases h with
  | mk k hd hl ha => exact sum_set_lt _ hl (act_rank ha)

end Drip.StorageConc
