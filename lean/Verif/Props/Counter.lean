import Verif.Lemmas.StorageCount
import Verif.Props.Announce
/-
What `Downloaded` and the `left` of an announce are after any number of calls (C47, C79).
-/

namespace Drip.Storage
open Metainfo Spec

variable {cfg : Cfg}

/-- C47 (partial: what each call does). GetBlock and ResetPiece leave Downloaded as it is, and so does a PutBlock that
succeeds, whether it completes a piece or not. A PutBlock that reports a wrong checksum adds the length of the piece, one
that reports any other error leaves Downloaded as it is, except that an error of the operating system may do either. -/
theorem C47_calls_partial {w : World} {m m' : Mem} (hm : w.mem = some m) (fates : List Fate) :
    (∀ i b l, (runOp (getBlock cfg i b l) w fates).2.mem = some m' → m'.downloaded = m.downloaded) ∧
    (∀ i, (runOp (resetPiece i) w fates).2.mem = some m' → m'.downloaded = m.downloaded) ∧
    (∀ i b d, (runOp (putBlock cfg i b d) w fates).2.mem = some m' →
      match (runOp (putBlock cfg i b d) w fates).1 with
      | .err .checksum => m'.downloaded = m.downloaded + cfg.info.getPieceLength i
      | .err .fs => m'.downloaded = m.downloaded ∨ m'.downloaded = m.downloaded + cfg.info.getPieceLength i
      | _ => m'.downloaded = m.downloaded) := by
  have hs : ∀ {α : Type} {p : Op α}, Same (fun _ => True) p → (runOp p w fates).2.mem = some m' → m'.downloaded = m.downloaded := by
    intro α p hp h
    rcases runOp_of_wp hm (hp ⟨w.fs, m⟩) fates (fun _ _ => trivial) with ⟨a, s, h', hq⟩ | ⟨e, s, h', hq⟩ | ⟨s, h', _⟩ | ⟨s, h', _⟩ <;> rw [h'] at h <;> cases h
    · exact hq
    · exact hq.2
  refine ⟨fun i b l => hs (same_getBlock i b l), fun i => hs (same_resetPiece i), ?_⟩
  intro i b d h
  rcases runOp_of_wp hm (wp_putBlock_count i b d ⟨w.fs, m⟩) fates (fun _ _ => trivial) with ⟨a, s, h', hq⟩ | ⟨e, s, h', hq⟩ | ⟨s, h', _⟩ | ⟨s, h', _⟩ <;> rw [h'] at h ⊢ <;> cases h
  · exact hq
  · rcases hq with ⟨h1, h2⟩ | ⟨rfl | rfl, h2⟩
    · cases e with
      | checksum => exact absurd rfl h1
      | fs => exact .inl h2
      | _ => exact h2
    · exact h2
    · exact .inr h2

/-- The bytes of the pieces for which a call of PutBlock in the history reported a wrong checksum. -/
def spoilt (cfg : Cfg) : List (Event × List Fate) → World → Int
  | [], _ => 0
  | (e, f) :: es, w =>
    (match e with
      | .put i b d => if (runOp (putBlock cfg i b d) w f).1 = .err .checksum then cfg.info.getPieceLength i else 0
      | _ => 0) + spoilt cfg es (step cfg w e f)

/-- The history is one of a single process that has loaded the torrent, and no PutBlock reports an error of the operating system. -/
def Running (cfg : Cfg) : List (Event × List Fate) → World → Prop
  | [], _ => True
  | (e, f) :: es, w =>
    (match e with
      | .start => False
      | .load => False
      | .put i b d => (runOp (putBlock cfg i b d) w f).1 ≠ .err .fs
      | _ => True) ∧ Running cfg es (step cfg w e f)

theorem running_dead : ∀ (es : List (Event × List Fate)) (w : World), Running cfg es w → w.mem = none → (run cfg es w).mem = none
  | [], _, _, h => h
  | (e, f) :: es, w, hr, h => by
    refine running_dead es _ hr.2 ?_
    cases e with
    | start => exact hr.1.elim
    | load => exact hr.1.elim
    | put i b d => simp only [step, runOp, h]
    | get i b l => simp only [step, runOp, h]
    | reset i => simp only [step, runOp, h]

/-- C47 (partial: what Downloaded is instead). In the life of a process Downloaded is what Load found plus the lengths of the pieces
that failed their checksum: the pieces that are completed add nothing. -/
theorem C47_history_partial : ∀ (es : List (Event × List Fate)) (w : World) {m m' : Mem}, w.mem = some m → Running cfg es w → (run cfg es w).mem = some m' →
    m'.downloaded = m.downloaded + spoilt cfg es w
  | [], w, m, m', hm, _, h => by
    have h : w.mem = some m' := h
    rw [hm] at h
    cases h
    simp [spoilt]
  | (e, f) :: es, w, m, m', hm, hr, h => by
    cases h1 : (step cfg w e f).mem with
    | none =>
      have := running_dead es _ hr.2 h1
      have h : (run cfg es (step cfg w e f)).mem = some m' := h
      rw [this] at h
      cases h
    | some m1 =>
      have ih := C47_history_partial es (step cfg w e f) h1 hr.2 h
      have hc := C47_calls_partial (cfg := cfg) (m' := m1) hm f
      rw [ih]
      cases e with
      | start => exact hr.1.elim
      | load => exact hr.1.elim
      | put i b d =>
        have h2 := hc.2.2 i b d h1
        have h3 : (runOp (putBlock cfg i b d) w f).1 ≠ .err .fs := hr.1
        simp only [spoilt]
        generalize (runOp (putBlock cfg i b d) w f).1 = o at h2 h3 ⊢
        cases o with
        | err e =>
          cases e with
          | checksum => dsimp only at h2 ⊢; rw [if_pos rfl]; omega
          | fs => exact absurd rfl h3
          | _ => dsimp only at h2 ⊢; rw [if_neg (by simp)]; omega
        | _ => dsimp only at h2 ⊢; rw [if_neg (by simp)]; omega
      | get i b l => have := hc.1 i b l h1; simp only [spoilt]; omega
      | reset i => have := hc.2.1 i h1; simp only [spoilt]; omega

/-- A piece of 4 bytes fails and a piece of 2 bytes is completed: 4 bytes have been counted. -/
example : Running Ex.single [(.put 0 0 [1, 2, 3, 9], []), (.reset 1, []), (.put 1 0 [5, 6], [])] (run Ex.single [(.start, [])] World.empty) ∧
    spoilt Ex.single [(.put 0 0 [1, 2, 3, 9], []), (.reset 1, []), (.put 1 0 [5, 6], [])] (run Ex.single [(.start, [])] World.empty) = 4 ∧
    (run Ex.single [(.put 0 0 [1, 2, 3, 9], []), (.reset 1, []), (.put 1 0 [5, 6], [])] (run Ex.single [(.start, [])] World.empty)).mem.map
      (fun m => (m.bitfield, m.downloaded)) = some ([64], 4) := by
  have ne : ∀ {o : Out Unit}, (match o with | .err .fs => false | _ => true) = true → o ≠ .err .fs := by
    rintro _ h rfl
    cases h
  exact ⟨⟨ne (by kernel_rfl), trivial, ne (by kernel_rfl), trivial⟩, by kernel_rfl, by kernel_rfl⟩

end Drip.Storage

namespace Drip.Multi
open Metainfo Storage Spec

/-- **C79** (partial: what `left` is instead, for every torrent and every later state of the process). The announced `left` is what it was
right after Load less the bytes of the pieces that failed their checksum; it does not shrink when pieces are completed. -/
theorem C79_history_partial {cfg : Cfg} (es : List (Storage.Event × List Fate)) (w : World) {m m' : Mem} (hm : w.mem = some m) (hr : Running cfg es w)
    (h : (Storage.run cfg es w).mem = some m') (peerID event event' : Bytes) (port up down up' down' : Int) :
    ((View.mk cfg.info peerID port up' down' m'.downloaded).request event').left =
      ((View.mk cfg.info peerID port up down m.downloaded).request event).left - spoilt cfg es w := by
  have h1 := C47_history_partial es w hm hr h
  show cfg.info.length - m'.downloaded = cfg.info.length - m.downloaded - _
  omega

/-- The same: 4 bytes are missing and 2 bytes are announced as left. -/
example : (Storage.run Storage.Ex.single [(.put 0 0 [1, 2, 3, 9], []), (.reset 1, []), (.put 1 0 [5, 6], [])]
      (Storage.run Storage.Ex.single [(.start, [])] World.empty)).mem.map
      (fun m => (m.bitfield, ((View.mk Storage.Ex.single.info [] 1 0 0 m.downloaded).request []).left)) = some ([64], 2) := by kernel_rfl

end Drip.Multi
