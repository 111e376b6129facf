import Verif.Lemmas.P2PSeedEnd
import Verif.Lemmas.P2PExample
import Verif.Props.Storage
/-
C109: downloading from seeders.
-/

namespace Drip.P2P
open PeerWire Metainfo Spec
open Storage (Fate World Mem FS Original Holds TorrentResult PieceResult Reported)

variable {cfg : Cfg} {X : List Bytes} {s : State}

/-- C109. `X` is the content of the torrent, piece by piece. All connections are with seeders (`Seeded`): nothing has gone wrong, i.e. the process is alive, no
lock is held, no connection has been closed, and the target is not there or holds the content. -/
theorem C109_unharmed (hO : Original cfg.store X) (h20 : cfg.store.info.sha1.length = 20) (h : Seeded cfg X s) :
    s.alive = true ∧ s.locked = false ∧ (∀ c ∈ s.peers, c.closed = false) ∧ ∀ t, s.storage.fs.target = some t → Holds cfg.store.info X.flatten t := by
  obtain ⟨⟨fs, m, hs⟩, hl⟩ := seeded_seeding hO h20 h
  refine ⟨hs.alive, hl, ?_, ?_⟩
  · intro c hc
    obtain ⟨r, hr⟩ := List.getElem?_of_mem hc
    exact (hs.conns r c hr).open_
  · intro t ht
    rw [hs.storage] at ht
    have htt : fs.target = if m.coalesced then some (Storage.finished cfg.store.info X.flatten) else none := hs.exact_.target
    have ht : fs.target = some t := ht
    rw [ht] at htt
    split at htt
    · injection htt with htt; rw [htt]; exact Storage.finished_holds _ _
    · cases htt

/-- When all pieces are complete, so is the torrent. -/
theorem finished_all (hO : Original cfg.store X) (h : Seeding cfg X s fs m) (h3 : ∀ i, i < X.length → Storage.Done m i) :
    ∃ m t, s.storage = ⟨⟨some t, none⟩, some m⟩ ∧ Holds cfg.store.info X.flatten t ∧ Storage.TorrentResult m none ∧
      ∀ i, i < cfg.store.info.pieces.length → Storage.Reported m i ∧ Storage.PieceResult m i none := by
  have hlen : m.pieces.length = cfg.store.info.pieces.length := h.inv.2.len
  have hX : X.length = cfg.store.info.pieces.length := hO.contents.1
  have hc : m.coalesced = true := by
    cases hc : m.coalesced with
    | true => rfl
    | false =>
      obtain ⟨p, hp, hpc⟩ := h.exact_.unfinished hc
      obtain ⟨i, hi⟩ := List.getElem?_of_mem hp
      have hi' : i < m.pieces.length := (List.getElem?_eq_some_iff.mp hi).1
      obtain ⟨q, hq, hqc⟩ := h3 i (by omega)
      have hi : m.pieces[i]? = some p := hi
      rw [hi] at hq; cases hq
      rw [hpc] at hqc; cases hqc
  have ht : fs.target = some (Storage.finished cfg.store.info X.flatten) := by
    have ht : fs.target = if m.coalesced then some (Storage.finished cfg.store.info X.flatten) else none := h.exact_.target
    rw [hc] at ht; exact ht
  have hw : fs.work = none := h.exact_.gone hc
  refine ⟨m, Storage.finished cfg.store.info X.flatten, ?_, Storage.finished_holds _ _, ?_, ?_⟩
  · rw [h.storage]
    cases fs
    simp_all
  · have he : m.futs[m.err]? = some (if m.coalesced then some none else none) := h.inv.2.errFut
    rw [hc] at he; exact he
  · intro i hi
    have : Storage.Complete m i := h3 i (by omega)
    exact ⟨(Storage.reported_iff h.inv).mpr this, (Storage.pieceResult_nil_iff h.inv).mpr this⟩

/-- C109. Wherever such a download is, it can be completed, with at least one seeder. -/
theorem C109_completes (hO : Original cfg.store X) (h20 : cfg.store.info.sha1.length = 20) (hn : X.length ≤ 2 ^ 32) (hsz : ∀ x ∈ X, x.length + 9 < 2 ^ 32)
    (h : Seeded cfg X s) (hp : s.peers ≠ []) :
    ∃ es, HonestRun cfg X s es ∧ ∃ m t, (run cfg s es).storage = ⟨⟨some t, none⟩, some m⟩ ∧ Holds cfg.store.info X.flatten t ∧ TorrentResult m none ∧
      ∀ i, i < cfg.store.info.pieces.length → Reported m i ∧ PieceResult m i none := by
  obtain ⟨⟨fs, m, hs⟩, hl⟩ := seeded_seeding hO h20 h
  obtain ⟨es, h1, fs', m', h2, _, h3⟩ := completes hO hn hsz _ hs hl hp (Nat.le_refl _)
  exact ⟨es, h1, finished_all hO h2 h3⟩

/-! The hypotheses are met: the torrent of `Ex.cfg`, and a seeder that joins. -/

theorem Ex.content : Original Ex.cfg.store [[1, 2, 3, 4], [5, 6]] := by
  refine ⟨⟨rfl, ?_⟩, by decide, by decide, by decide, by decide, by decide⟩
  intro i d hd
  match i, hd with
  | 0, hd => cases hd; exact ⟨rfl, by decide⟩
  | 1, hd => cases hd; exact ⟨rfl, by decide⟩

/-- A client without anything. -/
def Ex.new : State := init (Storage.run Ex.cfg.store [(.start, []), (.load, [])] ⟨⟨none, none⟩, none⟩)

/-- It is joined by a seeder. -/
def Ex.joined : State := run Ex.cfg Ex.new (([.accept (Ex.ip 2) 5000, .check 0, .handshake 0 (Ex.shake (Ex.id' 2)), .register 0,
  .receive 0 (Ex.says (bitfieldMsg [192])), .handle 0, .receive 0 (Ex.says PeerWire.unchoke), .handle 0] : List Event).map fun e => (e, {}))

theorem Ex.joined_seeded : Seeded Ex.cfg [[1, 2, 3, 4], [5, 6]] Ex.joined := by
  refine Seeded.join Seeded.start ⟨Ex.ip 2, Ex.id' 2, [192], 5000, _, _, _, _, {}, .inl ⟨rfl, by decide⟩, by decide, by decide, by decide, (fun c hc => by cases hc),
    ⟨by decide, [], by kernel_rfl⟩, ⟨by show 1 + 1 < 2 ^ 32; decide, [], by kernel_rfl⟩, ⟨rfl, ?_⟩, ⟨trivial, [], by kernel_rfl⟩, rfl, (fun f hf => by cases hf), rfl⟩
  intro i
  match i with
  | 0 => rfl
  | 1 => rfl
  | 2 => rfl
  | 3 => rfl
  | 4 => rfl
  | 5 => rfl
  | 6 => rfl
  | 7 => rfl
  | i + 8 =>
    have : (i + 8) / 8 = i / 8 + 1 := by omega
    rw [this]
    simp

example : Ex.joined.peers ≠ [] ∧ Ex.cfg.store.info.sha1.length = 20 ∧ (∀ x ∈ ([[1, 2, 3, 4], [5, 6]] : List Bytes), x.length + 9 < 2 ^ 32) :=
  ⟨by rw [ne_eq, ← List.length_eq_zero_iff, show Ex.joined.peers.length = 1 by kernel_rfl]; decide, by decide, by decide⟩

/-- One way to complete it: the seeder is asked for both pieces, one after the other. -/
example : (run Ex.cfg Ex.joined (Ex.fine [.select 0, .begin 0, .request 0 ⟨0, 0, 4⟩, .receive 0 (Ex.says (pieceMsg 0 0 [1, 2, 3, 4])), .handle 0, .finish 0 .complete, .hand 0,
    .select 0, .begin 1, .request 1 ⟨1, 0, 2⟩, .receive 0 (Ex.says (pieceMsg 1 0 [5, 6])), .handle 0])).storage.fs = ⟨some (.file [1, 2, 3, 4, 5, 6]), none⟩ := by kernel_rfl

end Drip.P2P
