import Verif.Props.P2PDownload
import Verif.Lemmas.P2PSeed
/-
A download that fails: C135 of /verif/properties.jsonl.
-/

namespace Drip.P2P
open PeerWire Metainfo
open Storage (Fate World)

variable {cfg : Cfg}

/-! ### C135

"When the request of a piece fails, because the peer does not answer in time or chokes us or the connection is gone, the piece can be requested from any other peer that has it, the peer is
put in line again, and nothing else changes: no connection is closed, no address is blocked, no data is lost." -/

theorem set_erase {α : Type} : ∀ (l : List α) (k : Nat) (x : α), (l.set k x).eraseIdx k = l.eraseIdx k
  | [], _, _ => rfl
  | _ :: _, 0, _ => rfl
  | a :: l, k + 1, x => congrArg (a :: ·) (set_erase l k x)

/-- The three things that a goroutine does after a failure (server.go:404, 411, 402): it says so, hands the peer over, and releases the piece. -/
def failure (k : Nat) (l : Luck) : List (Event × Luck) := [(.finish k .failed, l), (.hand k, l), (.clear k, l)]

theorem failure_run {s : State} {k i : Nat} {y : Ref} (ha : s.alive = true) (hq : s.requesting = true) (hk : s.jobs[k]? = some ⟨y, i, .running⟩) (l : Luck) :
    run cfg s (failure k l) = { s with toRequest := s.toRequest ++ [y], inflight := mdel s.inflight (i : Int), jobs := s.jobs.eraseIdx k } := by
  have hlt := (List.getElem?_eq_some_iff.1 hk).1
  have h1 : step cfg s (.finish k .failed, l) = { s with jobs := s.jobs.set k ⟨y, i, .over⟩ } := by
    refine step_of (o := .ok ()) ha ?_ (.inl rfl)
    simp only [act, hk, canReturn, if_true]
    rfl
  have h2 : step cfg { s with jobs := s.jobs.set k ⟨y, i, .over⟩ } (.hand k, l) = { s with toRequest := s.toRequest ++ [y], jobs := s.jobs.set k ⟨y, i, .handed⟩ } := by
    refine step_of (o := .ok ()) ha ?_ (.inl rfl)
    simp only [act, List.getElem?_set_self hlt, hq, Bool.true_eq_false, if_false, List.set_set]
  have h3 : step cfg { s with toRequest := s.toRequest ++ [y], jobs := s.jobs.set k ⟨y, i, .handed⟩ } (.clear k, l) =
      { s with toRequest := s.toRequest ++ [y], inflight := mdel s.inflight (i : Int), jobs := s.jobs.eraseIdx k } := by
    refine step_of (o := .ok ()) ha ?_ (.inl rfl)
    simp only [act, List.getElem?_set_self hlt, set_erase]
  unfold failure
  rw [run, h1, run, h2, run, h3, run]

/-- C135: in every history, whatever is happening, the download of a piece can fail (until the client is told to stop). Then the piece is not being downloaded any more, its peer is in line for
another one, the other downloads go on, and nothing else has changed: no connection, no data, no address. It does not matter whether somebody holds the lock of the server. -/
theorem C135_frees (w : World) (es : List (Event × Luck)) (l : Luck) {k i : Nat} {y : Ref} (ha : (run cfg (init w) es).alive = true) (hq : (run cfg (init w) es).requesting = true)
    (hk : (run cfg (init w) es).jobs[k]? = some ⟨y, i, .running⟩) :
    (∀ j ∈ (run cfg (run cfg (init w) es) (failure k l)).jobs, j.index ≠ i) ∧
    (run cfg (run cfg (init w) es) (failure k l)).jobs = (run cfg (init w) es).jobs.eraseIdx k ∧
    (run cfg (run cfg (init w) es) (failure k l)).toRequest = (run cfg (init w) es).toRequest ++ [y] ∧
    (run cfg (run cfg (init w) es) (failure k l)).peers = (run cfg (init w) es).peers ∧
    (run cfg (run cfg (init w) es) (failure k l)).activePeers = (run cfg (init w) es).activePeers ∧
    (run cfg (run cfg (init w) es) (failure k l)).storage = (run cfg (init w) es).storage ∧
    (run cfg (run cfg (init w) es) (failure k l)).blockedPeers = (run cfg (init w) es).blockedPeers ∧
    (run cfg (run cfg (init w) es) (failure k l)).alive = true := by
  have hj := jobs_run (cfg := cfg) w es
  rw [failure_run ha hq hk]
  generalize run cfg (init w) es = s at *
  refine ⟨fun j hm he => ?_, rfl, rfl, rfl, rfl, rfl, rfl, ha⟩
  obtain ⟨n, hn⟩ := List.getElem?_of_mem hm
  have hn : (s.jobs.eraseIdx k)[n]? = some j := hn
  rw [List.getElem?_eraseIdx] at hn
  have hnd := hj.nodup
  have key : ∀ m, s.jobs[m]? = some j → m = k := by
    intro m hm'
    have e1 : (s.jobs.map Job.index)[m]? = some i := by rw [List.getElem?_map, hm']; exact congrArg some he
    have e2 : (s.jobs.map Job.index)[k]? = some i := by rw [List.getElem?_map, hk]; rfl
    obtain ⟨p1, q1⟩ := List.getElem?_eq_some_iff.1 e1
    obtain ⟨p2, q2⟩ := List.getElem?_eq_some_iff.1 e2
    exact (List.getElem_inj hnd).1 (q1.trans q2.symm)
  split at hn
  · have := key _ hn; omega
  · have := key _ hn; omega

/-- C135: after the failure, any peer in line (also another one) that has announced the piece, does not choke us and is still connected gets asked for a piece, if the lock of the server is free;
and for this one, if the others that it has announced are already here or being downloaded. -/
theorem C135_again (w : World) (es : List (Event × Luck)) (l l' : Luck) {k i n : Nat} {y r : Ref} {c : Conn} {m : Storage.Mem} (ha : (run cfg (init w) es).alive = true)
    (hq : (run cfg (init w) es).requesting = true) (hk : (run cfg (init w) es).jobs[k]? = some ⟨y, i, .running⟩)
    (hl : (run cfg (init w) es).locked = false) (hr : (run cfg (init w) es).toRequest[n]? = some r) (hm : (run cfg (init w) es).storage.mem = some m)
    (hc : (run cfg (init w) es).peers[r]? = some c) (hs : ∃ p, c.phase = .serving p) (hcl : c.closed = false) (hch : c.remoteChoked = false)
    (hhas : ∃ a ∈ handled c, Announces a i) (hours : Bitfield.bit m.bitfield i = false) :
    ∃ i', (run cfg (run cfg (init w) es) (failure k l ++ [(.select n, l')])).jobs = (run cfg (init w) es).jobs.eraseIdx k ++ [⟨r, i', .fresh⟩] ∧
      ((∀ a ∈ c.received, ∀ i'', Announces a i'' → Bitfield.bit m.bitfield i'' = true ∨ ∃ j ∈ (run cfg (init w) es).jobs, j.index = i'') → i' = i) := by
  obtain ⟨h1, h2, h3, h4, h5, h6, h7, h8⟩ := C135_frees (cfg := cfg) w es l ha hq hk
  have hl' : (run cfg (run cfg (init w) es) (failure k l)).locked = false := by rw [failure_run ha hq hk]; exact hl
  have hr' : (run cfg (run cfg (init w) es) (failure k l)).toRequest[n]? = some r := by
    rw [h3, List.getElem?_append_left (List.getElem?_eq_some_iff.1 hr).1]; exact hr
  rw [run_append]
  have hrun : run cfg (run cfg (init w) es) (failure k l) = run cfg (init w) (es ++ failure k l) := (run_append ..).symm
  rw [hrun] at h1 h2 h3 h4 h5 h6 h7 h8 hl' hr' ⊢
  rw [← h6] at hm
  rw [← h4] at hc
  obtain ⟨i', hi'⟩ := C70_complete w (es ++ failure k l) l' n h8 hl' hr' hm hc hs hcl hch hhas hours h1
  refine ⟨i', by rw [← h2]; exact hi', fun hall => ?_⟩
  rcases C70_sound w (es ++ failure k l) l' n hr' hm with h | ⟨c', i2, hi2, hc', _, _, ⟨a, ha1, ha2⟩, hb, hf⟩
  · rw [h] at hi'
    have := congrArg List.length hi'
    simp at this
  · rw [hi'] at hi2
    have e := List.append_cancel_left hi2
    injection e with e _
    injection e with _ e _
    subst e
    rw [hc] at hc'
    injection hc' with hc'
    subst hc'
    rcases hall a ha1 i' ha2 with h | ⟨j, hj, he⟩
    · rw [hb] at h; cases h
    · obtain ⟨q, hq'⟩ := List.getElem?_of_mem hj
      by_cases hqk : q = k
      · subst hqk
        rw [hk] at hq'
        injection hq' with hq'
        subst hq'
        exact he.symm
      · exfalso
        refine hf j ?_ he
        rw [h2]
        by_cases h : q < k
        · exact List.mem_of_getElem? (i := q) (by rw [List.getElem?_eraseIdx, if_pos h, hq'])
        · exact List.mem_of_getElem? (i := q - 1) (by rw [List.getElem?_eraseIdx, if_neg (by omega), show q - 1 + 1 = q by omega, hq'])

/-- Two peers have the second piece; the first one is asked for it and does not answer. -/
def Ex.speechless : List Event :=
  Ex.joins 0 1 (Ex.id' 2) ++ Ex.gets 0 (bitfieldMsg [64]) ++ Ex.gets 0 PeerWire.unchoke ++ [.select 0, .begin 0, .request 0 ⟨1, 0, 2⟩] ++ Ex.joins 1 2 (Ex.id' 3) ++ Ex.gets 1 (bitfieldMsg [64]) ++
    Ex.gets 1 PeerWire.unchoke

/-- Then the second one is asked for it. -/
example : (run Ex.cfg (init Ex.nothing) (Ex.fine Ex.speechless)).jobs = [⟨0, 1, .running⟩] ∧ (run Ex.cfg (init Ex.nothing) (Ex.fine Ex.speechless)).toRequest = [1] ∧
    (run Ex.cfg (init Ex.nothing) (Ex.fine Ex.speechless)).locked = false ∧
    (run Ex.cfg (run Ex.cfg (init Ex.nothing) (Ex.fine Ex.speechless)) (failure 0 { fates := [] } ++ Ex.fine [.select 0])).jobs = [⟨1, 1, .fresh⟩] ∧
    (run Ex.cfg (run Ex.cfg (init Ex.nothing) (Ex.fine Ex.speechless)) (failure 0 { fates := [] } ++ Ex.fine [.select 0])).toRequest = [0] := ⟨by kernel_rfl, by kernel_rfl, by kernel_rfl, by kernel_rfl, by kernel_rfl⟩

end Drip.P2P
