import Verif.Lemmas.P2PWhole
import Verif.Props.P2PFlags
import Verif.Props.P2PQueue
import Verif.Props.P2PSafe
import Verif.Props.P2PStorage
/-
A client that has the whole torrent is a seeder (C124).
-/

namespace Drip.P2P
open PeerWire Metainfo
open Storage (Fate World Mem Usable Reported TorrentResult)

variable {cfg : Cfg} {r : Ref}

theorem coalesced_of (hu : Usable cfg.store) (es0 : List (Storage.Event × List Fate)) (es : List (Event × Luck)) {m : Mem}
    (hm : (run cfg (init (Storage.run cfg.store es0 World.empty)) es).storage.mem = some m) (hd : TorrentResult m none) : m.coalesced = true := by
  obtain ⟨es', hs⟩ := storage_run (cfg := cfg) es0 es
  have h := (Storage.reach hu es' (m := m) (by rw [← hs]; exact hm)).2.errFut
  simp only at h
  unfold TorrentResult at hd
  rw [hd] at h
  cases hc : m.coalesced with
  | true => rfl
  | false => rw [hc] at h; cases h

/-- C124, the files: whatever happens, a client that has the whole torrent, because it had it when it was started or because it has downloaded it, does not touch its files. -/
theorem C124_files (hu : Usable cfg.store) (es0 : List (Storage.Event × List Fate)) (es1 : List (Event × Luck)) {m1 : Mem}
    (hm1 : (run cfg (init (Storage.run cfg.store es0 World.empty)) es1).storage.mem = some m1) (hd : TorrentResult m1 none) (es : List (Event × Luck)) :
    (run cfg (run cfg (init (Storage.run cfg.store es0 World.empty)) es1) es).storage.fs = (run cfg (init (Storage.run cfg.store es0 World.empty)) es1).storage.fs :=
  (kept_run _ es1 hm1 (coalesced_of hu es0 es1 hm1 hd) es).1

/-- C124, the process: a client that has the whole torrent and that is not downloading stays alive if what peers send is about pieces and blocks that exist and the process is not killed, whatever
fails and in whatever order things happen. -/
theorem C124_alive (hu : Usable cfg.store) (hf : FilesOK cfg.store.info) (es0 : List (Storage.Event × List Fate)) (hw : (Storage.run cfg.store es0 World.empty).mem ≠ none) (es1 : List (Event × Luck))
    (hde1 : ∀ e ∈ es1, Decent cfg e) (hal1 : (run cfg (init (Storage.run cfg.store es0 World.empty)) es1).alive = true) {m1 : Mem}
    (hm1 : (run cfg (init (Storage.run cfg.store es0 World.empty)) es1).storage.mem = some m1) (hd : TorrentResult m1 none)
    (hj : ∀ j ∈ (run cfg (init (Storage.run cfg.store es0 World.empty)) es1).jobs, j.stage = .handed) (es : List (Event × Luck)) (hde : ∀ e ∈ es, Decent cfg e) :
    (run cfg (run cfg (init (Storage.run cfg.store es0 World.empty)) es1) es).alive = true := by
  cases hm : (Storage.run cfg.store es0 World.empty).mem with
  | none => exact absurd hm hw
  | some m0 =>
  have hco := coalesced_of hu es0 es1 hm1 hd
  have hs1 := safe_survives (cfg := cfg) hm (Storage.reach hu es0 hm) es1 hde1 hal1
  refine (run_rec (cfg := cfg) (P := fun es s => (∀ e ∈ es, Decent cfg e) → Safe cfg True s) _ (fun _ => hs1) (fun es e ih hde => ?_) es hde).alive
  have hs := ih fun x hx => hde x (by simp [hx])
  have hwh := (whole_run hu hf es0 es1 hm1 hco hj es hs.alive).1
  have hi := inv_run (cfg := cfg) (Storage.run cfg.store es0 World.empty) (es1 ++ es)
  have hst := store_run' (cfg := cfg) hu hf es0 (es1 ++ es)
  rw [run_append] at hi hst
  refine hs.step hi (hde e (by simp)) fun k x i m he hk hm p hp => ?_
  have hlt : cfg.store.info.pieces.length ≤ i := by
    rcases hwh.jobs _ (List.mem_of_getElem? hk) with h | h
    · cases h
    · exact h.2
  obtain ⟨es', hes⟩ := hst.hist
  have hS := Storage.reach hu es' (m := m) (by rw [← hes]; exact hm)
  have := (List.getElem?_eq_some_iff.1 hp).1
  have hl := hS.2.len
  simp only at hl
  omega

/-- C124, what is said: on a connection that was made when the client had the whole torrent and was not downloading, on which no write has failed and only pieces that exist were announced, it
sends a BITFIELD with all the pieces, and after that only blocks and at most one UNCHOKE. -/
theorem C124_says (hu : Usable cfg.store) (hf : FilesOK cfg.store.info) (es0 : List (Storage.Event × List Fate)) (es1 : List (Event × Luck)) {m1 : Mem}
    (hm1 : (run cfg (init (Storage.run cfg.store es0 World.empty)) es1).storage.mem = some m1) (hd : TorrentResult m1 none)
    (hj : ∀ j ∈ (run cfg (init (Storage.run cfg.store es0 World.empty)) es1).jobs, j.stage = .handed) (hr : (run cfg (init (Storage.run cfg.store es0 World.empty)) es1).peers.length ≤ r)
    (es : List (Event × Luck)) (hal : (run cfg (run cfg (init (Storage.run cfg.store es0 World.empty)) es1) es).alive = true) (hok : ∀ e ∈ es, e.2.ok r = true) {c : Conn}
    (hc : (run cfg (run cfg (init (Storage.run cfg.store es0 World.empty)) es1) es).peers[r]? = some c) (hp : ∃ p, c.phase = .serving p) (ho : c.closed = false)
    (ha : ∀ m ∈ c.received, ∀ i, Announces m i → i < cfg.store.info.pieces.length) :
    ∃ b rest, c.sent = bitfieldMsg b :: rest ∧ Spec.AllBits cfg.store.info.pieces.length b ∧ (∀ m ∈ rest, m.typ = UNCHOKE ∨ m.typ = PIECE) ∧
      (rest.filter fun m => m.typ = UNCHOKE).length ≤ 1 := by
  have hco := coalesced_of hu es0 es1 hm1 hd
  have hsend := (whole_run hu hf es0 es1 hm1 hco hj es hal).2
  have hnone : (run cfg (init (Storage.run cfg.store es0 World.empty)) es1).peers[r]? = none := List.getElem?_eq_none hr
  have hst := (flags_from (cfg := cfg) (good := (· = r)) (fun x c hx h => by rw [hx, hnone] at h; cases h) es (fun e he x hx => by subst hx; exact hok e he) r c rfl hc ho).inStep
  obtain ⟨b, rest, hsent, hno⟩ := C85_first_partial hu hf es0 (es1 ++ es) (c := c) (r := r) (by rw [run_append]; exact hc) (.inl hp)
  have hint : ∀ m ∈ c.sent, m.typ ≠ INTERESTED := by
    refine run_rec (cfg := cfg) (P := fun es' s => s.alive = true → ∀ c : Conn, s.peers[r]? = some c → (∀ m ∈ c.received, ∀ i, Announces m i → i < cfg.store.info.pieces.length) → ∀ m ∈ c.sent, m.typ ≠ INTERESTED)
      (run cfg (init (Storage.run cfg.store es0 World.empty)) es1) (fun _ c hc => by rw [hnone] at hc; cases hc) (fun es e ih hal c' hc' ha m hm hty => ?_) es hal c hc ha
    have hi := inv_run (cfg := cfg) (Storage.run cfg.store es0 World.empty) (es1 ++ es)
    have honly := @C95_only cfg (Storage.run cfg.store es0 World.empty) (es1 ++ es) e.1 e.2 r
    have hpend := hist_run (cfg := cfg) (Storage.run cfg.store es0 World.empty) (es1 ++ es) r
    obtain ⟨es', hes⟩ := (store_run' (cfg := cfg) hu hf es0 (es1 ++ es)).hist
    simp only [run_append] at hi honly hpend hes
    have hwr := whole_run hu hf es0 es1 hm1 hco hj es
    generalize run cfg (run cfg (init (Storage.run cfg.store es0 World.empty)) es1) es = s at *
    have hal' : s.alive = true := by
      cases h : s.alive with
      | true => rfl
      | false => rw [alive_step _ h, h] at hal; cases hal
    cases hc : s.peers[r]? with
    | none => rw [(fresh_step hi hal' e hc hc').2.2.1] at hm; cases hm
    | some c =>
      obtain ⟨d, h1, hg⟩ := (step_small (cfg := cfg) e hi.pendOK).grows hc
      rw [hc'] at h1; cases h1
      obtain ⟨ms, hms⟩ := hg.received
      have hold := ih hal' c hc (fun m hm => ha m (by rw [hms]; exact List.mem_append_left _ hm))
      obtain ⟨d, h1, ms', hs', _⟩ := (step_small (cfg := cfg) e hi.pendOK).said hc
      rw [hc'] at h1; cases h1
      rw [hs'] at hm
      rcases List.mem_append.1 hm with hm | hm
      · exact hold m hm hty
      · obtain ⟨m2, hm2, hco2⟩ := (hwr hal').1.mem
        obtain ⟨_, a, i, hph, han, hnr⟩ := honly hc hc' hm2 hs' ⟨m, hm, hty⟩
        have hin : a ∈ c.received := List.mem_of_getLast? ((hpend c hc).pending a hph)
        have hlt := ha a (by rw [hms]; exact List.mem_append_left _ hin) i han
        have hS := Storage.reach hu es' (m := m2) (by rw [← hes]; exact hm2)
        refine hnr ((Storage.reported_iff hS).2 ?_)
        have hlt' : i < m2.pieces.length := by have := hS.2.len; simp only at this; omega
        exact ⟨m2.pieces[i], List.getElem?_eq_getElem hlt', (hS.2.all hco2).2 _ (List.getElem_mem hlt')⟩
  have hnot : ∀ m ∈ c.sent, m.typ ≠ NOT_INTERESTED := by
    intro m hm hty
    have hal := hst.interests
    generalize hl : (c.sent.map (·.typ)).filter (fun t => t = INTERESTED ∨ t = NOT_INTERESTED) = l at hal
    have hmem : NOT_INTERESTED ∈ l := by rw [← hl, List.mem_filter]; exact ⟨hty ▸ List.mem_map_of_mem hm, by simp⟩
    cases l with
    | nil => cases hmem
    | cons t ts =>
      have ht := hal.1
      have : INTERESTED ∈ (c.sent.map (·.typ)).filter (fun t => t = INTERESTED ∨ t = NOT_INTERESTED) := by rw [hl, ← ht]; exact List.mem_cons_self ..
      obtain ⟨m', h1, h2⟩ := List.mem_map.1 (List.mem_filter.1 this).1
      exact hint m' h1 h2
  have hrest : ∀ m ∈ rest, m.typ = UNCHOKE ∨ m.typ = PIECE := by
    intro m hm
    have hm' : m ∈ c.sent := by rw [hsent]; exact List.mem_cons_of_mem _ hm
    rcases hsend.only r c m hr hc hm' with h | h | h | h | h
    · exact absurd h (hno m hm)
    · exact .inl h
    · exact .inr h
    · exact absurd h (hint m hm')
    · exact absurd h (hnot m hm')
  refine ⟨b, rest, hsent, hsend.bits r c _ hr hc (by rw [hsent]; exact List.mem_cons_self ..) rfl, hrest, ?_⟩
  have hal := hst.chokes
  have hsame : (c.sent.map (·.typ)).filter (fun t => t = CHOKE ∨ t = UNCHOKE) = (rest.filter fun m => m.typ = UNCHOKE).map (·.typ) := by
    rw [hsent, List.map_cons, List.filter_cons_of_neg (by show ¬ _; simp only [decide_eq_true_eq]; show ¬ (BITFIELD = CHOKE ∨ BITFIELD = UNCHOKE); decide), List.filter_map]
    congr 1
    refine List.filter_congr fun m hm => ?_
    rcases hrest m hm with h | h <;> simp only [Function.comp, h] <;> decide
  rw [hsame] at hal
  cases hl : rest.filter fun m => m.typ = UNCHOKE with
  | nil => simp
  | cons x xs =>
    cases xs with
    | nil => simp
    | cons y ys =>
      rw [hl] at hal
      have h2 := hal.2.1
      have hy : y.typ = UNCHOKE := by
        have : y ∈ rest.filter fun m => m.typ = UNCHOKE := by rw [hl]; simp
        simpa using (List.mem_filter.1 this).2
      simp only at h2
      rw [hy] at h2; cases h2

/-- C124, what is given: when a REQUEST for a part of a piece is handled, to which no CANCEL applies, by a client that has the whole torrent and has unchoked the peer, then – if the
files can be read and the connection works – the peer is sent the part of the piece that it asked for, and nothing else happens but that the bytes are counted. -/
theorem C124_answers (hu : Usable cfg.store) (hf : FilesOK cfg.store.info) (hpl : 0 ≤ cfg.store.info.pieceLength) (es0 : List (Storage.Event × List Fate)) (es : List (Event × Luck))
    {m1 : Mem} (hm1 : (run cfg (init (Storage.run cfg.store es0 World.empty)) es).storage.mem = some m1) (hd : TorrentResult m1 none)
    (hal : (run cfg (init (Storage.run cfg.store es0 World.empty)) es).alive = true) {c : Conn} {m : Message} {i b n : Nat}
    (hc : (run cfg (init (Storage.run cfg.store es0 World.empty)) es).peers[r]? = some c) (hp : c.phase = .serving (some m)) (hm : m = request i b n)
    (hi : i < cfg.store.info.pieces.length) (hfit : ((b + n : Nat) : Int) ≤ cfg.store.info.getPieceLength i) (hcu : c.choked = false) (ho : c.closed = false)
    (hcan : ⟨m.index, m.begin, m.length⟩ ∉ waitingCancels (handled c)) {l : Luck} (hok : l.ok r = true) (hfa : ∀ f ∈ l.fates, f = .ok) :
    ∃ ds d, Spec.Contents cfg.store.sha1 cfg.store.info ds ∧ ds[i]? = some d ∧
      step cfg (run cfg (init (Storage.run cfg.store es0 World.empty)) es) (.handle r, l) =
        { run cfg (init (Storage.run cfg.store es0 World.empty)) es with
          peers := (run cfg (init (Storage.run cfg.store es0 World.empty)) es).peers.set r
            { c with phase := .serving none, sent := c.sent ++ [pieceMsg i b ((d.drop b).take n)], uploaded := c.uploaded + n }
          uploaded := (run cfg (init (Storage.run cfg.store es0 World.empty)) es).uploaded + n } := by
  have hc1 := coalesced_of hu es0 es hm1 hd
  obtain ⟨es', hes⟩ := (store_run' (cfg := cfg) hu hf es0 es).hist
  rw [← (hist_run (cfg := cfg) _ es r c hc).cancels (by rw [hp]; simp) (by rw [hp]; simp) (by rw [hp]; simp)] at hcan
  generalize run cfg (init (Storage.run cfg.store es0 World.empty)) es = s at *
  obtain ⟨ds, d, h1, h2, h3⟩ := Storage.getBlock_whole hu es' (m := m1) (by rw [← hes]; exact hm1) hc1 (fun h => ⟨(hf h).1, (hf h).2.1⟩) hpl hi hfit l.fates hfa
  refine ⟨ds, d, h1, h2, ?_⟩
  rw [← hes] at h3
  subst hm
  have hlen : (Spec.slice d b n).length = n := by
    have := (h1.2 i d h2).2
    unfold Spec.slice
    rw [List.length_take, List.length_drop]; omega
  rw [handle_request hal hc hp rfl hcu hcan ho hok h3, hlen]
  simp only [Conn.gave, hlen]
  rfl

/-- A peer without pieces, which asks for a block. -/
def Ex.served : List Event := Ex.joins 0 1 (Ex.id' 2) ++ Ex.gets 0 (bitfieldMsg [64]) ++ Ex.gets 0 PeerWire.interested ++ [.unchoke 0] ++ Ex.gets 0 (request 0 1 2) ++ [.select 0]

example : (run Ex.cfg (init Ex.everything) (Ex.fine Ex.served)).peers.map (fun c => (c.sent, c.phase)) =
    [([bitfieldMsg [192], PeerWire.unchoke, pieceMsg 0 1 [2, 3]], .serving none)] := by kernel_rfl
example : Ex.everything.mem.map (fun m => m.futs[m.err]?) = some (some (some none)) := by kernel_rfl
/-- Spare bits of a BITFIELD are taken for pieces: the client is interested, and dies when it begins to download one. -/
example : (run Ex.cfg (init Ex.everything) (Ex.fine (Ex.joins 0 1 (Ex.id' 2) ++ Ex.gets 0 (bitfieldMsg [255]) ++ Ex.gets 0 PeerWire.unchoke ++ [.select 0, .begin 0]))).alive = false := by kernel_rfl

/-- A client that has nothing downloads both pieces from one peer, and its downloads are over. -/
def Ex.got : List Event :=
  Ex.joins 0 1 (Ex.id' 2) ++ Ex.gets 0 (bitfieldMsg [192]) ++ Ex.gets 0 PeerWire.unchoke ++ [.select 0, .begin 0, .request 0 ⟨0, 0, 4⟩] ++ Ex.gets 0 (pieceMsg 0 0 [1, 2, 3, 4]) ++
    [.finish 0 .complete, .hand 0, .select 0, .begin 1, .request 1 ⟨1, 0, 2⟩] ++ Ex.gets 0 (pieceMsg 1 0 [5, 6]) ++ [.finish 1 .complete, .hand 1]

/-- The hypotheses of the theorems for it: it is alive, the torrent is complete, nothing is being downloaded and there is one connection. -/
example : (run Ex.cfg (init Ex.nothing) (Ex.fine Ex.got)).alive = true ∧
    (run Ex.cfg (init Ex.nothing) (Ex.fine Ex.got)).storage.mem.map (fun m => m.futs[m.err]?) = some (some (some none)) ∧
    ((run Ex.cfg (init Ex.nothing) (Ex.fine Ex.got)).jobs.all fun j => j.stage = .handed) = true ∧
    (run Ex.cfg (init Ex.nothing) (Ex.fine Ex.got)).peers.length = 1 := by refine ⟨?_, ?_, ?_, ?_⟩ <;> kernel_rfl
/-- Then it serves another peer. -/
example : (run Ex.cfg (run Ex.cfg (init Ex.nothing) (Ex.fine Ex.got)) (Ex.fine (Ex.joins 1 2 (Ex.id' 3) ++ Ex.gets 1 interested ++ [.unchoke 1] ++ Ex.gets 1 (request 0 1 2)))).peers[1]?.map
    (fun c => (c.sent, c.phase)) = some ([bitfieldMsg [192], PeerWire.unchoke, pieceMsg 0 1 [2, 3]], .serving none) := by kernel_rfl

end Drip.P2P
