import Verif.Lemmas.P2PExchangeFair
import Verif.Lemmas.P2PQuiet
import Verif.Props.P2PFair
/-
Property C125: a download from other clients of the same kind is completed.
-/

namespace Drip.P2P
open PeerWire Metainfo Spec
open Storage (Fate World Mem FS Usable Original PieceResult TorrentResult Reported)

variable {cfg : Cfg} {X : List Bytes} {S : Nat → Seeder} {σ : Nat → State} {ev : Nat → Option (Event × Luck)}

/-- C125, what is exchanged: clients that have the whole torrent behave towards a client that downloads as seeders should. Everything that it reads is what it asked for, and nothing
that it reads or writes kills a process or breaks a connection. -/
theorem C125_seeders (hu : Usable cfg.store) (hf : FilesOK cfg.store.info) (hpl : 0 ≤ cfg.store.info.pieceLength) (hX : ∀ ds, Contents cfg.store.sha1 cfg.store.info ds → ds = X)
    (hO : Original cfg.store X) (h20 : cfg.store.info.sha1.length = 20) (h : Exchange cfg S σ ev) :
    Execution cfg X σ ev ∧ ∀ n r c, (σ n).peers[r]? = some c → (σ n).alive = true ∧ c.closed = false ∧
      ((S r).at cfg.store n).alive = true ∧ ∃ d, ((S r).at cfg.store n).peers[(S r).conn]? = some d ∧ d.closed = false ∧ (∃ p, d.phase = .serving p) ∧
        d.received <+: c.sent ∧ c.received <+: d.sent := by
  refine ⟨execution hu hf hpl hX hO h20 h, fun n r c hc => ?_⟩
  have hB := between_all hu hf hpl hX hO h20 h n
  obtain ⟨fs, m, hs, _⟩ := seeded_all hO h20 hB.seeded
  obtain ⟨d, hL⟩ := hB.links r c hc
  have hW := hB.works r (List.getElem?_eq_some_iff.1 hc).1
  exact ⟨hs.alive, (hs.conns r c hc).open_, Seeder.alive hu hf hW hL.decent, d, hL.here, hL.serves.open_, hL.serves.serving, hL.heard, hL.read⟩

/-- C125. A client that has nothing, and that is connected with clients that have the whole torrent: whatever the order in which the goroutines of all of them run, and whatever else the
others do on their other connections, if nothing is neglected for ever and somebody joins at all, then from some moment on the content is in its place, the torrent is reported as
complete, and so is every piece. -/
theorem C125_completed (hu : Usable cfg.store) (hf : FilesOK cfg.store.info) (hpl : 0 ≤ cfg.store.info.pieceLength) (hX : ∀ ds, Contents cfg.store.sha1 cfg.store.info ds → ds = X)
    (hO : Original cfg.store X) (h20 : cfg.store.info.sha1.length = 20) (h : Exchange cfg S σ ev) (hfair : FairExchange cfg X S σ ev) (hp : ∃ n, (σ n).peers ≠ []) :
    ∃ n, ∀ k, n ≤ k → ∃ m t, (σ k).storage = ⟨⟨some t, none⟩, some m⟩ ∧ Storage.Holds cfg.store.info X.flatten t ∧ TorrentResult m none ∧
      ∀ i, i < cfg.store.info.pieces.length → Reported m i ∧ PieceResult m i none :=
  C120_completed hO h20 (execution hu hf hpl hX hO h20 h) ⟨hfair.toDiligent, answers hu hf hpl hX hO h20 h hfair⟩ hp

/-- C126. A client that downloads from clients passes the torrent on: from some moment on it has the whole torrent in the sense in which the clients that it downloaded from have it, with all
its downloads over and nothing pending that could kill it, so that C124 and C125 hold for those that it is connected with later, whatever happens to it then. -/
theorem C126_passes (hu : Usable cfg.store) (hf : FilesOK cfg.store.info) (hpl : 0 ≤ cfg.store.info.pieceLength) (hX : ∀ ds, Contents cfg.store.sha1 cfg.store.info ds → ds = X)
    (hO : Original cfg.store X) (h20 : cfg.store.info.sha1.length = 20) (h : Exchange cfg S σ ev) (hfair : FairExchange cfg X S σ ev) (hp : ∃ n, (σ n).peers ≠ []) :
    ∃ n, ∀ k, n ≤ k → ∃ past, ∀ before ev' conn, (Seeder.mk cfg.peerID [(.start, []), (.load, [])] past before ev' conn).ready cfg.store = σ k ∧
      (Seeder.mk cfg.peerID [(.start, []), (.load, [])] past before ev' conn).Has cfg.store := by
  have hE := execution hu hf hpl hX hO h20 h
  have hF : Fair X σ ev := ⟨hfair.toDiligent, answers hu hf hpl hX hO h20 h hfair⟩
  exact quiet_all hO h20 hE hF hp

/-! The hypotheses are met: two clients, with the torrent of `Ex.cfg`. -/

/-- What the client that downloads does, after the connection has been made. -/
def Ex.getsRun : List (Event × Luck) := Ex.fine [.select 0, .begin 0, .request 0 ⟨0, 0, 4⟩, .takeAddr, .takeAddr, .takeAddr, .receive 0 (Ex.says (pieceMsg 0 0 [1, 2, 3, 4])), .handle 0,
  .finish 0 .complete, .hand 0, .select 0, .begin 1, .request 1 ⟨1, 0, 2⟩, .takeAddr, .takeAddr, .receive 0 (Ex.says (pieceMsg 1 0 [5, 6])), .handle 0, .finish 1 .complete, .hand 1,
  .select 0]

/-- What the other one does. -/
def Ex.givesRun : List (Event × Luck) := Ex.fine ([.takeAddr] ++ Ex.gets 0 (bitfieldMsg [0]) ++ Ex.gets 0 PeerWire.interested ++ Ex.gets 0 (request 0 0 4) ++ [.takeAddr, .takeAddr, .takeAddr] ++
  Ex.gets 0 (have_ 0) ++ [.takeAddr, .takeAddr] ++ Ex.gets 0 (request 1 0 2) ++ [.takeAddr, .takeAddr, .takeAddr] ++ Ex.gets 0 (have_ 1) ++ Ex.gets 0 PeerWire.notInterested)

def Ex.giver : Seeder where
  peerID := Ex.id' 2
  disk := [(.start, []), (.put 1 0 [5, 6], []), (.put 0 0 [1, 2, 3, 4], [])]
  past := []
  before := Ex.fine (Ex.joins 0 1 (Ex.id' 1) ++ [.unchoke 0])
  ev n := Ex.givesRun[n]?
  conn := 0

def Ex.getter : Nat → State
  | 0 => Ex.new
  | n + 1 => run Ex.cfg Ex.joined (Ex.getsRun.take n)

def Ex.getterEvent : Nat → Option (Event × Luck)
  | 0 => none
  | n + 1 => some (Ex.getsRun.getD n (.takeAddr, {}))

theorem Ex.giver_history (n : Nat) : Ex.giver.history n = Ex.giver.before ++ Ex.givesRun.take n := by
  induction n with
  | zero => simp [Seeder.history]
  | succ n ih =>
    show Ex.giver.history n ++ (Ex.givesRun[n]?).toList = _
    rw [ih, List.take_add_one, List.append_assoc]

theorem Ex.giver_end {n : Nat} (h : 23 ≤ n) : Ex.giver.at Ex.cfg.store n = Ex.giver.at Ex.cfg.store 23 := by
  unfold Seeder.at
  rw [Ex.giver_history, Ex.giver_history, List.take_of_length_le (by show 23 ≤ n; exact h), List.take_of_length_le (by show 23 ≤ 23; decide)]

theorem Ex.getter_end {n : Nat} (h : 21 ≤ n) : Ex.getter n = Ex.getter 21 := by
  obtain ⟨k, rfl⟩ : ∃ k, n = k + 1 := ⟨n - 1, by omega⟩
  show run _ _ _ = run _ _ _
  rw [List.take_of_length_le (by show 20 ≤ k; omega), List.take_of_length_le (by show 20 ≤ 20; decide)]

theorem Ex.fine_mem {es : List Event} {e : Event × Luck} (h : e ∈ Ex.fine es) : e.1 ∈ es ∧ e.2 = {} := by
  obtain ⟨x, hx, rfl⟩ := List.mem_map.1 h
  exact ⟨hx, rfl⟩

theorem Ex.giver_events {n : Nat} {e : Event × Luck} (h : Ex.giver.ev n = some e) : e.2 = {} ∧ (∀ x rd, e.1 = .receive x rd → x = 0) ∧ e.1 ≠ .fails 0 := by
  have hm : e ∈ Ex.givesRun := List.mem_of_getElem? h
  obtain ⟨h1, h2⟩ := Ex.fine_mem hm
  refine ⟨h2, ?_⟩
  have : ∀ ev ∈ ([.takeAddr] ++ Ex.gets 0 (bitfieldMsg [0]) ++ Ex.gets 0 PeerWire.interested ++ Ex.gets 0 (request 0 0 4) ++ [.takeAddr, .takeAddr, .takeAddr] ++
      Ex.gets 0 (have_ 0) ++ [.takeAddr, .takeAddr] ++ Ex.gets 0 (request 1 0 2) ++ [.takeAddr, .takeAddr, .takeAddr] ++ Ex.gets 0 (have_ 1) ++ Ex.gets 0 PeerWire.notInterested : List Event),
      (match ev with | .receive x _ => x == 0 | .fails _ => false | _ => true) = true := by
    rw [← List.all_eq_true]; rfl
  have := this e.1 h1
  refine ⟨fun x rd hx => ?_, fun hx => ?_⟩
  · rw [hx] at this; simpa using this
  · rw [hx] at this; cases this

theorem Ex.giver_works : Ex.giver.Works Ex.cfg.store Ex.getter 0 where
  whole := by
    refine ⟨by rw [← Option.isSome_iff_ne_none]; kernel_rfl, ?_⟩
    have : ((Storage.run Ex.cfg.store Ex.giver.disk World.empty).mem.any fun m => decide (m.futs[m.err]? = some (some none))) = true := by kernel_rfl
    obtain ⟨m, hm, h⟩ := any_some this
    have h : m.futs[m.err]? = some (some none) := of_decide_eq_true h
    exact ⟨m, hm, h⟩
  idle := ⟨rfl, fun j hj => by cases hj⟩
  past e he := by cases he
  later := Nat.le_refl _
  decent e he := by
    obtain ⟨h1, h2⟩ := Ex.fine_mem he
    refine ⟨fun r hr => (by rw [h2] at hr; cases hr), fun x rd hx => ?_⟩
    have : ∀ ev ∈ (Ex.joins 0 1 (Ex.id' 1) ++ [.unchoke 0] : List Event), (match ev with | .receive _ _ => false | _ => true) = true := by rw [← List.all_eq_true]; rfl
    have := this e.1 h1
    rw [hx] at this; cases this
  decent' n e he hn := by
    obtain ⟨h1, h2, _⟩ := Ex.giver_events he
    refine ⟨fun r hr => (by rw [h1] at hr; cases hr), fun x rd hx => ?_⟩
    rw [h2 x rd hx] at hx
    exact absurd hx (hn rd)
  powered n e he k hk := by rw [(Ex.giver_events he).1] at hk; cases hk
  up n := by
    have : ((List.range 24).all fun n => (fun s : State => !s.cancelled && s.requesting && !s.locked) (Ex.giver.at Ex.cfg.store n)) = true := by kernel_rfl
    have hn : Ex.giver.at Ex.cfg.store n = Ex.giver.at Ex.cfg.store (min n 23) := by
      by_cases h : n ≤ 23
      · rw [Nat.min_eq_left h]
      · rw [Nat.min_eq_right (by omega)]; exact Ex.giver_end (by omega)
    rw [hn]
    have := List.all_eq_true.mp this (min n 23) (List.mem_range.mpr (by omega))
    simpa [and_assoc] using this
  writes n e he := by
    rw [Ex.giver_history] at he
    rcases List.mem_append.1 he with he | he
    · rw [(Ex.fine_mem he).2]
    · rw [(Ex.fine_mem (List.mem_of_mem_take he)).2]
  reads n l he f hf := by
    have h1 : l = {} := (Ex.giver_events he).1
    rw [h1] at hf; cases hf
  holds n l he := (Ex.giver_events he).2.2 rfl
  hears n rd l he := by
    have key : ∀ (n : Nat) (w : Wire), ((Ex.giver.at Ex.cfg.store n).peers[0]?.any fun d => (Ex.getter n).peers[0]?.any fun c => decide (c.sent[d.received.length]? = some (ofWire w))) = true → Says rd w →
        ∃ d, (Ex.giver.at Ex.cfg.store n).peers[Ex.giver.conn]? = some d ∧ Carries (Ex.getter n) 0 d.received.length rd := by
      intro n w h1 h2
      obtain ⟨d, hd, h1⟩ := any_some h1
      obtain ⟨c, hc, h1⟩ := any_some h1
      exact ⟨d, hd, c, w, hc, of_decide_eq_true h1, h2⟩
    match n, he with
    | 1, he => cases he; exact key _ (.bitfield [0]) (by kernel_rfl) ⟨by show 1 + 1 < 2 ^ 32; decide, [], by kernel_rfl⟩
    | 3, he => cases he; exact key _ .interested (by kernel_rfl) ⟨trivial, [], by kernel_rfl⟩
    | 5, he => cases he; exact key _ (.request 0 0 4) (by kernel_rfl) ⟨by show _ ∧ _ ∧ _; decide, [], by kernel_rfl⟩
    | 10, he => cases he; exact key _ (.have_ 0) (by kernel_rfl) ⟨by show 0 < 2 ^ 32; decide, [], by kernel_rfl⟩
    | 14, he => cases he; exact key _ (.request 1 0 2) (by kernel_rfl) ⟨by show _ ∧ _ ∧ _; decide, [], by kernel_rfl⟩
    | 19, he => cases he; exact key _ (.have_ 1) (by kernel_rfl) ⟨by show 1 < 2 ^ 32; decide, [], by kernel_rfl⟩
    | 21, he => cases he; exact key _ .notInterested (by kernel_rfl) ⟨trivial, [], by kernel_rfl⟩
    | 0, he | 2, he | 4, he | 6, he | 7, he | 8, he | 9, he | 11, he | 12, he | 13, he | 15, he | 16, he | 17, he | 18, he | 20, he | 22, he => cases he
    | n + 23, he =>
      have : Ex.givesRun[n + 23]? = none := List.getElem?_eq_none (by show 23 ≤ n + 23; omega)
      have he : Ex.givesRun[n + 23]? = _ := he
      rw [this] at he; cases he

theorem Ex.getter_joined : Ex.getter 1 = Ex.joined := by
  show run Ex.cfg Ex.joined (List.take 0 Ex.getsRun) = Ex.joined
  rw [List.take_zero, run_nil]

theorem Ex.exchange : Exchange Ex.cfg (fun _ => Ex.giver) Ex.getter Ex.getterEvent where
  start := rfl
  seeders n he := by
    cases n with
    | zero => exact Ex.giver_works
    | succ n => cases he
  next n := by
    cases n with
    | zero =>
      show Meets Ex.cfg Ex.giver 0 Ex.new (Ex.getter 1)
      rw [Ex.getter_joined]
      have h0 : ((Ex.giver.at Ex.cfg.store 0).peers[0]?.any fun d => decide (d.phase = .serving none ∧ d.closed = false ∧ d.received = [] ∧ d.sent = [bitfieldMsg [192], PeerWire.unchoke])) = true := by kernel_rfl
      obtain ⟨d, hd, h0⟩ := any_some h0
      obtain ⟨h1, h2, h3, h4⟩ := of_decide_eq_true h0
      refine ⟨⟨d, none, hd, h1, h2, h3⟩, Ex.ip 2, 5000, _, _, _, _, {}, .inl ⟨rfl, by decide⟩, by decide, by decide, by decide, (fun c hc => by cases hc), ⟨by decide, [], by kernel_rfl⟩,
        ⟨d, .bitfield [192], hd, by rw [h4]; rfl, by show 1 + 1 < 2 ^ 32; decide, [], by kernel_rfl⟩, ⟨d, .unchoke, hd, by rw [h4]; rfl, trivial, [], by kernel_rfl⟩, rfl, (fun f hf => by cases hf), rfl⟩
    | succ n =>
      show Allowed Ex.cfg _ _ _ (Ex.getsRun.getD n (.takeAddr, {})) ∧ Ex.getter (n + 2) = step Ex.cfg (Ex.getter (n + 1)) (Ex.getsRun.getD n (.takeAddr, {}))
      by_cases hn : 20 ≤ n
      · rw [Ex.getter_end (show 21 ≤ n + 2 by omega), Ex.getter_end (show 21 ≤ n + 1 by omega), List.getD_eq_getElem?_getD, List.getElem?_eq_none (by show 20 ≤ n; exact hn)]
        exact ⟨⟨fun f hf => (by cases hf), trivial⟩, by kernel_rfl⟩
      · refine ⟨?_, ?_⟩
        · have hf : ∀ f ∈ ({} : Luck).fates, f = Fate.ok := fun f hf => by cases hf
          have hr : ∀ (n : Nat) (rd : Rd) (w : Wire), ((Ex.getter n).peers[0]?.any fun c => (Ex.giver.at Ex.cfg.store n).peers[0]?.any fun d => decide (d.sent[c.received.length]? = some (ofWire w))) = true →
              Says rd w → Allowed Ex.cfg (fun _ => Ex.giver) n (Ex.getter n) (.receive 0 rd, {}) := by
            intro n rd w h1 h2
            obtain ⟨c, hc, h1⟩ := any_some h1
            obtain ⟨d, hd, h1⟩ := any_some h1
            exact ⟨fun f hf => (by cases hf), c, hc, d, w, hd, of_decide_eq_true h1, h2⟩
          match n, hn with
          | 6, _ => exact hr _ _ (.piece 0 0 [1, 2, 3, 4]) (by kernel_rfl) ⟨by show _ ∧ _ ∧ 9 + 4 < 2 ^ 32; decide, [], by kernel_rfl⟩
          | 15, _ => exact hr _ _ (.piece 1 0 [5, 6]) (by kernel_rfl) ⟨by show _ ∧ _ ∧ 9 + 2 < 2 ^ 32; decide, [], by kernel_rfl⟩
          | 8, _ | 17, _ => exact ⟨hf, fun e => (by cases e)⟩
          | 0, _ | 1, _ | 2, _ | 3, _ | 4, _ | 5, _ | 7, _ | 9, _ | 10, _ | 11, _ | 12, _ | 13, _ | 14, _ | 16, _ | 18, _ | 19, _ => exact ⟨hf, trivial⟩
          | n + 20, hn => omega
        · have hl : n < Ex.getsRun.length := by show n < 20; omega
          show run _ _ _ = step _ (run _ _ _) _
          rw [List.take_add_one, List.getElem?_eq_getElem hl, run_append, List.getD_eq_getElem?_getD, List.getElem?_eq_getElem hl]
          rfl

theorem Ex.exchange_fair : FairExchange Ex.cfg [[1, 2, 3, 4], [5, 6]] (fun _ => Ex.giver) Ex.getter Ex.getterEvent := by
  have never : ∀ {P Q : Nat → Prop}, (∀ n, 23 ≤ n → ¬ P n) → Weakly P Q := fun h n hp => absurd (hp (n + 23) (by omega)) (h _ (by omega))
  have hjobs : ∀ n, 23 ≤ n → ∀ j ∈ (Ex.getter n).jobs, j.stage = .handed := by
    intro n hn
    rw [Ex.getter_end (by omega), show (Ex.getter 21).jobs = [⟨0, 0, .handed⟩, ⟨0, 1, .handed⟩] by kernel_rfl]
    decide
  have hB : ((Ex.getter 21).peers.all fun c => decide (c.phase = .serving none ∧ c.sent.length = 7 ∧ c.received.length = 4)) = true := by kernel_rfl
  have hA : ((Ex.giver.at Ex.cfg.store 23).peers.all fun c => decide (c.phase = .serving none ∧ c.sent.length = 4 ∧ c.received.length = 7)) = true := by kernel_rfl
  have hB' : ∀ n, 23 ≤ n → ∀ (r : Nat) (c : Conn), (Ex.getter n).peers[r]? = some c → c.phase = .serving none ∧ c.sent.length = 7 ∧ c.received.length = 4 := by
    intro n hn r c hc
    rw [Ex.getter_end (by omega)] at hc
    exact of_decide_eq_true (List.all_eq_true.mp hB c (List.mem_of_getElem? hc))
  have hA' : ∀ n, 23 ≤ n → ∀ (r : Nat) (c : Conn), (Ex.giver.at Ex.cfg.store n).peers[r]? = some c → c.phase = .serving none ∧ c.sent.length = 4 ∧ c.received.length = 7 := by
    intro n hn r c hc
    rw [Ex.giver_end hn] at hc
    exact of_decide_eq_true (List.all_eq_true.mp hA c (List.mem_of_getElem? hc))
  refine ⟨⟨fun r => never ?_, fun r => never ?_, fun r => never ?_, fun r i => never ?_, fun r i => never ?_, fun r i => never ?_, fun r i => never ?_⟩, fun r => never ?_, fun r => never ?_, fun r => never ?_⟩
  · rintro n hn ⟨c, msg, h1, h2⟩
    rw [(hB' n hn r c h1).1] at h2; cases h2
  · intro n hn h
    rw [Ex.getter_end (by omega), show (Ex.getter 21).toRequest = [] by kernel_rfl] at h
    cases h
  · intro n hn h
    rw [Ex.getter_end (by omega), show (Ex.getter 21).waiting = [] by kernel_rfl] at h
    cases h
  · intro n hn h; cases hjobs n hn _ h
  · intro n hn h; cases hjobs n hn _ h.1
  · intro n hn h; cases hjobs n hn _ h.1
  · intro n hn h; cases hjobs n hn _ h
  · rintro n hn ⟨c, d, h1, _, h2, h3⟩
    have := hB' n hn r c h1
    have := hA' n hn _ d h2
    omega
  · rintro n hn ⟨c, d, h1, h2, _, h3⟩
    have := hB' n hn r c h1
    have := hA' n hn _ d h2
    omega
  · rintro n hn ⟨d, msg, h1, h2⟩
    rw [(hA' n hn _ d h1).1] at h2; cases h2

theorem Ex.no_collision : ∀ ds, Contents Ex.cfg.store.sha1 Ex.cfg.store.info ds → ds = [[1, 2, 3, 4], [5, 6]] := by
  rintro ds ⟨h1, h2⟩
  match ds, h1 with
  | [a, b], _ =>
    have e1 := (h2 0 a rfl).1
    have e2 := (h2 1 b rfl).1
    injection e1 with e1
    injection e2 with e2
    rw [show a = [1, 2, 3, 4] from e1.symm, show b = [5, 6] from e2.symm]

example : Usable Ex.cfg.store ∧ FilesOK Ex.cfg.store.info ∧ 0 ≤ Ex.cfg.store.info.pieceLength ∧ (∀ ds, Contents Ex.cfg.store.sha1 Ex.cfg.store.info ds → ds = [[1, 2, 3, 4], [5, 6]]) ∧
    Original Ex.cfg.store [[1, 2, 3, 4], [5, 6]] ∧ Ex.cfg.store.info.sha1.length = 20 ∧ Exchange Ex.cfg (fun _ => Ex.giver) Ex.getter Ex.getterEvent ∧
    FairExchange Ex.cfg [[1, 2, 3, 4], [5, 6]] (fun _ => Ex.giver) Ex.getter Ex.getterEvent ∧ ∃ n, (Ex.getter n).peers ≠ [] :=
  ⟨⟨by decide, by decide⟩, fun h => absurd rfl h, by decide, Ex.no_collision, Ex.content, by decide, Ex.exchange, Ex.exchange_fair, 1,
    by rw [ne_eq, ← List.length_eq_zero_iff, show (Ex.getter 1).peers.length = 1 by kernel_rfl]; decide⟩

/-- When the second piece has arrived its download still has to be ended (job 0 is over and done with, job 1 is running); in the end both are, and the torrent is complete. -/
example : (Ex.getter 18).jobs.map (·.stage) = [.handed, .running] ∧ (Ex.getter 21).jobs.map (·.stage) = [.handed, .handed] ∧
    (Ex.getter 21).storage.mem.map (fun m => m.futs[m.err]?) = some (some (some none)) := by refine ⟨?_, ?_, ?_⟩ <;> kernel_rfl

end Drip.P2P
