import Verif.Lemmas.P2PFairEnd
import Verif.Props.P2PSeeding
/-
Property C120: a download from seeders is completed if nothing is neglected for ever.
-/

namespace Drip.P2P
open PeerWire Metainfo Spec
open Storage (Fate World Mem FS Original Done Holds PieceResult TorrentResult Reported)

variable {cfg : Cfg} {X : List Bytes} {σ : Nat → State} {ev : Nat → Option (Event × Luck)}

/-- C120. Whatever the order in which the goroutines of the client run, and whatever else happens in between (failed writes, repeated requests and answers,
addresses, seeders that join): if nothing is neglected for ever and somebody joins at all, then from some moment on the content is in its place, the torrent is
reported as complete, and so is every piece. -/
theorem C120_completed (hO : Original cfg.store X) (h20 : cfg.store.info.sha1.length = 20) (h : Execution cfg X σ ev) (hf : Fair X σ ev) (hp : ∃ n, (σ n).peers ≠ []) :
    ∃ n, ∀ k, n ≤ k → ∃ m t, (σ k).storage = ⟨⟨some t, none⟩, some m⟩ ∧ Holds cfg.store.info X.flatten t ∧ TorrentResult m none ∧
      ∀ i, i < cfg.store.info.pieces.length → Reported m i ∧ PieceResult m i none := by
  obtain ⟨F, M, T⟩ := trace hO h20 h
  obtain ⟨n0, hn0⟩ := hp
  have hne : ∀ k, n0 ≤ k → (σ k).peers ≠ [] := by
    intro k hk
    induction hk with
    | refl => exact hn0
    | @step k hk ih =>
      obtain ⟨c, l, hc⟩ := List.exists_cons_of_ne_nil ih
      obtain ⟨c', h1, _⟩ := (T.moves k).conns 0 c (by rw [hc]; rfl)
      intro e
      rw [e] at h1
      cases h1
  obtain ⟨n, hn, I⟩ := T.idle hO hf n0
  have hall := I.complete (hne n hn)
  exact ⟨n, fun k hk => finished_all hO (T.seeding k) fun i hi => T.done hk (hall i hi)⟩

/-! The hypotheses are met: the torrent of `Ex.cfg`; a seeder has joined, is asked for both pieces, one after the other, and nothing happens after that. -/

def Ex.fairRun : List (Event × Luck) := Ex.fine [.select 0, .begin 0, .request 0 ⟨0, 0, 4⟩, .receive 0 (Ex.says (pieceMsg 0 0 [1, 2, 3, 4])), .handle 0, .finish 0 .complete, .hand 0,
  .select 0, .begin 1, .request 1 ⟨1, 0, 2⟩, .receive 0 (Ex.says (pieceMsg 1 0 [5, 6])), .handle 0, .finish 1 .complete, .hand 1, .select 0]

def Ex.fairState (n : Nat) : State := run Ex.cfg Ex.joined (Ex.fairRun.take n)
def Ex.fairEvent (n : Nat) : Option (Event × Luck) := some (Ex.fairRun.getD n (.takeAddr, {}))

theorem Ex.fair_end {n : Nat} (h : 15 ≤ n) : Ex.fairState n = Ex.fairState 15 := by
  unfold Ex.fairState
  rw [List.take_of_length_le (by show 15 ≤ n; exact h)]
  rfl

theorem run_nil (cfg : Cfg) (s : State) : run cfg s [] = s := rfl

theorem any_some {o : Option α} {p : α → Bool} (h : o.any p = true) : ∃ a, o = some a ∧ p a = true := by
  cases o with
  | none => cases h
  | some a => exact ⟨a, rfl, h⟩

theorem Ex.fair_next {n : Nat} (h : n < 15) : Ex.fairState (n + 1) = step Ex.cfg (Ex.fairState n) (Ex.fairRun.getD n (.takeAddr, {})) := by
  have hl : n < Ex.fairRun.length := h
  unfold Ex.fairState
  rw [List.take_add_one, List.getElem?_eq_getElem hl, run_append, List.getD_eq_getElem?_getD, List.getElem?_eq_getElem hl]
  rfl

theorem Ex.fair_execution : Execution Ex.cfg [[1, 2, 3, 4], [5, 6]] Ex.fairState Ex.fairEvent := by
  refine ⟨by unfold Ex.fairState; rw [List.take_zero, run_nil]; exact Ex.joined_seeded, fun n => ?_⟩
  show Honest _ _ (Ex.fairRun.getD n (.takeAddr, {})) ∧ Ex.fairState (n + 1) = step Ex.cfg (Ex.fairState n) (Ex.fairRun.getD n (.takeAddr, {}))
  by_cases hn : 15 ≤ n
  · rw [Ex.fair_end hn, Ex.fair_end (show 15 ≤ n + 1 by omega), List.getD_eq_getElem?_getD, List.getElem?_eq_none (by show 15 ≤ n; exact hn)]
    exact ⟨⟨fun f hf => (by cases hf), trivial⟩, by kernel_rfl⟩
  · have hr : ∀ (s : State) (r : Nat) (rd : Rd) (i b l : Nat), (s.peers[r]?.any fun c => c.sent.contains (PeerWire.request i b l)) = true →
        Says rd (reply [[1, 2, 3, 4], [5, 6]] i b l) → Honest [[1, 2, 3, 4], [5, 6]] s (.receive r rd, {}) := by
      intro s r rd i b l h1 h2
      obtain ⟨c, hc, h3⟩ := any_some h1
      exact ⟨fun f hf => (by cases hf), c, i, b, l, hc, List.contains_iff_mem.mp h3, h2⟩
    have hf : ∀ f ∈ ({} : Luck).fates, f = Fate.ok := fun f hf => by cases hf
    refine ⟨?_, Ex.fair_next (by omega)⟩
    match n, hn with
    | 0, _ => exact ⟨hf, trivial⟩
    | 1, _ => exact ⟨hf, trivial⟩
    | 2, _ => exact ⟨hf, trivial⟩
    | 3, _ => exact hr _ 0 _ 0 0 4 (by kernel_rfl) ⟨by show _ ∧ _ ∧ 9 + 4 < 2 ^ 32; decide, [], by kernel_rfl⟩
    | 4, _ => exact ⟨hf, trivial⟩
    | 5, _ => exact ⟨hf, fun e => (by cases e)⟩
    | 6, _ => exact ⟨hf, trivial⟩
    | 7, _ => exact ⟨hf, trivial⟩
    | 8, _ => exact ⟨hf, trivial⟩
    | 9, _ => exact ⟨hf, trivial⟩
    | 10, _ => exact hr _ 0 _ 1 0 2 (by kernel_rfl) ⟨by show _ ∧ _ ∧ 9 + 2 < 2 ^ 32; decide, [], by kernel_rfl⟩
    | 11, _ => exact ⟨hf, trivial⟩
    | 12, _ => exact ⟨hf, fun e => (by cases e)⟩
    | 13, _ => exact ⟨hf, trivial⟩
    | 14, _ => exact ⟨hf, trivial⟩
    | n + 15, hn => omega

theorem Ex.fair_fair : Fair [[1, 2, 3, 4], [5, 6]] Ex.fairState Ex.fairEvent := by
  have never : ∀ {P Q : Nat → Prop}, (∀ n, 15 ≤ n → ¬ P n) → Weakly P Q := fun h n hp => absurd (hp (n + 15) (by omega)) (h _ (by omega))
  have hjobs : ∀ n, 15 ≤ n → ∀ j ∈ (Ex.fairState n).jobs, j.stage = .handed := by
    intro n hn
    rw [Ex.fair_end hn, show (Ex.fairState 15).jobs = [⟨0, 0, .handed⟩, ⟨0, 1, .handed⟩] by kernel_rfl]
    decide
  have hsent : ∀ n, n ≤ 15 → ∀ c ∈ (Ex.fairState n).peers, ∀ msg ∈ c.sent, msg.typ = REQUEST → msg = PeerWire.request 0 0 4 ∨ msg = PeerWire.request 1 0 2 := by
    have : ((List.range 16).all fun n => (Ex.fairState n).peers.all fun c => c.sent.all fun msg =>
      decide (msg.typ = REQUEST → msg = PeerWire.request 0 0 4 ∨ msg = PeerWire.request 1 0 2)) = true := by kernel_rfl
    intro n hn c hc msg hm
    have := List.all_eq_true.mp this n (List.mem_range.mpr (by omega))
    exact of_decide_eq_true (List.all_eq_true.mp (List.all_eq_true.mp this c hc) msg hm)
  have hlen : ∀ n, n ≤ 15 → (Ex.fairState n).peers.length = 1 := by
    have : ((List.range 16).all fun n => decide ((Ex.fairState n).peers.length = 1)) = true := by kernel_rfl
    intro n hn
    exact of_decide_eq_true (List.all_eq_true.mp this n (List.mem_range.mpr (by omega)))
  have hgot : ((Ex.fairState 15).peers[0]?.any fun c => c.received.contains (pieceMsg 0 0 [1, 2, 3, 4]) && c.received.contains (pieceMsg 1 0 [5, 6])) = true := by kernel_rfl
  refine ⟨⟨fun r => never ?_, fun r => never ?_, fun r => never ?_, fun r i => never ?_, fun r i => never ?_, fun r i => never ?_, fun r i => never ?_⟩, ?_⟩
  rotate_right
  · intro n r c i b l hc hs
    refine ⟨n + 15, by omega, ?_⟩
    have hn : Ex.fairState n = Ex.fairState (min n 15) := by
      by_cases h : n ≤ 15
      · rw [Nat.min_eq_left h]
      · rw [Nat.min_eq_right (by omega)]; exact Ex.fair_end (by omega)
    rw [hn] at hc
    rw [Ex.fair_end (show 15 ≤ n + 15 by omega)]
    have hr : r < 1 := by rw [← hlen (min n 15) (by omega)]; exact (List.getElem?_eq_some_iff.mp hc).1
    obtain rfl : r = 0 := by omega
    obtain ⟨c', hc', hg⟩ := any_some hgot
    rw [Bool.and_eq_true] at hg
    refine ⟨c', hc', ?_⟩
    rcases hsent (min n 15) (by omega) c (List.mem_of_getElem? hc) _ hs rfl with e | e
    · injection e with _ _ e1 e2 e3
      obtain ⟨rfl, rfl, rfl⟩ : i = 0 ∧ b = 0 ∧ l = 4 := ⟨by exact_mod_cast e1, by exact_mod_cast e2, by exact_mod_cast e3⟩
      exact List.contains_iff_mem.mp hg.1
    · injection e with _ _ e1 e2 e3
      obtain ⟨rfl, rfl, rfl⟩ : i = 1 ∧ b = 0 ∧ l = 2 := ⟨by exact_mod_cast e1, by exact_mod_cast e2, by exact_mod_cast e3⟩
      exact List.contains_iff_mem.mp hg.2
  · rintro n hn ⟨c, msg, h1, h2⟩
    rw [Ex.fair_end hn] at h1
    have : ((Ex.fairState 15).peers.all fun c => decide (c.phase = .serving none)) = true := by kernel_rfl
    have := of_decide_eq_true (List.all_eq_true.mp this c (List.mem_of_getElem? h1))
    rw [this] at h2
    cases h2
  · intro n hn h
    rw [Ex.fair_end hn, show (Ex.fairState 15).toRequest = [] by kernel_rfl] at h
    cases h
  · intro n hn h
    rw [Ex.fair_end hn, show (Ex.fairState 15).waiting = [] by kernel_rfl] at h
    cases h
  · intro n hn h; cases hjobs n hn _ h
  · intro n hn h; cases hjobs n hn _ h.1
  · intro n hn h; cases hjobs n hn _ h.1
  · intro n hn h; cases hjobs n hn _ h

example : Original Ex.cfg.store [[1, 2, 3, 4], [5, 6]] ∧ Ex.cfg.store.info.sha1.length = 20 ∧ Execution Ex.cfg [[1, 2, 3, 4], [5, 6]] Ex.fairState Ex.fairEvent ∧
    Fair [[1, 2, 3, 4], [5, 6]] Ex.fairState Ex.fairEvent ∧ ∃ n, (Ex.fairState n).peers ≠ [] :=
  ⟨Ex.content, by decide, Ex.fair_execution, Ex.fair_fair, 0, by rw [ne_eq, ← List.length_eq_zero_iff, show (Ex.fairState 0).peers.length = 1 by kernel_rfl]; decide⟩

end Drip.P2P
