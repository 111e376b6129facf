import Verif.Lemmas.P2PExchangeLink
/-
What a seeder is asked, it answers, if nothing is neglected for ever.
-/

namespace Drip.P2P
open PeerWire Metainfo Spec
open Storage (Fate World Mem FS Usable Original SInv TorrentResult)

variable {cfg : Cfg} {X : List Bytes} {S : Nat → Seeder} {σ : Nat → State} {ev : Nat → Option (Event × Luck)}

theorem between_all (hu : Usable cfg.store) (hf : FilesOK cfg.store.info) (hpl : 0 ≤ cfg.store.info.pieceLength) (hX : ∀ ds, Contents cfg.store.sha1 cfg.store.info ds → ds = X)
    (hO : Original cfg.store X) (h20 : cfg.store.info.sha1.length = 20) (h : Exchange cfg S σ ev) : ∀ n, Between cfg X S σ n
  | 0 => by
    have hp : (σ 0).peers = [] := by rw [h.start]; rfl
    refine ⟨by rw [h.start]; exact .start, fun r hr => ?_, fun r c hc => ?_, fun k hk => ?_⟩
    · rw [hp] at hr; cases hr
    · rw [hp] at hc; cases hc
    · have : k = 0 := by omega
      rw [this]; exact Nat.le_refl _
  | n + 1 => (between_next hu hf hpl hX hO h20 h (between_all hu hf hpl hX hO h20 h n)).1

theorem execution (hu : Usable cfg.store) (hf : FilesOK cfg.store.info) (hpl : 0 ≤ cfg.store.info.pieceLength) (hX : ∀ ds, Contents cfg.store.sha1 cfg.store.info ds → ds = X)
    (hO : Original cfg.store X) (h20 : cfg.store.info.sha1.length = 20) (h : Exchange cfg S σ ev) : Execution cfg X σ ev where
  start := (between_all hu hf hpl hX hO h20 h 0).seeded
  next n := by
    have h1 := (between_next hu hf hpl hX hO h20 h (between_all hu hf hpl hX hO h20 h n)).2
    have h2 := h.next n
    cases he : ev n with
    | none => rw [he] at h1; exact h1
    | some e => rw [he] at h1 h2; exact ⟨h1, h2.2⟩

/-- One end of a connection reads what the other end writes. `N`: the number of messages that have been read; `L`: of those that were written; `Q`: the last one that was read has been handled. -/
theorem drains {N L : Nat → Nat} {Q H R : Nat → Prop} {n0 : Nat} (hN : ∀ k, n0 ≤ k → N k ≤ N (k + 1)) (hL : ∀ k, n0 ≤ k → L k ≤ L (k + 1))
    (hQ : ∀ k, n0 ≤ k → Q k → N (k + 1) = N k → Q (k + 1)) (hH : ∀ k, n0 ≤ k → H k → Q (k + 1)) (hR : ∀ k, n0 ≤ k → R k → Q k → N k < N (k + 1))
    (w1 : ∀ n, n0 ≤ n → (∀ k, n ≤ k → ¬ Q k) → ∃ k, n ≤ k ∧ H k) (w2 : ∀ n, n0 ≤ n → (∀ k, n ≤ k → Q k ∧ N k < L k) → ∃ k, n ≤ k ∧ R k) :
    (∀ n, n0 ≤ n → ∃ k, n ≤ k ∧ Q k) ∧ ∀ j n, n0 ≤ n → j < L n → ∃ k, n ≤ k ∧ j < N k := by
  have free : ∀ n, n0 ≤ n → ∃ k, n ≤ k ∧ Q k := by
    intro n hn
    refine Classical.byContradiction fun hno => ?_
    obtain ⟨k, hk, hh⟩ := w1 n hn fun k hk hq => hno ⟨k, hk, hq⟩
    exact hno ⟨k + 1, by omega, hH k (by omega) hh⟩
  have monoN : ∀ n k, n0 ≤ n → n ≤ k → N n ≤ N k := by
    intro n k hn hk
    induction hk with
    | refl => exact Nat.le_refl _
    | @step k hk ih => have hk : n ≤ k := hk; exact Nat.le_trans ih (hN k (by omega))
  have monoL : ∀ n k, n0 ≤ n → n ≤ k → L n ≤ L k := by
    intro n k hn hk
    induction hk with
    | refl => exact Nat.le_refl _
    | @step k hk ih => have hk : n ≤ k := hk; exact Nat.le_trans ih (hL k (by omega))
  refine ⟨free, ?_⟩
  suffices key : ∀ j t n, n0 ≤ n → j < L n → j < N n + t → ∃ k, n ≤ k ∧ j < N k from fun j n hn hj => key j (j + 1) n hn hj (by omega)
  intro j t
  induction t with
  | zero => intro n _ _ h; exact ⟨n, Nat.le_refl _, h⟩
  | succ t ih =>
    intro n hn hj ht
    by_cases hex : ∃ k, n ≤ k ∧ N n < N k
    · obtain ⟨k, hk, hlt⟩ := hex
      obtain ⟨k', hk', h⟩ := ih k (by omega) (Nat.lt_of_lt_of_le hj (monoL n k hn hk)) (by omega)
      exact ⟨k', by omega, h⟩
    · have hall : ∀ k, n ≤ k → N k = N n := by
        intro k hk
        have h1 := monoN n k hn hk
        have h2 : ¬ N n < N k := fun h => hex ⟨k, hk, h⟩
        omega
      by_cases hjn : j < N n
      · exact ⟨n, Nat.le_refl _, hjn⟩
      obtain ⟨k1, hk1, hq1⟩ := free n hn
      have hqs : ∀ k, k1 ≤ k → Q k := by
        intro k hk
        induction hk with
        | refl => exact hq1
        | @step k hk ih =>
          have hk : k1 ≤ k := hk
          exact hQ k (by omega) ih (by rw [hall (k + 1) (by omega), hall k (by omega)])
      obtain ⟨k, hk, hr⟩ := w2 k1 (by omega) fun k hk => ⟨hqs k hk, by
        have h1 := hall k (by omega)
        have h2 := monoL n k hn (by omega)
        omega⟩
      have h1 := hR k (by omega) hr (hqs k hk)
      rw [hall (k + 1) (by omega), hall k (by omega)] at h1
      omega

/-- The number of messages that have been received on a connection. -/
def took (s : State) (r : Nat) : Nat := match s.peers[r]? with | some c => c.received.length | none => 0

/-- The number of messages that have been sent. -/
def wrote (s : State) (r : Nat) : Nat := match s.peers[r]? with | some c => c.sent.length | none => 0

/-- All messages have been handled. -/
def AtEase (s : State) (r : Nat) : Prop := ∃ c, s.peers[r]? = some c ∧ c.phase = .serving none

theorem took_some {s : State} {r : Nat} {c : Conn} (h : s.peers[r]? = some c) : took s r = c.received.length := by unfold took; rw [h]
theorem wrote_some {s : State} {r : Nat} {c : Conn} (h : s.peers[r]? = some c) : wrote s r = c.sent.length := by unfold wrote; rw [h]

/-- What the client that downloads does with a connection. -/
theorem reads_step (hO : Original cfg.store X) {F : Nat → FS} {M : Nat → Mem} (T : Trace cfg X σ ev F M) {n r : Nat} (hi : Inv cfg (σ n)) {c : Conn} (hc : (σ n).peers[r]? = some c) :
    ∃ c', (σ (n + 1)).peers[r]? = some c' ∧ c.received <+: c'.received ∧ (c.phase = .serving none → c'.received.length = c.received.length → c'.phase = .serving none) ∧
      (Happens ev n (.handle r) → c'.phase = .serving none) ∧ (∀ rd, Happens ev n (.receive r rd) → c.phase = .serving none → c.received.length < c'.received.length) := by
  obtain ⟨c', hc', _, hrec⟩ := (T.moves n).conns r c hc
  have hready := (T.seeding (n + 1)).conns r c' hc'
  have hserv := ((T.seeding n).conns r c hc).phase
  have hand : Happens ev n (.handle r) → c'.phase = .serving none := by
    rintro ⟨l, he⟩
    have hs := (T.next n _ he).1
    rcases hserv with hp | ⟨i, k, x, _, _, hp⟩
    · rw [step_none (by simp only [act, hc, Option.map_some, hp])] at hs
      rw [hs, hc] at hc'; injection hc' with hc'; rw [← hc']; exact hp
    · obtain ⟨c1, o, _, _, _, _, h1⟩ := handle_conn hi (T.seeding n).alive hc hp l
      rw [← hs, hc'] at h1
      injection h1 with h1
      rcases hready.phase with h2 | ⟨_, _, _, _, _, h2⟩
      · exact h2
      · rw [h1] at h2
        have h2 : afterHandle o = _ := h2
        unfold afterHandle at h2
        split at h2 <;> cases h2
  refine ⟨c', hc', ?_, fun hp hl => ?_, hand, ?_⟩
  · rcases hrec with ⟨h1, _⟩ | ⟨_, _, msg, _, _, _, _, h1, _⟩
    · rw [h1]; exact List.prefix_refl _
    · rw [h1]; exact ⟨_, rfl⟩
  · rcases hrec with ⟨_, h1 | ⟨l, h1⟩⟩ | ⟨_, _, msg, _, _, _, _, h1, _⟩
    · rw [h1]; exact hp
    · exact hand ⟨l, h1⟩
    · rw [h1] at hl; simp at hl
  · rintro rd ⟨l, he⟩ hp
    obtain ⟨hs, ho⟩ := T.next n _ he
    obtain ⟨_, c2, i, b, l2, _, _, hsay⟩ := ho
    obtain ⟨rd', hdec⟩ := says_decode hsay
    have hstep : step cfg (σ n) (.receive r rd, l) = { σ n with peers := (σ n).peers.modify r fun c => { c with phase := .serving (some (ofWire (reply X i b l2))), received := c.received ++ [ofWire (reply X i b l2)] } } := by
      unfold step
      rw [if_neg (by rw [(T.seeding n).alive]; simp)]
      simp only [act, hc]
      rw [if_pos ⟨hp, ((T.seeding n).conns r c hc).open_⟩, hdec]
    rw [hs, hstep] at hc'
    have := (modify_self hc fun c => { c with phase := .serving (some (ofWire (reply X i b l2))), received := c.received ++ [ofWire (reply X i b l2)] }).symm.trans hc'
    injection this with this
    rw [← this]
    simp

/-- What the seeder does with it. -/
theorem listens_step (hu : Usable cfg.store) (hf : FilesOK cfg.store.info) (hpl : 0 ≤ cfg.store.info.pieceLength) (hX : ∀ ds, Contents cfg.store.sha1 cfg.store.info ds → ds = X)
    (hO : Original cfg.store X) (h20 : cfg.store.info.sha1.length = 20) {n r : Nat} (hB : Between cfg X S σ n) {c : Conn} (hc : (σ n).peers[r]? = some c) :
    ∃ d d', Link cfg X (S r) n c d ∧ ((S r).at cfg.store (n + 1)).peers[(S r).conn]? = some d' ∧ d.sent <+: d'.sent ∧ d.received.length ≤ d'.received.length ∧
      (d.phase = .serving none → d'.received.length = d.received.length → d'.phase = .serving none) ∧ (Happens (S r).ev n (.handle (S r).conn) → d'.phase = .serving none) ∧
      (∀ rd, Happens (S r).ev n (.receive (S r).conn rd) → d.phase = .serving none → d'.received.length = d.received.length + 1) := by
  obtain ⟨d, hL⟩ := hB.links r c hc
  have hW := hB.works r (List.getElem?_eq_some_iff.1 hc).1
  obtain ⟨d', g1, _, g3, _, _, g6, g7, g8, g9⟩ := Seeder.next hu hf hpl hX hO hW hL.decent hL.here hL.serves (List.mem_of_getElem? hL.unchoke) hL.heard (asks hu hf hO h20 hB.seeded hc) fun rd l he => by
    obtain ⟨d1, hd1, c1, w, hc1, hw, hs⟩ := hW.hears n rd l he
    rw [hL.here] at hd1; injection hd1 with hd1; subst hd1
    rw [hc] at hc1; injection hc1 with hc1; subst hc1
    exact ⟨w, hs, hw⟩
  exact ⟨d, d', hL, g1, g3, g6, g7, g8, g9⟩

/-- What is requested is answered. -/
theorem answers (hu : Usable cfg.store) (hf : FilesOK cfg.store.info) (hpl : 0 ≤ cfg.store.info.pieceLength) (hX : ∀ ds, Contents cfg.store.sha1 cfg.store.info ds → ds = X)
    (hO : Original cfg.store X) (h20 : cfg.store.info.sha1.length = 20) (h : Exchange cfg S σ ev) (hfair : FairExchange cfg X S σ ev) (n r : Nat) (c : Conn) (i b l : Nat)
    (hc : (σ n).peers[r]? = some c) (hq : Requested c i b l) : ∃ k, n ≤ k ∧ ∃ c', (σ k).peers[r]? = some c' ∧ Arrived X c' i b l := by
  have hB := between_all hu hf hpl hX hO h20 h
  obtain ⟨F, M, T⟩ := trace hO h20 (execution hu hf hpl hX hO h20 h)
  have hi : ∀ k, Inv cfg (σ k) := fun k => by
    obtain ⟨es, hes⟩ := seeded_run (hB k).seeded
    rw [hes]; exact inv_run _ _
  have hex : ∀ k, n ≤ k → ∃ c', (σ k).peers[r]? = some c' := by
    intro k hk
    induction hk with
    | refl => exact ⟨c, hc⟩
    | @step k hk ih =>
      obtain ⟨c1, h1⟩ := ih
      obtain ⟨c2, h2, _⟩ := reads_step hO T (hi k) h1
      exact ⟨c2, h2⟩
  -- what has been sent stays
  have hsent : ∀ k, n ≤ k → ∀ c1 c2, (σ k).peers[r]? = some c1 → (σ (k + 1)).peers[r]? = some c2 → c1.sent <+: c2.sent := by
    intro k hk c1 c2 h1 h2
    obtain ⟨fs, m, s1, s2, _⟩ := seeded_all hO h20 (hB k).seeded
    cases he : ev k with
    | none =>
      have hn := (execution hu hf hpl hX hO h20 h).next k
      rw [he] at hn
      obtain ⟨_, _, _, _, _, c0, hp, _⟩ := join_conn hO h20 s1 s2 hn
      rw [hp, List.getElem?_append_left (List.getElem?_eq_some_iff.1 h1).1, h1] at h2
      injection h2 with h2; rw [h2]; exact List.prefix_refl _
    | some e =>
      obtain ⟨c3, h3, h4⟩ := step_conn (hi k) e h1
      rw [← (T.next k e he).1, h2] at h3
      injection h3 with h3; rw [h3]; exact h4
  have hprefix : ∀ k k', n ≤ k → k ≤ k' → ∀ c1 c2, (σ k).peers[r]? = some c1 → (σ k').peers[r]? = some c2 → c1.sent <+: c2.sent := by
    intro k k' hn hk
    induction hk with
    | refl => intro c1 c2 h1 h2; rw [h1] at h2; injection h2 with h2; rw [h2]; exact List.prefix_refl _
    | @step k' hk ih =>
      intro c1 c2 h1 h2
      have hk : k ≤ k' := hk
      obtain ⟨c3, h3⟩ := hex k' (by omega)
      exact (ih c1 c3 h1 h3).trans (hsent k' (by omega) c3 c2 h3 h2)
  -- the seeder reads it
  have side : ∀ k, n ≤ k → ∃ c1 d d', (σ k).peers[r]? = some c1 ∧ Link cfg X (S r) k c1 d ∧ ((S r).at cfg.store (k + 1)).peers[(S r).conn]? = some d' ∧ d.sent <+: d'.sent ∧ d.received.length ≤ d'.received.length ∧
      (d.phase = .serving none → d'.received.length = d.received.length → d'.phase = .serving none) ∧ (Happens (S r).ev k (.handle (S r).conn) → d'.phase = .serving none) ∧
      (∀ rd, Happens (S r).ev k (.receive (S r).conn rd) → d.phase = .serving none → d'.received.length = d.received.length + 1) := by
    intro k hk
    obtain ⟨c1, h1⟩ := hex k hk
    obtain ⟨d, d', g⟩ := listens_step hu hf hpl hX hO h20 (hB k) h1
    exact ⟨c1, d, d', h1, g⟩
  obtain ⟨freeA, drainA⟩ := drains (N := fun k => took ((S r).at cfg.store k) (S r).conn) (L := fun k => wrote (σ k) r) (Q := fun k => AtEase ((S r).at cfg.store k) (S r).conn)
    (H := fun k => Happens (S r).ev k (.handle (S r).conn)) (R := fun k => ∃ rd, Happens (S r).ev k (.receive (S r).conn rd)) (n0 := n)
    (fun k hk => by
      obtain ⟨c1, d, d', _, hL, g1, _, g3, _⟩ := side k hk
      simp only [took_some hL.here, took_some g1]; exact g3)
    (fun k hk => by
      obtain ⟨c1, h1⟩ := hex k hk
      obtain ⟨c2, h2⟩ := hex (k + 1) (by omega)
      simp only [wrote_some h1, wrote_some h2]
      exact (hsent k hk c1 c2 h1 h2).length_le)
    (fun k hk hq hn => by
      obtain ⟨c1, d, d', _, hL, g1, _, _, g4, _⟩ := side k hk
      obtain ⟨d1, hd1, hp⟩ := hq
      rw [hL.here] at hd1; injection hd1 with hd1; subst hd1
      simp only [took_some hL.here, took_some g1] at hn
      exact ⟨d', g1, g4 hp hn⟩)
    (fun k hk hh => by
      obtain ⟨c1, d, d', _, hL, g1, _, _, _, g5, _⟩ := side k hk
      exact ⟨d', g1, g5 hh⟩)
    (fun k hk ⟨rd, hr⟩ hq => by
      obtain ⟨c1, d, d', _, hL, g1, _, _, _, _, g6⟩ := side k hk
      obtain ⟨d1, hd1, hp⟩ := hq
      rw [hL.here] at hd1; injection hd1 with hd1; subst hd1
      simp only [took_some hL.here, took_some g1]
      have := g6 rd hr hp
      omega)
    (fun n' hn' hno => hfair.gives r n' fun k hk => by
      obtain ⟨c1, d, d', _, hL, _⟩ := side k (by omega)
      obtain ⟨p, hp⟩ := hL.serves.serving
      cases p with
      | none => exact absurd ⟨d, hL.here, hp⟩ (hno k hk)
      | some m => exact ⟨d, m, hL.here, hp⟩)
    (fun n' hn' hall => hfair.listens r n' fun k hk => by
      obtain ⟨c1, d, d', h1, hL, _⟩ := side k (by omega)
      obtain ⟨⟨d1, hd1, hp⟩, hlt⟩ := hall k hk
      simp only [took_some hL.here, wrote_some h1] at hlt
      rw [hL.here] at hd1; injection hd1 with hd1; subst hd1
      exact ⟨c1, d, h1, hL.here, hp, hlt⟩)
  obtain ⟨j, hj, hjr⟩ := List.mem_iff_getElem.1 hq
  obtain ⟨k1, hk1, hlt1⟩ := drainA j n (Nat.le_refl _) (by simp only [wrote_some hc]; exact hj)
  obtain ⟨k2, hk2, hfree⟩ := freeA k1 hk1
  have hmono : ∀ k, k1 ≤ k → j < took ((S r).at cfg.store k) (S r).conn := by
    intro k hk
    induction hk with
    | refl => exact hlt1
    | @step k hk ih =>
      have hk : k1 ≤ k := hk
      obtain ⟨c1, d, d', _, hL, g1, _, g3, _⟩ := side k (by omega)
      rw [took_some hL.here] at ih
      rw [took_some g1]
      omega
  -- and answers
  obtain ⟨c2, d2, _, hc2, hL2, _⟩ := side k2 (by omega)
  have hans : answer X i b l ∈ d2.sent := by
    refine hL2.serves.answered i b l ?_
    obtain ⟨d1, hd1, hp⟩ := hfree
    rw [hL2.here] at hd1; injection hd1 with hd1; subst hd1
    rw [handled_all fun m hm => by rw [hp] at hm; cases hm]
    have h1 := hmono k2 hk2
    rw [took_some hL2.here] at h1
    have h2 : c.sent[j]? = some (request i b l) := by rw [List.getElem?_eq_getElem hj, hjr]
    obtain ⟨t, ht⟩ := hprefix n k2 (Nat.le_refl _) (by omega) c c2 hc hc2
    obtain ⟨u, hu'⟩ := hL2.heard
    have h3 : c2.sent[j]? = some (request i b l) := by rw [← ht, List.getElem?_append_left hj, h2]
    rw [← hu', List.getElem?_append_left h1] at h3
    exact List.mem_of_getElem? h3
  -- which is read
  obtain ⟨freeB, drainB⟩ := drains (N := fun k => took (σ k) r) (L := fun k => wrote ((S r).at cfg.store k) (S r).conn) (Q := fun k => AtEase (σ k) r)
    (H := fun k => Happens ev k (.handle r)) (R := fun k => ∃ rd, Happens ev k (.receive r rd)) (n0 := n)
    (fun k hk => by
      obtain ⟨c1, h1⟩ := hex k hk
      obtain ⟨c', g1, g2, _⟩ := reads_step hO T (hi k) h1
      simp only [took_some h1, took_some g1]; exact g2.length_le)
    (fun k hk => by
      obtain ⟨c1, d, d', _, hL, g1, g2, _⟩ := side k hk
      simp only [wrote_some hL.here, wrote_some g1]; exact g2.length_le)
    (fun k hk ⟨c1, h1, hp⟩ hn => by
      obtain ⟨c', g1, _, g3, _⟩ := reads_step hO T (hi k) h1
      simp only [took_some h1, took_some g1] at hn
      exact ⟨c', g1, g3 hp hn⟩)
    (fun k hk hh => by
      obtain ⟨c1, h1⟩ := hex k hk
      obtain ⟨c', g1, _, _, g4, _⟩ := reads_step hO T (hi k) h1
      exact ⟨c', g1, g4 hh⟩)
    (fun k hk ⟨rd, hr⟩ ⟨c1, h1, hp⟩ => by
      obtain ⟨c', g1, _, _, _, g5⟩ := reads_step hO T (hi k) h1
      simp only [took_some h1, took_some g1]
      exact g5 rd hr hp)
    (fun n' hn' hno => hfair.handles r n' fun k hk => by
      obtain ⟨c1, h1⟩ := hex k (by omega)
      rcases ((T.seeding k).conns r c1 h1).phase with hp | ⟨_, _, _, _, _, hp⟩
      · exact absurd ⟨c1, h1, hp⟩ (hno k hk)
      · exact ⟨c1, _, h1, hp⟩)
    (fun n' hn' hall => hfair.brings r n' fun k hk => by
      obtain ⟨c1, d, d', h1, hL, _⟩ := side k (by omega)
      obtain ⟨⟨c3, h3, hp⟩, hlt⟩ := hall k hk
      rw [h1] at h3; injection h3 with h3; subst h3
      simp only [took_some h1, wrote_some hL.here] at hlt
      exact ⟨c1, d, h1, hp, hL.here, hlt⟩)
  obtain ⟨j2, hj2, hjr2⟩ := List.mem_iff_getElem.1 hans
  obtain ⟨k3, hk3, hlt3⟩ := drainB j2 k2 (by omega) (by simp only [wrote_some hL2.here]; exact hj2)
  obtain ⟨c4, d4, _, hc4, hL4, _⟩ := side k3 (by omega)
  refine ⟨k3, by omega, c4, hc4, ?_⟩
  simp only [took_some hc4] at hlt3
  have hd : ∀ k, k2 ≤ k → ∀ d, ((S r).at cfg.store k).peers[(S r).conn]? = some d → d2.sent <+: d.sent := by
    intro k hk
    induction hk with
    | refl => intro d hd; rw [hL2.here] at hd; injection hd with hd; rw [hd]; exact List.prefix_refl _
    | @step k hk ih =>
      intro d hd
      have hk : k2 ≤ k := hk
      obtain ⟨c1, d1, d', _, hL, g1, g2, _⟩ := side k (by omega)
      rw [g1] at hd; injection hd with hd; subst hd
      exact (ih d1 hL.here).trans g2
  obtain ⟨t, ht⟩ := hd k3 hk3 d4 hL4.here
  obtain ⟨u, hu'⟩ := hL4.read
  have h3 : d4.sent[j2]? = some (answer X i b l) := by rw [← ht, List.getElem?_append_left hj2, List.getElem?_eq_getElem hj2, hjr2]
  rw [← hu', List.getElem?_append_left hlt3] at h3
  exact List.mem_of_getElem? h3

end Drip.P2P
