import Verif.Props.PexFirst
/-
C59, exactly and for every history: which announces fail and which answers cannot be read.
-/

namespace Drip.Pex
open Spec Tracker Bencode Multi

variable {iter : Table → Table} {errText : Bytes → Bytes}

/-- `b` is to be told to who announces `a` now, with the request `query` from `remote`: it is the first announce of its place since the place was forgotten, and the place is alive.
The place of `a` itself is to be told only if its text is not canonical. -/
def Told (known : List Bytes) (h : List (Int × Event)) (p : Past) (now : Int) (remote query : Bytes) (a b : Announce) : Prop :=
  FirstSince known a.hash b.place ((now, .request remote query) :: h) b ∧ Live now ((now, some a) :: p) a.hash b.place ∧ (b.place = a.place → ¬ Canonical b.text)

/-- **C59**, exactly and for every history. A valid announce in the compact form fails, with status 500 and nothing else, exactly when somebody is to be told whose address is not an IPv4 address. In the other form
there is always a response, and (unless somebody's text or the history is larger than any memory) a client can read it exactly when somebody is to be told; then it reads exactly these. -/
theorem C59_always_partial (hi : ∀ l, (iter l).Perm l) (infos : List Metainfo.Info) (h : List (Int × Event)) (p : Past) (hp : PastOf (hashes infos) h p) (now : Int)
    (hc : Clock now (h.map (·.1))) (remote query : Bytes) (a : Announce) (c : Bool) (hu : Announces (hashes infos) remote query a c) :
    let reply := (serve iter errText now remote query (after iter errText infos h)).1
    let told := Told (hashes infos) h p now remote query a
    (reply.status = 200 ∨ reply = ⟨500, []⟩) ∧
    (reply.status = 500 ↔ c = true ∧ ∃ b, told b ∧ ∀ w x y z, b.ip ≠ mapped w x y z) ∧
    (c = false → (∀ b, ¬ told b) → reply.body = b!"d8:intervali30e5:peerse" ∧ unmarshalResponse reply.body = .err .syntax) ∧
    (c = false → (∃ b, told b) → h.length < 2 ^ 45 → (∀ b, told b → b.text.length ≤ 2 ^ 48) →
      ∃ l, unmarshalResponse reply.body = .ok { interval := 30, peers := some ⟨false, l⟩ } ∧ ∀ q, q ∈ l.getD [] ↔ ∃ b, told b ∧ q = ⟨b.id, b.text, b.port⟩) := by
  intro reply told
  obtain ⟨ps, h1, hlen, -, h2⟩ := serve_told (iter := iter) (errText := errText) hi infos h p hp now hc remote query a c hu
  have h1 : reply = answer c ps := h1
  have h2 : ∀ q, q ∈ ps ↔ ∃ b, told b ∧ q = ⟨b.id, b.text, b.port⟩ := fun q =>
    (h2 q).trans ⟨fun ⟨b, k1, k2, k3⟩ => ⟨b, ⟨k1, k3⟩, k2⟩, fun ⟨b, ⟨k1, k3⟩, k2⟩ => ⟨b, k1, k2, k3⟩⟩
  have hgood : ∀ b, told b → Good b := by
    intro b hb
    obtain ⟨_, _, _, _, ⟨_, _, _, _, hb, _⟩, _⟩ := hb.1
    rw [← announces_iff] at hb
    exact (understood_good hb).1
  have hform := compactForm_exists ps
  have hall : (∀ q ∈ ps, ∃ w x y z, IsAddress q.ip (mapped w x y z)) ↔ ¬ ∃ b, told b ∧ ∀ w x y z, b.ip ≠ mapped w x y z := by
    constructor
    · rintro hq ⟨b, hb, hn⟩
      obtain ⟨w, x, y, z, hw⟩ := hq _ ((h2 _).mpr ⟨b, hb, rfl⟩)
      exact hn w x y z (address_unique (hgood b hb).1 hw)
    · intro hn q hq
      obtain ⟨b, hb, rfl⟩ := (h2 q).mp hq
      exact Classical.byContradiction fun hw => hn ⟨b, hb, fun w x y z hz => hw ⟨w, x, y, z, hz ▸ (hgood b hb).1⟩⟩
  have hans := answered c ps
  rw [← h1] at hans
  rcases hans with ⟨k1, k2⟩ | ⟨k1, k2, k3, k4⟩
  · refine ⟨.inl k1, ⟨fun h => (by rw [k1] at h; cases h), fun ⟨hc, he⟩ => ?_⟩, fun hc hn => ?_, fun hc he hl ht => ?_⟩
    · subst hc
      unfold IsAnswer at k2
      rw [if_pos rfl] at k2
      obtain ⟨s, hs, -⟩ := k2
      exact absurd he (hall.mp (hform.mp ⟨s, hs⟩))
    · subst hc
      unfold IsAnswer at k2
      have : ps = [] := by
        cases ps with
        | nil => rfl
        | cons q ps =>
          obtain ⟨b, hb, -⟩ := (h2 q).mp List.mem_cons_self
          exact absurd hb (hn b)
      rw [if_neg (by simp), if_pos this] at k2
      rw [k2]
      exact ⟨rfl, C78_nil_list_refuted.2⟩
    · subst hc
      have hsend : Sendable ⟨false, appended ps⟩ := by
        unfold Sendable
        simp only [Bool.false_eq_true, if_false]
        obtain ⟨b, hb⟩ := he
        have hq := (h2 _).mpr ⟨b, hb, rfl⟩
        refine ⟨ps, ?_, fun q hq => ?_⟩
        · cases ps with
          | nil => cases hq
          | cons => rfl
        · obtain ⟨b, hb, rfl⟩ := (h2 q).mp hq
          obtain ⟨_, hid, hport, _⟩ := hgood b hb
          exact ⟨by simp only [hid]; omega, ht b hb, hport⟩
      obtain ⟨out, o', j1, j2, j3⟩ := C78_response_partial { interval := 30, peers := some ⟨false, appended ps⟩ }
        ⟨by simp, by simp [FitsInt64], by rintro p ⟨⟩; exact hsend, by simp, by simp [FitsInt64], by simp, by simp [FitsInt64], by simp [FitsInt64]⟩
      obtain ⟨⟨c', l⟩, rfl, hc', hl⟩ := j2
      simp only at hc' hl
      subst hc'
      have j3 := j3 []
      rw [List.append_nil] at j3
      have hans : answer false ps = ⟨200, out⟩ := by
        unfold answer
        rw [j1]
      rw [appended_getD, if_neg (by simp)] at hl
      rw [h1, hans]
      refine ⟨l, j3, fun q => ?_⟩
      rw [hl]
      exact h2 q
  · refine ⟨.inr ?_, ⟨fun _ => ⟨k3, ?_⟩, fun _ => k1⟩, fun hc => ?_, fun hc => ?_⟩
    · generalize reply = r at *
      cases r
      simp only at k1 k2
      rw [k1, k2]
    · exact Classical.byContradiction fun hn => k4 (hform.mpr (hall.mpr hn))
    · rw [hc] at k3; cases k3
    · rw [hc] at k3; cases k3

theorem low16_mod (n : Int) : low16 (n % 65536) = low16 n := by
  unfold low16
  rw [Int.emod_emod_of_dvd n (Int.dvd_refl 65536)]

/-- What the compact form says of a peer. -/
def Said (q q' : Tracker.Peer) : Prop := ∃ w x y z, IsAddress q.ip (mapped w x y z) ∧ q' = ⟨[], dotted w x y z, q.port % 65536⟩

/-- The peers that a compact form says have that form too. -/
theorem compactForm_said {ps : List Tracker.Peer} {s : Bytes} (h : CompactForm (ps.map fun q => (q.ip, q.port)) s) :
    ∃ ps' : List Tracker.Peer, CompactForm (ps'.map fun q => (q.ip, q.port)) s ∧ ps'.length = ps.length ∧ ∀ q', q' ∈ ps' ↔ ∃ q ∈ ps, Said q q' := by
  induction ps generalizing s with
  | nil => exact ⟨[], h, rfl, by simp⟩
  | cons q ps ih =>
    generalize hm : (q :: ps).map (fun q => (q.ip, q.port)) = l at h
    cases h with
    | nil => cases hm
    | @cons text port w x y z ps0 s' hw hs =>
      simp only [List.map_cons, List.cons.injEq, Prod.mk.injEq] at hm
      obtain ⟨⟨rfl, rfl⟩, rfl⟩ := hm
      obtain ⟨ps', h1, h2, h3⟩ := ih hs
      refine ⟨⟨[], dotted w x y z, q.port % 65536⟩ :: ps', ?_, by simp [h2], fun q' => ?_⟩
      · have := CompactForm.cons (port := q.port % 65536) ((Net.parseIP_iff _ _).mp (Net.parseIP_dotted w x y z)) h1
        rw [low16_mod] at this
        exact this
      · rw [List.mem_cons, h3]
        constructor
        · rintro (rfl | ⟨q0, hq0, hq'⟩)
          · exact ⟨q, List.mem_cons_self, w, x, y, z, hw, rfl⟩
          · exact ⟨q0, List.mem_cons_of_mem _ hq0, hq'⟩
        · rintro ⟨q0, hq0, w', x', y', z', ha, rfl⟩
          rcases List.mem_cons.mp hq0 with rfl | hq0
          · have := address_unique hw ha
            simp only [mapped, List.cons.injEq, true_and, and_true] at this
            obtain ⟨rfl, rfl, rfl, rfl⟩ := this
            exact .inl rfl
          · exact .inr ⟨q0, hq0, w', x', y', z', ha, rfl⟩

theorem compactForm_once {l : List (Bytes × Int)} {s s' : Bytes} (h : CompactForm l s) (h' : CompactForm l s') : s = s' := by
  induction h generalizing s' with
  | nil => cases h'; rfl
  | cons hw hs ih =>
    cases h' with
    | cons hw' hs' =>
      have := address_unique hw hw'
      simp only [mapped, List.cons.injEq, true_and, and_true] at this
      obtain ⟨rfl, rfl, rfl, rfl⟩ := this
      rw [ih hs']

/-- **C59**, what compact answers say, for every history: whenever an announce in the compact form does not fail, a client reads in the answer exactly who is to be told, in the usual text of the IPv4 address and without
the id; the port is what was announced modulo 65536. -/
theorem C59_compact_partial (hi : ∀ l, (iter l).Perm l) (infos : List Metainfo.Info) (h : List (Int × Event)) (p : Past) (hp : PastOf (hashes infos) h p) (now : Int)
    (hc : Clock now (h.map (·.1))) (remote query : Bytes) (a : Announce) (hu : Announces (hashes infos) remote query a true) (hlen : h.length < 2 ^ 45) :
    let reply := (serve iter errText now remote query (after iter errText infos h)).1
    reply.status = 200 → ∃ l, unmarshalResponse reply.body = .ok { interval := 30, peers := some ⟨true, l⟩ } ∧
      ∀ q, q ∈ l.getD [] ↔ ∃ b w x y z, Told (hashes infos) h p now remote query a b ∧ b.ip = mapped w x y z ∧ q = ⟨[], dotted w x y z, b.port % 65536⟩ := by
  intro reply hst
  obtain ⟨ps, h1, hps, -, h2⟩ := serve_told (iter := iter) (errText := errText) hi infos h p hp now hc remote query a true hu
  have h1 : reply = answer true ps := h1
  have hans := answered true ps
  rw [← h1] at hans
  rcases hans with ⟨-, k2⟩ | ⟨k1, -⟩
  · unfold IsAnswer at k2
    rw [if_pos rfl] at k2
    obtain ⟨s, hs, hbody⟩ := k2
    obtain ⟨ps', hs', hl', hm'⟩ := compactForm_said hs
    have hsend : Sendable ⟨true, appended ps'⟩ := by
      unfold Sendable
      simp only [appended_getD, if_true]
      refine ⟨by omega, fun q hq => ?_⟩
      obtain ⟨q0, -, w, x, y, z, -, rfl⟩ := (hm' q).mp hq
      refine ⟨⟨w, x, y, z, (q0.port % 65536).toNat⟩, by simp only; omega, rfl, by simp only; omega⟩
    obtain ⟨out, o', j1, j2, j3⟩ := C78_response_partial { interval := 30, peers := some ⟨true, appended ps'⟩ }
      ⟨by simp, by simp [FitsInt64], by rintro p ⟨⟩; exact hsend, by simp, by simp [FitsInt64], by simp, by simp [FitsInt64], by simp [FitsInt64]⟩
    obtain ⟨⟨c', l⟩, rfl, hc', hl⟩ := j2
    simp only at hc' hl
    subst hc'
    have j3 := j3 []
    rw [List.append_nil] at j3
    have hans : answer true ps' = ⟨200, out⟩ := by
      unfold answer
      rw [j1]
    have hout : out = reply.body := by
      have := answered true ps'
      rw [hans] at this
      rcases this with ⟨-, m2⟩ | ⟨m1, -⟩
      · unfold IsAnswer at m2
        rw [if_pos rfl] at m2
        obtain ⟨s', hs'', hb'⟩ := m2
        rw [compactForm_once hs'' hs'] at hb'
        exact hb'.trans hbody.symm
      · cases m1
    rw [appended_getD, if_pos trivial] at hl
    refine ⟨l, by rw [← hout]; exact j3, fun q => ?_⟩
    rw [hl, List.mem_map]
    constructor
    · rintro ⟨q', hq', rfl⟩
      obtain ⟨q0, hq0, w, x, y, z, ha, rfl⟩ := (hm' q').mp hq'
      obtain ⟨b, k1, rfl, k3⟩ := (h2 q0).mp hq0
      have hb : IsAddress b.text b.ip := by
        obtain ⟨_, _, _, _, ⟨_, _, _, _, hb, _⟩, _⟩ := k1
        rw [← announces_iff] at hb
        exact (understood_good hb).1.1
      exact ⟨b, w, x, y, z, ⟨k1, k3⟩, address_unique hb ha, rfl⟩
    · rintro ⟨b, w, x, y, z, ⟨k1, k3⟩, hip, rfl⟩
      have hb : IsAddress b.text b.ip := by
        obtain ⟨_, _, _, _, ⟨_, _, _, _, hb, _⟩, _⟩ := k1
        rw [← announces_iff] at hb
        exact (understood_good hb).1.1
      rw [hip] at hb
      exact ⟨_, (hm' _).mpr ⟨_, (h2 _).mpr ⟨b, k1, rfl, k3⟩, w, x, y, z, hb, rfl⟩, rfl⟩
  · rw [k1] at hst; cases hst

/-- A port that is no port. -/
example : unmarshalResponse (serve (fun t => t) Ex.err 0 b!"9.9.9.9:1" (Ex.query b!"6" [] b!"&compact=1") (after (fun t => t) Ex.err [Ex.info 97] [(0, .request b!"1.1.1.1:1" (Ex.query b!"70000" [] []))])).1.body =
    .ok { interval := 30, peers := some ⟨true, some [⟨[], b!"1.1.1.1", 4464⟩]⟩ } ∧
    ∃ b, Told (hashes [Ex.info 97]) [(0, .request b!"1.1.1.1:1" (Ex.query b!"70000" [] []))] (past (hashes [Ex.info 97]) [(0, .request b!"1.1.1.1:1" (Ex.query b!"70000" [] []))]) 0
      b!"9.9.9.9:1" (Ex.query b!"6" [] b!"&compact=1") Ex.asks b ∧ 4464 = b.port % 65536 := by
  have hr : unmarshalResponse (serve (fun t => t) Ex.err 0 b!"9.9.9.9:1" (Ex.query b!"6" [] b!"&compact=1") (after (fun t => t) Ex.err [Ex.info 97] [(0, .request b!"1.1.1.1:1" (Ex.query b!"70000" [] []))])).1.body =
    .ok { interval := 30, peers := some ⟨true, some [⟨[], b!"1.1.1.1", 4464⟩]⟩ } := by kernel_rfl
  refine ⟨hr, ?_⟩
  obtain ⟨l, h1, h2⟩ := C59_compact_partial (iter := fun t => t) (errText := Ex.err) (fun _ => .refl _) [Ex.info 97] [(0, .request b!"1.1.1.1:1" (Ex.query b!"70000" [] []))] _ (pastOf_iff.mpr rfl) 0
    (by simp [Clock]) b!"9.9.9.9:1" (Ex.query b!"6" [] b!"&compact=1") Ex.asks Ex.asks_announces (by decide) (by kernel_rfl)
  rw [hr] at h1
  simp only [Res.ok.injEq, Response.mk.injEq, Option.some.injEq, Peers.mk.injEq, true_and, and_true] at h1
  subst h1
  obtain ⟨b, _, _, _, _, k1, _, k3⟩ := (h2 ⟨[], b!"1.1.1.1", 4464⟩).mp (List.mem_singleton_self _)
  exact ⟨b, k1, congrArg Tracker.Peer.port k3⟩

/-- The client whose address is written `0::1`, not `::1`. -/
def Ex.odd : Announce := ⟨List.replicate 20 97, List.replicate 20 98, b!"0::1", [0, 0, 0, 0, 0, 0, 0, 0, 0, 0, 0, 0, 0, 0, 0, 1], 6, []⟩

/-- It is alone, asks for the compact form, and fails: it is to be told of itself. In the other form it reads itself. -/
example : Announces (hashes [Ex.info 97]) b!"9.9.9.9:1" (Ex.query b!"6" b!"0::1" b!"&compact=1") Ex.odd true ∧
    (serve (fun t => t) Ex.err 0 b!"9.9.9.9:1" (Ex.query b!"6" b!"0::1" b!"&compact=1") (after (fun t => t) Ex.err [Ex.info 97] [])).1 = ⟨500, []⟩ ∧
    (∃ b, Told (hashes [Ex.info 97]) [] [] 0 b!"9.9.9.9:1" (Ex.query b!"6" b!"0::1" b!"&compact=1") Ex.odd b ∧ ∀ w x y z, b.ip ≠ mapped w x y z) ∧
    unmarshalResponse (serve (fun t => t) Ex.err 0 b!"9.9.9.9:1" (Ex.query b!"6" b!"0::1" []) (after (fun t => t) Ex.err [Ex.info 97] [])).1.body =
      .ok { interval := 30, peers := some ⟨false, some [⟨List.replicate 20 98, b!"0::1", 6⟩]⟩ } := by
  have ha : Announces (hashes [Ex.info 97]) b!"9.9.9.9:1" (Ex.query b!"6" b!"0::1" b!"&compact=1") Ex.odd true := (announces_iff _ _ _ _ _).mp (by kernel_rfl)
  have hs : (serve (fun t => t) Ex.err 0 b!"9.9.9.9:1" (Ex.query b!"6" b!"0::1" b!"&compact=1") (after (fun t => t) Ex.err [Ex.info 97] [])).1 = ⟨500, []⟩ := by kernel_rfl
  obtain ⟨-, h2, -⟩ := C59_always_partial (iter := fun t => t) (errText := Ex.err) (fun _ => .refl _) [Ex.info 97] [] [] .nil 0 trivial _ _ _ _ ha
  exact ⟨ha, hs, (h2.mp (by rw [hs])).2, by kernel_rfl⟩

end Drip.Pex
