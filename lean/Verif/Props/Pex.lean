import Verif.Lemmas.Pex
import Verif.Model.KernelRfl
import Verif.Props.Multitracker
import Verif.Props.ResponseRead
/-
The tracker: C57, C58, C59, C60, C82, C83.
-/

namespace Drip.Pex
open Spec Tracker Bencode Multi

variable {iter : Table → Table} {errText : Bytes → Bytes}

/-- The tracker for some torrents, after a history. -/
def after (iter : Table → Table) (errText : Bytes → Bytes) (infos : List Metainfo.Info) (h : List (Int × Event)) : HTTP :=
  run iter errText (newHTTP infos) h

/-- The torrents that are tracked. -/
def hashes (infos : List Metainfo.Info) : List Bytes := infos.map (·.sha1)

theorem past_congr {k k' : List Bytes} (h : ∀ x, x ∈ k ↔ x ∈ k') (es : List (Int × Event)) : past k es = past k' es := by
  induction es with
  | nil => rfl
  | cons e es ih =>
    obtain ⟨t, e⟩ := e
    cases e <;> simp [past, ih, understood_congr h]

theorem past_length (k : List Bytes) (es : List (Int × Event)) : (past k es).length = es.length := by
  induction es with
  | nil => rfl
  | cons e es ih =>
    obtain ⟨t, e⟩ := e
    cases e <;> simp [past, ih]

theorem serve_lists (hi : ∀ l, (iter l).Perm l) {infos : List Metainfo.Info} {h : List (Int × Event)} {now : Int} (hc : Clock now (h.map (·.1)))
    {remote query : Bytes} {a : Announce} {c : Bool} (hu : understood (hashes infos) remote query = some (a, c)) :
    Good a ∧ Goods (past (hashes infos) h) ∧
    ∃ ps, (serve iter errText now remote query (after iter errText infos h)).1 = answer c ps ∧
      Lists now ((now, some a) :: past (hashes infos) h) a ps := by
  obtain ⟨hf, hk⟩ := newHTTP_fresh infos
  have hinv := run_inv (iter := iter) (errText := errText) hf h now hc
  have hp : past ((newHTTP infos).map (·.1)) h = past (hashes infos) h := past_congr hk h
  rw [hp] at hinv
  have hu' : understood ((after iter errText infos h).map (·.1)) remote query = some (a, c) := by
    unfold after
    rw [hinv.keys, understood_congr hk]
    exact hu
  obtain ⟨hga, _⟩ := understood_good hu
  obtain ⟨table, h1, h2⟩ := serve_understood (iter := iter) (errText := errText) (now := now) hu'
  refine ⟨hga, hinv.goods, _, by rw [h2], ?_⟩
  have ha := (hinv.tables _ (mem_of_lookup h1)).announce hinv.goods hga (Int.le_refl now)
  refine listing_lists hi ?_ hga ha
  intro t b hb
  simp only [List.mem_cons, Prod.mk.injEq, Option.some.injEq] at hb
  rcases hb with ⟨-, rfl⟩ | hb
  · exact hga
  · exact hinv.goods t b hb

theorem live_cons {now : Int} {p : Past} {a : Announce} {hash : Bytes} {e : Place} (h : e ≠ a.place) : Live now ((now, some a) :: p) hash e ↔ Live now p hash e := by
  unfold Live
  have : lastSeen hash e ((now, some a) :: p) = lastSeen hash e p := by
    show (if _ then _ else _) = _
    rw [if_neg fun x => h x.2.symm]
  rw [this]

/-- **C57**, but for one case. Whatever has happened, the response to a valid announce (if it has the compact form, or need not) lists, each exactly once, the
peers other than the requester that have announced the same torrent within the last minute and have not stopped. It does
not list the requester, if the text of its address has always been canonical. -/
theorem C57_listing_partial (hi : ∀ l, (iter l).Perm l) (infos : List Metainfo.Info) (h : List (Int × Event)) (p : Past) (hp : PastOf (hashes infos) h p) (now : Int)
    (hc : Clock now (h.map (·.1))) (remote query : Bytes) (a : Announce) (c : Bool) (hu : Announces (hashes infos) remote query a c) :
    let reply := (serve iter errText now remote query (after iter errText infos h)).1
    ∃ ps, Answered c ps reply.status reply.body ∧
      (∀ e, e ≠ a.place → ((∃ q ∈ ps, ListedAt q e) ↔ Live now p a.hash e)) ∧
      (∀ q ∈ ps, ∃ e, ListedAt q e) ∧ (ps.Pairwise fun q q' => ∀ e, ListedAt q e → ¬ ListedAt q' e) ∧
      ((∀ b, (b = a ∨ ∃ t, (t, some b) ∈ p) → b.hash = a.hash → b.place = a.place → Canonical b.text) →
        ∀ q ∈ ps, ¬ ListedAt q a.place) := by
  obtain rfl := pastOf_iff.mp hp
  rw [← announces_iff] at hu
  intro reply
  obtain ⟨hga, hgs, ps, h1, h2⟩ := serve_lists (errText := errText) hi hc hu
  have hg : ∀ t b, (t, some b) ∈ (now, some a) :: past (hashes infos) h → Good b ∧ (b = a ∨ ∃ t, (t, some b) ∈ past (hashes infos) h) := by
    intro t b hb
    simp only [List.mem_cons, Prod.mk.injEq, Option.some.injEq] at hb
    rcases hb with ⟨-, rfl⟩ | hb
    · exact ⟨hga, .inl rfl⟩
    · exact ⟨hgs t b hb, .inr ⟨t, hb⟩⟩
  have hr : reply = answer c ps := h1
  rw [hr]
  refine ⟨ps, answered c ps, ?_, ?_, h2.once, ?_⟩
  · intro e he
    constructor
    · rintro ⟨q, hq, hat⟩
      obtain ⟨b, t, k1, k2, rfl, k4, k5⟩ := h2.sound q hq
      have : e = b.place := at_unique hat ⟨(hg _ _ k1).1.1, rfl⟩
      rw [this] at he ⊢
      exact (live_cons he).mp k4
    · intro hl
      exact h2.complete e ((live_cons he).mpr hl) he
  · intro q hq
    obtain ⟨b, t, k1, k2, rfl, k4, k5⟩ := h2.sound q hq
    exact ⟨b.place, (hg _ _ k1).1.1, rfl⟩
  · intro hcan q hq hat
    obtain ⟨b, t, k1, k2, rfl, k4, k5⟩ := h2.sound q hq
    have : a.place = b.place := at_unique hat ⟨(hg _ _ k1).1.1, rfl⟩
    exact k5 this.symm (hcan b (hg _ _ k1).2 k2 this.symm)

/-! The examples: a torrent, and announces for it. -/

def Ex.info (x : UInt8) : Metainfo.Info := ⟨List.replicate 20 x, 4, [List.replicate 20 1], b!"x", 4, []⟩

def Ex.query (port ip rest : Bytes) : Bytes :=
  b!"info_hash=aaaaaaaaaaaaaaaaaaaa&peer_id=bbbbbbbbbbbbbbbbbbbb&port=" ++ port ++ b!"&ip=" ++ ip ++ b!"&uploaded=0&downloaded=0&left=4" ++ rest

/-- The peers of a reply. -/
def Ex.peers (r : Reply) : Option (List (Bytes × Int)) :=
  match unmarshalResponse r.body with
  | .ok res => some (((res.peers.bind (·.list)).getD []).map fun q => (q.ip, q.port))
  | _ => none

def Ex.second : Int := 1000000000

def Ex.history : List (Int × Event) := [
  (70 * Ex.second, .request b!"9.9.9.9:1" (Ex.query b!"5" b!"1.2.3.5" b!"&event=stopped")),
  (65 * Ex.second, .request b!"9.9.9.9:1" (Ex.query b!"6" b!"1.2.3.4" b!"&compact=1")),
  (60 * Ex.second, .cleanup),
  (50 * Ex.second, .request b!"9.9.9.9:1" (Ex.query b!"0" b!"1.2.3.4" [])),
  (20 * Ex.second, .request b!"9.9.9.9:1" (Ex.query b!"5" b!"1.2.3.5" [])),
  (15 * Ex.second, .request b!"9.9.9.9:1" (Ex.query b!"7" b!"1.2.3.6" [])),
  (5 * Ex.second, .request b!"9.9.9.9:1" (Ex.query b!"5" [] b!"&event=started"))]

def Ex.err : Bytes → Bytes := fun _ => b!"bad"

/-- ListedAt 71 s two of four are alive and are not the requester. -/
example : Clock (71 * Ex.second) (Ex.history.map (·.1)) ∧
    (∃ a, Announces (hashes [Ex.info 97]) b!"[::1]:80" (Ex.query b!"5" [] []) a false) ∧
    (let reply := (serve (fun t => t.reverse) Ex.err (71 * Ex.second) b!"[::1]:80" (Ex.query b!"5" [] []) (after (fun t => t.reverse) Ex.err [Ex.info 97] Ex.history)).1
     reply.status = 200 ∧ Ex.peers reply = some [(b!"1.2.3.4", 6), (b!"1.2.3.6", 7)]) := by
  refine ⟨by simp [Clock, Ex.history, Ex.second], ⟨⟨List.replicate 20 97, List.replicate 20 98, b!"::1", [0, 0, 0, 0, 0, 0, 0, 0, 0, 0, 0, 0, 0, 0, 0, 1], 5, []⟩, (announces_iff _ _ _ _ _).mp (by kernel_rfl)⟩, by kernel_rfl, by kernel_rfl⟩

/-- **C57** is false of the code in this case: who announces from `0::1` is told about itself, because the tracker compares the
text it was given with the canonical one. -/
theorem C57_self_refuted :
    let query := Ex.query b!"5" b!"0::1" []
    let reply := (serve (fun t => t) Ex.err 0 b!"9.9.9.9:1" query (after (fun t => t) Ex.err [Ex.info 97] [])).1
    ∃ a ps, Announces (hashes [Ex.info 97]) b!"9.9.9.9:1" query a false ∧ Answered false ps reply.status reply.body ∧ ∃ q ∈ ps, ListedAt q a.place :=
  ⟨⟨List.replicate 20 97, List.replicate 20 98, b!"0::1", [0, 0, 0, 0, 0, 0, 0, 0, 0, 0, 0, 0, 0, 0, 0, 1], 5, []⟩, [⟨List.replicate 20 98, b!"0::1", 5⟩],
    (announces_iff _ _ _ _ _).mp (by kernel_rfl), .inl ⟨by kernel_rfl, by rw [IsAnswer, if_neg (by simp), if_neg (by simp)]; kernel_rfl⟩, _, List.mem_singleton.mpr rfl, (Net.parseIP_iff _ _).mp (by kernel_rfl), rfl⟩

/-! ### C58 -/

theorem fail_400 (reason : Bytes) (h : reason.length ≤ 2 ^ 48) : (fail reason).status = 400 ∧ unmarshalResponse (fail reason).body = .ok { failureReason := reason } := by
  obtain ⟨out, o', h1, h2, h3⟩ := C78_response_partial { interval := 0, failureReason := reason }
    ⟨h, by simp [FitsInt64], by simp, by simp, by simp [FitsInt64], by simp, by simp [FitsInt64], by simp [FitsInt64]⟩
  have h3 := h3 []
  rw [List.append_nil] at h3
  unfold fail
  rw [h1]
  simp only [ReceivedOpt] at h2
  subst h2
  exact ⟨rfl, h3⟩

/-- **C58.** An announce that cannot be decoded, is for an unknown torrent, has an address that cannot be parsed (or comes from one
that cannot be split), or has port 0, is refused with status 400 and changes nothing. -/
theorem C58_refused (t : HTTP) (now : Int) (remote query : Bytes) (herr : (errText query).length ≤ 2 ^ 48)
    (hu : ∀ a c, ¬ Announces (t.map (·.1)) remote query a c) :
    (serve iter errText now remote query t).1.status = 400 ∧ (serve iter errText now remote query t).2 = t := by
  have h : ∀ r text, Request.zero.decode query = .ok r → r.infoHash ∈ t.map (·.1) → (r.ip ≠ [] → text = r.ip) → (r.ip = [] → splitHost remote = some text) →
      Net.parseIP text = none ∨ r.port = 0 := by
    intro r text hr hk h1 h2
    cases hip : Net.parseIP text with
    | none => exact .inl rfl
    | some ip =>
      refine .inr (Classical.byContradiction fun hp => hu ⟨r.infoHash, r.peerID, text, ip, r.port, r.event⟩ r.compact
        ⟨r, (decode_iff _ _).mp hr, rfl, hk, rfl, ?_, (Net.parseIP_iff _ _).mp hip, rfl, hp, rfl, rfl⟩)
      split
      · rename_i h0; exact (splitHost_iff _ _).mp (h2 h0)
      · rename_i h0; exact h1 h0
  rw [← not_announces] at hu
  refine ⟨?_, (serve_not_understood hu).1⟩
  unfold serve
  split
  · exact (fail_400 _ herr).1
  · exact (fail_400 _ herr).1
  · split
    · exact (fail_400 _ (by simp)).1
    · split
      · rfl
      · split
        · exact (fail_400 _ (by simp)).1
        · split
          · exact (fail_400 _ (by simp)).1
          · rename_i r hr _ table hl _ text ht _ ip hip hp
            exfalso
            have := h r text hr (by
              cases hm : decide (r.infoHash ∈ t.map (·.1)) with
              | true => exact of_decide_eq_true hm
              | false =>
                rw [lookup_none.mpr (of_decide_eq_false hm)] at hl
                cases hl) (by intro hne; rw [if_neg hne] at ht; exact (Option.some.inj ht).symm) (by intro he; rw [if_pos he] at ht; exact ht)
            rcases this with e | e
            · rw [e] at hip; cases hip
            · exact hp e

theorem lookup_assign_ne {α : Type} {m : List (Bytes × α)} {k k' : Bytes} {v : α} (h : k' ≠ k) : (assign m k v).lookup k' = m.lookup k' := by
  have happ : ∀ m : List (Bytes × α), (m ++ [(k, v)]).lookup k' = m.lookup k' := by
    intro m
    induction m with
    | nil => simp [List.lookup, show (k' == k) = false by simpa using h]
    | cons e m ih =>
      obtain ⟨x, y⟩ := e
      rw [List.cons_append, List.lookup_cons, List.lookup_cons, ih]
  have hmap : ∀ m : List (Bytes × α), (m.map fun e => if e.1 = k then (k, v) else e).lookup k' = m.lookup k' := by
    intro m
    induction m with
    | nil => rfl
    | cons e m ih =>
      obtain ⟨x, y⟩ := e
      rw [List.map_cons]
      simp only
      by_cases hx : x = k
      · subst hx
        rw [if_pos rfl, List.lookup_cons, List.lookup_cons, show (k' == x) = false by simpa using h]
        exact ih
      · rw [if_neg hx, List.lookup_cons, List.lookup_cons, ih]
  unfold assign
  split
  · exact hmap m
  · exact happ m

/-- **C58.** A request, whatever it is, changes at most the peers of the torrent that it is for; torrents are neither added nor
removed. -/
theorem C58_other (t : HTTP) (now : Int) (remote query hash : Bytes)
    (h : ∀ r, IsRequest query r → r.infoHash ≠ hash) :
    (serve iter errText now remote query t).2.lookup hash = t.lookup hash ∧ (serve iter errText now remote query t).2.map (·.1) = t.map (·.1) := by
  cases hu : understood (t.map (·.1)) remote query with
  | none => rw [(serve_not_understood hu).1]; exact ⟨rfl, rfl⟩
  | some ac =>
    obtain ⟨a, c⟩ := ac
    obtain ⟨table, h1, h2⟩ := serve_understood (iter := iter) (errText := errText) (now := now) hu
    have hh : ∃ r, Request.zero.decode query = .ok r ∧ r.infoHash = a.hash := by
      unfold understood at hu
      split at hu
      · rename_i r hr
        refine ⟨r, hr, ?_⟩
        split at hu
        · split at hu
          · cases hu
          · split at hu
            · cases hu
            · split at hu <;> cases hu
              rfl
        · cases hu
      · cases hu
    obtain ⟨r, hr, hh⟩ := hh
    rw [h2]
    refine ⟨lookup_assign_ne fun e => h r ((decode_iff _ _).mp hr) (hh.trans e.symm), assign_keys_eq ?_⟩
    exact (understood_good hu).2

/-- A bad address; the wrong torrent. -/
example : let t := after (fun t => t) Ex.err [Ex.info 97] Ex.history
    (serve (fun t => t) Ex.err 0 b!"9.9.9.9:1" (Ex.query b!"5" b!"1.2.3" []) t).1 = ⟨400, b!"d14:failure reason6:bad ip8:intervali0ee"⟩ ∧
    (serve (fun t => t) Ex.err 0 b!"9.9.9.9:1" (Ex.query b!"5" [] []) (newHTTP [Ex.info 98])).1 = ⟨400, b!"d14:failure reason17:unknown info hash8:intervali0ee"⟩ ∧
    (serve (fun t => t) Ex.err 0 b!"9.9.9.9" (Ex.query b!"5" [] []) t).1 = ⟨400, []⟩ := ⟨by kernel_rfl, by kernel_rfl, by kernel_rfl⟩

/-! ### C59 -/

/-- **C59** is false of the code. One peer with an IPv6 address makes every announce in the compact form fail. Who is alone and asks
for the other form gets a response that cannot be decoded. A port that is no port is accepted, and another one is listed. -/
theorem C59_answered_refuted :
    (let t := after (fun t => t) Ex.err [Ex.info 97] [(0, .request b!"[::1]:1" (Ex.query b!"5" [] []))]
     (∃ a, Announces (hashes [Ex.info 97]) b!"9.9.9.9:1" (Ex.query b!"6" [] b!"&compact=1") a true) ∧
     (serve (fun t => t) Ex.err 0 b!"9.9.9.9:1" (Ex.query b!"6" [] b!"&compact=1") t).1 = ⟨500, []⟩) ∧
    (let reply := (serve (fun t => t) Ex.err 0 b!"9.9.9.9:1" (Ex.query b!"6" [] []) (after (fun t => t) Ex.err [Ex.info 97] [])).1
     reply = ⟨200, b!"d8:intervali30e5:peerse"⟩ ∧ unmarshalResponse reply.body = .err .syntax) ∧
    (let t := after (fun t => t) Ex.err [Ex.info 97] [(0, .request b!"1.1.1.1:1" (Ex.query b!"70000" [] []))]
     Ex.peers (serve (fun t => t) Ex.err 0 b!"9.9.9.9:1" (Ex.query b!"6" [] b!"&compact=1") t).1 = some [(b!"1.1.1.1", 4464)]) :=
  ⟨⟨⟨⟨List.replicate 20 97, List.replicate 20 98, b!"9.9.9.9", [0, 0, 0, 0, 0, 0, 0, 0, 0, 0, 255, 255, 9, 9, 9, 9], 6, []⟩, (announces_iff _ _ _ _ _).mp (by kernel_rfl)⟩, by kernel_rfl⟩, ⟨by kernel_rfl, by kernel_rfl⟩, by kernel_rfl⟩

/-- What is listed, as in C57. -/
theorem Lists.iff {now : Int} {p : Past} {a : Announce} {ps : List Tracker.Peer} (hg : ∀ t b, (t, some b) ∈ p → Good b)
    (ha : Good a) (h : Lists now ((now, some a) :: p) a ps) (e : Place) (he : e ≠ a.place) : (∃ q ∈ ps, ListedAt q e) ↔ Live now p a.hash e := by
  have hg : ∀ t b, (t, some b) ∈ (now, some a) :: p → Good b := by
    intro t b hb
    simp only [List.mem_cons, Prod.mk.injEq, Option.some.injEq] at hb
    rcases hb with ⟨-, rfl⟩ | hb
    · exact ha
    · exact hg t b hb
  constructor
  · rintro ⟨q, hq, hat⟩
    obtain ⟨b, t, k1, k2, rfl, k4, k5⟩ := h.sound q hq
    have : e = b.place := at_unique hat ⟨(hg _ _ k1).1, rfl⟩
    rw [this] at he ⊢
    exact (live_cons he).mp k4
  · intro hl
    exact h.complete e ((live_cons he).mpr hl) he

theorem appended_getD (ps : List Tracker.Peer) : (appended ps).getD [] = ps := by
  cases ps <;> rfl

/-- **C59**, for swarms that can be listed. If every live peer of the torrent (the requester excepted, unless its text is not canonical) has announced an IPv4
address and a port below 65536, a valid announce in the compact form gets a response with status 200 that a client decodes to
the peers that are to be listed (as in C57), in some order. In the other form this needs another live peer. -/
theorem C59_answered_partial (hi : ∀ l, (iter l).Perm l) (infos : List Metainfo.Info) (h : List (Int × Event)) (p : Past) (hp : PastOf (hashes infos) h p) (now : Int)
    (hc : Clock now (h.map (·.1))) (remote query : Bytes) (a : Announce) (c : Bool) (hu : Announces (hashes infos) remote query a c)
    (hlen : h.length < 2 ^ 45)
    (hb : ∀ b, (b = a ∨ ∃ t, (t, some b) ∈ p) → b.hash = a.hash → Live now ((now, some a) :: p) a.hash b.place →
      (b.place = a.place → ¬ Canonical b.text) →
      if c then ∃ e : Endpoint, e.port < 65536 ∧ b.text = e.ip ∧ b.port = e.port else b.text.length ≤ 2 ^ 48)
    (hne : c = false → ∃ e, e ≠ a.place ∧ Live now p a.hash e) :
    let reply := (serve iter errText now remote query (after iter errText infos h)).1
    reply.status = 200 ∧ ∃ l, unmarshalResponse reply.body = .ok { interval := 30, peers := some ⟨c, l⟩ } ∧
      (∀ e, e ≠ a.place → ((∃ q ∈ l.getD [], ListedAt q e) ↔ Live now p a.hash e)) ∧
      (∀ q ∈ l.getD [], ∃ e, ListedAt q e) ∧ ((l.getD []).Pairwise fun q q' => ∀ e, ListedAt q e → ¬ ListedAt q' e) ∧
      ((∀ b, (b = a ∨ ∃ t, (t, some b) ∈ p) → b.hash = a.hash → b.place = a.place → Canonical b.text) →
        ∀ q ∈ l.getD [], ¬ ListedAt q a.place) := by
  obtain rfl := pastOf_iff.mp hp
  rw [← announces_iff] at hu
  intro reply
  obtain ⟨hga, hgs, ps, h1, h2⟩ := serve_lists (errText := errText) hi hc hu
  have hr : reply = answer c ps := h1
  have hg : ∀ t b, (t, some b) ∈ (now, some a) :: past (hashes infos) h → Good b ∧ (b = a ∨ ∃ t, (t, some b) ∈ past (hashes infos) h) := by
    intro t b hb
    simp only [List.mem_cons, Prod.mk.injEq, Option.some.injEq] at hb
    rcases hb with ⟨-, rfl⟩ | hb
    · exact ⟨hga, .inl rfl⟩
    · exact ⟨hgs t b hb, .inr ⟨t, hb⟩⟩
  have hshort : ps.length ≤ 2 ^ 45 := by
    have := h2.short
    rw [List.length_cons, past_length] at this
    omega
  have hsend : Sendable ⟨c, appended ps⟩ := by
    unfold Sendable
    simp only [appended_getD]
    cases c with
    | true =>
      simp only [if_true]
      refine ⟨by omega, fun q hq => ?_⟩
      obtain ⟨b, t, k1, k2, rfl, k4, k5⟩ := h2.sound q hq
      have := hb b (hg _ _ k1).2 k2 k4 k5
      rw [if_pos rfl] at this
      exact this
    | false =>
      simp only [Bool.false_eq_true, if_false]
      obtain ⟨e, he, hl⟩ := hne rfl
      obtain ⟨q, hq, _⟩ := (h2.iff hgs hga e he).mpr hl
      refine ⟨ps, ?_, fun q hq => ?_⟩
      · cases ps with
        | nil => cases hq
        | cons => rfl
      · obtain ⟨b, t, k1, k2, rfl, k4, k5⟩ := h2.sound q hq
        have := hb b (hg _ _ k1).2 k2 k4 k5
        rw [if_neg (by simp)] at this
        obtain ⟨_, hid, hport, _⟩ := (hg _ _ k1).1
        exact ⟨by simp only [hid]; omega, this, hport⟩
  obtain ⟨out, o', k1, k2, k3⟩ := C78_response_partial { interval := 30, peers := some ⟨c, appended ps⟩ }
    ⟨by simp, by simp [FitsInt64], by rintro p ⟨⟩; exact hsend, by simp, by simp [FitsInt64], by simp, by simp [FitsInt64], by simp [FitsInt64]⟩
  obtain ⟨⟨c', l⟩, rfl, hc', hl⟩ := k2
  simp only at hc' hl
  subst hc'
  have k3 := k3 []
  rw [List.append_nil] at k3
  have hans : answer c' ps = ⟨200, out⟩ := by
    unfold answer
    rw [k1]
  rw [hr, hans]
  rw [appended_getD] at hl
  have hat : ∀ (q : Tracker.Peer) e, ListedAt { q with id := [] } e ↔ ListedAt q e := fun q e => Iff.rfl
  have hmem : ∀ e, (∃ q ∈ l.getD [], ListedAt q e) ↔ ∃ q ∈ ps, ListedAt q e := by
    intro e
    rw [hl]
    cases c' with
    | true =>
      rw [if_pos rfl]
      constructor
      · rintro ⟨q, hq, h⟩
        obtain ⟨q', hq', rfl⟩ := List.mem_map.mp hq
        exact ⟨q', hq', h⟩
      · rintro ⟨q, hq, h⟩
        exact ⟨_, List.mem_map.mpr ⟨q, hq, rfl⟩, h⟩
    | false => rw [if_neg (by simp)]
  refine ⟨rfl, l, k3, ?_, ?_, ?_, ?_⟩
  · intro e he
    rw [hmem]
    exact h2.iff hgs hga e he
  · intro q hq
    have : ∃ q' ∈ ps, ∀ e, ListedAt q e ↔ ListedAt q' e := by
      rw [hl] at hq
      cases c' with
      | true =>
        rw [if_pos rfl] at hq
        obtain ⟨q', hq', rfl⟩ := List.mem_map.mp hq
        exact ⟨q', hq', fun _ => Iff.rfl⟩
      | false =>
        rw [if_neg (by simp)] at hq
        exact ⟨q, hq, fun _ => Iff.rfl⟩
    obtain ⟨q', hq', hqe⟩ := this
    obtain ⟨b, t, k1, k2, rfl, k4, k5⟩ := h2.sound q' hq'
    exact ⟨b.place, (hqe _).mpr ⟨(hg _ _ k1).1.1, rfl⟩⟩
  · rw [hl]
    cases c' with
    | true =>
      rw [if_pos rfl, List.pairwise_map]
      exact h2.once
    | false =>
      rw [if_neg (by simp)]
      exact h2.once
  · intro hcan q hq hself
    obtain ⟨q', hq', hat'⟩ := (hmem a.place).mp ⟨q, hq, hself⟩
    obtain ⟨b, t, k1, k2, rfl, k4, k5⟩ := h2.sound q' hq'
    have : a.place = b.place := at_unique hat' ⟨(hg _ _ k1).1.1, rfl⟩
    exact k5 this.symm (hcan b (hg _ _ k1).2 k2 this.symm)

theorem compactForm_exists (ps : List Tracker.Peer) : (∃ s, CompactForm (ps.map fun q => (q.ip, q.port)) s) ↔ ∀ q ∈ ps, ∃ w x y z, IsAddress q.ip (mapped w x y z) := by
  constructor
  · rintro ⟨s, hs⟩ q hq
    exact Tracker.compactForm_mem hs (List.mem_map.mpr ⟨q, hq, rfl⟩)
  · induction ps with
    | nil => exact fun _ => ⟨_, .nil⟩
    | cons q ps ih =>
      intro hq
      obtain ⟨w, x, y, z, hw⟩ := hq q List.mem_cons_self
      obtain ⟨s, hs⟩ := ih fun q' hq' => hq q' (List.mem_cons_of_mem _ hq')
      exact ⟨_, .cons hw hs⟩

/-- **C59**, exactly when there is an answer of use. (The texts of the requester's address have always been canonical, so that it is not listed itself.) In the compact form a valid announce fails, with status 500
and nothing else, exactly when some other live peer has an address that is not an IPv4 address. In the other form there is always a response, and if nobody else is alive it is one that no client can read. -/
theorem C59_exactly_partial (hi : ∀ l, (iter l).Perm l) (infos : List Metainfo.Info) (h : List (Int × Event)) (p : Past) (hp : PastOf (hashes infos) h p) (now : Int)
    (hc : Clock now (h.map (·.1))) (remote query : Bytes) (a : Announce) (c : Bool) (hu : Announces (hashes infos) remote query a c)
    (hcan : ∀ b, (b = a ∨ ∃ t, (t, some b) ∈ p) → b.hash = a.hash → b.place = a.place → Canonical b.text) :
    let reply := (serve iter errText now remote query (after iter errText infos h)).1
    (reply.status = 200 ∨ reply = ⟨500, []⟩) ∧
    (reply.status = 500 ↔ c = true ∧ ∃ e, e ≠ a.place ∧ Live now p a.hash e ∧ ∀ w x y z, e.1 ≠ mapped w x y z) ∧
    (c = false → (∀ e, e ≠ a.place → ¬ Live now p a.hash e) → reply.body = b!"d8:intervali30e5:peerse" ∧ unmarshalResponse reply.body = .err .syntax) := by
  intro reply
  obtain ⟨ps, h1, h2, h3, -, h5⟩ := C57_listing_partial (iter := iter) (errText := errText) hi infos h p hp now hc remote query a c hu
  have h5 := h5 hcan
  change Answered c ps reply.status reply.body at h1
  have hform := compactForm_exists ps
  have hall : (∀ q ∈ ps, ∃ w x y z, IsAddress q.ip (mapped w x y z)) ↔ ¬ ∃ e, e ≠ a.place ∧ Live now p a.hash e ∧ ∀ w x y z, e.1 ≠ mapped w x y z := by
    constructor
    · rintro hq ⟨e, he, hl, hn⟩
      obtain ⟨q, hq', hat⟩ := (h2 e he).mpr hl
      obtain ⟨w, x, y, z, hw⟩ := hq q hq'
      exact hn w x y z (address_unique hat.1 hw)
    · intro hn q hq
      obtain ⟨e, hat⟩ := h3 q hq
      have he : e ≠ a.place := fun e' => h5 q hq (e' ▸ hat)
      refine Classical.byContradiction fun hw => hn ⟨e, he, (h2 e he).mp ⟨q, hq, hat⟩, fun w x y z hz => hw ⟨w, x, y, z, hz ▸ hat.1⟩⟩
  rcases h1 with ⟨k1, k2⟩ | ⟨k1, k2, k3, k4⟩
  · refine ⟨.inl k1, ⟨fun h => (by rw [k1] at h; cases h), fun ⟨hc, he⟩ => ?_⟩, fun hc hn => ?_⟩
    · subst hc
      unfold IsAnswer at k2
      rw [if_pos rfl] at k2
      obtain ⟨s, hs, -⟩ := k2
      exact absurd he (hall.mp (hform.mp ⟨s, hs⟩))
    · subst hc
      unfold IsAnswer at k2
      have : ps = [] := by
        cases ps with
        | nil => rfl
        | cons q ps =>
          obtain ⟨e, he⟩ := h3 q List.mem_cons_self
          have hne : e ≠ a.place := fun e' => h5 q List.mem_cons_self (e' ▸ he)
          exact absurd ((h2 e hne).mp ⟨q, List.mem_cons_self, he⟩) (hn e hne)
      rw [if_neg (by simp), if_pos this] at k2
      rw [k2]
      exact ⟨rfl, C78_nil_list_refuted.2⟩
  · refine ⟨.inr ?_, ⟨fun _ => ⟨k3, ?_⟩, fun _ => k1⟩, fun hc => ?_⟩
    · generalize reply = r at *
      cases r
      simp only at k1 k2
      rw [k1, k2]
    · exact Classical.byContradiction fun hn => k4 (hform.mpr (hall.mpr hn))
    · rw [hc] at k3; cases k3

/-- The client at 9.9.9.9 asks for the compact form 71 s after the beginning of the history above. -/
def Ex.asks : Announce := ⟨List.replicate 20 97, List.replicate 20 98, b!"9.9.9.9", [0, 0, 0, 0, 0, 0, 0, 0, 0, 0, 255, 255, 9, 9, 9, 9], 6, []⟩

theorem Ex.asks_announces : Announces (hashes [Ex.info 97]) b!"9.9.9.9:1" (Ex.query b!"6" [] b!"&compact=1") Ex.asks true := (announces_iff _ _ _ _ _).mp (by kernel_rfl)

theorem Ex.past_texts : (past (hashes [Ex.info 97]) Ex.history).filterMap (fun x => x.2.map fun b => (b.text, b.port)) =
    [(b!"1.2.3.5", 5), (b!"1.2.3.4", 6), (b!"1.2.3.5", 5), (b!"1.2.3.6", 7), (b!"9.9.9.9", 5)] := by kernel_rfl

example : let reply := (serve (fun t => t) Ex.err (71 * Ex.second) b!"9.9.9.9:1" (Ex.query b!"6" [] b!"&compact=1") (after (fun t => t) Ex.err [Ex.info 97] Ex.history)).1
    reply.status = 200 ∧ ∃ l, unmarshalResponse reply.body = .ok { interval := 30, peers := some ⟨true, l⟩ } := by
  have h := C59_answered_partial (iter := fun t => t) (errText := Ex.err) (fun _ => .refl _) [Ex.info 97] Ex.history _ (pastOf_iff.mpr rfl) (71 * Ex.second) (by simp [Clock, Ex.history, Ex.second])
    b!"9.9.9.9:1" (Ex.query b!"6" [] b!"&compact=1") Ex.asks true Ex.asks_announces (by decide)
    (by
      intro b hb _ _ _
      rw [if_pos rfl]
      rcases hb with rfl | ⟨t, hb⟩
      · exact ⟨⟨9, 9, 9, 9, 6⟩, by decide, by kernel_rfl, rfl⟩
      · have : (b.text, b.port) ∈ (past (hashes [Ex.info 97]) Ex.history).filterMap (fun x => x.2.map fun b => (b.text, b.port)) := List.mem_filterMap.mpr ⟨_, hb, rfl⟩
        rw [Ex.past_texts] at this
        simp only [List.mem_cons, Prod.mk.injEq, List.not_mem_nil, or_false] at this
        rcases this with ⟨h1, h2⟩ | ⟨h1, h2⟩ | ⟨h1, h2⟩ | ⟨h1, h2⟩ | ⟨h1, h2⟩ <;> rw [h1, h2]
        · exact ⟨⟨1, 2, 3, 5, 5⟩, by decide, by kernel_rfl, rfl⟩
        · exact ⟨⟨1, 2, 3, 4, 6⟩, by decide, by kernel_rfl, rfl⟩
        · exact ⟨⟨1, 2, 3, 5, 5⟩, by decide, by kernel_rfl, rfl⟩
        · exact ⟨⟨1, 2, 3, 6, 7⟩, by decide, by kernel_rfl, rfl⟩
        · exact ⟨⟨9, 9, 9, 9, 5⟩, by decide, by kernel_rfl, rfl⟩)
    (fun h => by cases h)
  exact ⟨h.1, h.2.imp fun _ h => h.1⟩

example : Ex.peers (serve (fun t => t) Ex.err (71 * Ex.second) b!"9.9.9.9:1" (Ex.query b!"6" [] b!"&compact=1") (after (fun t => t) Ex.err [Ex.info 97] Ex.history)).1 =
    some [(b!"1.2.3.6", 7), (b!"1.2.3.4", 6)] := by kernel_rfl

/-! ### C82: peer ids -/

/-- **C82** is false of the code: a client that comes back with another id within a minute is listed with its old id. -/
theorem C82_id_refuted :
    let q (id : Bytes) : Bytes := b!"info_hash=aaaaaaaaaaaaaaaaaaaa&peer_id=" ++ id ++ b!"&port=5&uploaded=0&downloaded=0&left=4"
    let t := after (fun t => t) Ex.err [Ex.info 97] [(1, .request b!"1.1.1.1:1" (q b!"22222222222222222222")), (0, .request b!"1.1.1.1:1" (q b!"11111111111111111111"))]
    unmarshalResponse (serve (fun t => t) Ex.err 2 b!"2.2.2.2:1" (q b!"33333333333333333333") t).1.body =
      .ok { interval := 30, peers := some ⟨false, some [⟨b!"11111111111111111111", b!"1.1.1.1", 5⟩]⟩ } := by kernel_rfl

/-- **C82**, partially: every peer that is listed has announced exactly these (id, address and port) for the torrent. Its id is the latest
if all its announces from that address have had the same id. -/
theorem C82_id_partial (hi : ∀ l, (iter l).Perm l) (infos : List Metainfo.Info) (h : List (Int × Event)) (p : Past) (hp : PastOf (hashes infos) h p) (now : Int)
    (hc : Clock now (h.map (·.1))) (remote query : Bytes) (a : Announce) (c : Bool) (hu : Announces (hashes infos) remote query a c) :
    let reply := (serve iter errText now remote query (after iter errText infos h)).1
    ∃ ps, Answered c ps reply.status reply.body ∧
      ∀ q ∈ ps, ∃ b, (b = a ∨ ∃ t, (t, some b) ∈ p) ∧ b.hash = a.hash ∧ q = ⟨b.id, b.text, b.port⟩ := by
  obtain rfl := pastOf_iff.mp hp
  rw [← announces_iff] at hu
  intro reply
  obtain ⟨hga, hgs, ps, h1, h2⟩ := serve_lists (errText := errText) hi hc hu
  have hr : reply = answer c ps := h1
  rw [hr]
  refine ⟨ps, answered c ps, ?_⟩
  intro q hq
  obtain ⟨b, t, k1, k2, rfl, -, -⟩ := h2.sound q hq
  refine ⟨b, ?_, k2, rfl⟩
  simp only [List.mem_cons, Prod.mk.injEq, Option.some.injEq] at k1
  rcases k1 with ⟨-, rfl⟩ | k1
  · exact .inl rfl
  · exact .inr ⟨t, k1⟩

/-- Somebody announces from `::1`. For a minute after that the client at 9.9.9.9 gets nothing, and then it gets an answer. -/
example : let t := after (fun t => t) Ex.err [Ex.info 97] [(0, .request b!"[::1]:1" (Ex.query b!"5" [] []))]
    (serve (fun t => t) Ex.err (60 * Ex.second) b!"9.9.9.9:1" (Ex.query b!"6" [] b!"&compact=1") t).1.status = 500 ∧
    (serve (fun t => t) Ex.err (60 * Ex.second + 1) b!"9.9.9.9:1" (Ex.query b!"6" [] b!"&compact=1") t).1.status = 200 := by
  have hp : past (hashes [Ex.info 97]) [(0, .request b!"[::1]:1" (Ex.query b!"5" [] []))] =
      [(0, some ⟨List.replicate 20 97, List.replicate 20 98, b!"::1", [0, 0, 0, 0, 0, 0, 0, 0, 0, 0, 0, 0, 0, 0, 0, 1], 5, []⟩)] := by kernel_rfl
  refine ⟨?_, by kernel_rfl⟩
  have h := C59_exactly_partial (iter := fun t => t) (errText := Ex.err) (fun _ => .refl _) [Ex.info 97] [(0, .request b!"[::1]:1" (Ex.query b!"5" [] []))] _
    (pastOf_iff.mpr rfl) (60 * Ex.second) (by simp [Clock, Ex.second]) b!"9.9.9.9:1" (Ex.query b!"6" [] b!"&compact=1") Ex.asks true Ex.asks_announces (by
      rw [hp]
      rintro b (rfl | ⟨t, hb⟩) _ h
      · exact ⟨_, (Net.recommended_iff (ip := Ex.asks.ip) rfl _).mpr (by kernel_rfl)⟩
      · simp only [List.mem_singleton, Prod.mk.injEq, Option.some.injEq] at hb
        rw [hb.2] at h
        exact absurd (congrArg Prod.snd h) (by decide))
  rw [hp] at h
  refine h.2.1.mpr ⟨rfl, ([0, 0, 0, 0, 0, 0, 0, 0, 0, 0, 0, 0, 0, 0, 0, 1], 5), fun e => absurd (congrArg Prod.snd e) (by decide), ⟨0, [], by kernel_rfl, by decide, by decide⟩, fun w x y z e => ?_⟩
  exact absurd (congrArg (fun l => l[10]?) e) (by simp [mapped])

/-! ### C60: cleanup -/

/-- **C60.** A cleanup removes exactly the peers that have stopped or have not announced for a minute, from every torrent. -/
theorem C60_removes (now : Int) (t : HTTP) (hash : Bytes) :
    (cleanup now t).lookup hash = (t.lookup hash).map fun table => table.filter fun x => x.2.lastEvent ≠ b!"stopped" ∧ now - x.2.updatedAt ≤ 60 * 1000000000 := by
  have : (fun x : Bytes × Peer => !gone now x.2) = fun x => decide (x.2.lastEvent ≠ b!"stopped" ∧ now - x.2.updatedAt ≤ 60 * 1000000000) := by
    funext x
    unfold gone minute
    rw [Bool.eq_iff_iff]
    simp [Bool.and_eq_true]
  induction t with
  | nil => rfl
  | cons e t ih =>
    obtain ⟨k, v⟩ := e
    simp only [cleanup, List.map_cons, List.lookup_cons] at ih ⊢
    cases hash == k with
    | true => simp only [Option.map_some, this]
    | false => exact ih

/-- The same torrents; in the second state some peers are missing from each, all of which are gone at time `c` and have
one of the keys in `D`. -/
def Less (c : Int) (D : Bytes → Bytes → Bool) (t t' : HTTP) : Prop :=
  t' = t.map (fun e => (e.1, e.2.filter fun x => !D e.1 x.1)) ∧ ∀ e ∈ t, ∀ x ∈ e.2, D e.1 x.1 = true → gone c x.2 = true

theorem assign_filter {α : Type} {m : List (Bytes × α)} {k : Bytes} {v : α} {P : Bytes → Bool} (h : P k = true) :
    assign (m.filter fun x => P x.1) k v = (assign m k v).filter fun x => P x.1 := by
  unfold assign
  by_cases hk : m.any (·.1 == k) = true
  · have : (m.filter fun x => P x.1).any (·.1 == k) = true := by
      simp only [List.any_eq_true, beq_iff_eq, List.mem_filter] at hk ⊢
      obtain ⟨x, hx, hk⟩ := hk
      exact ⟨x, ⟨hx, by rw [hk]; exact h⟩, hk⟩
    rw [if_pos hk, if_pos this, List.filter_map]
    congr 1
    apply List.filter_congr
    intro x _
    simp only [Function.comp]
    split
    · rename_i e; rw [e]
    · rfl
  · have : ¬ (m.filter fun x => P x.1).any (·.1 == k) = true := by
      simp only [List.any_eq_true, beq_iff_eq, List.mem_filter] at hk ⊢
      rintro ⟨x, ⟨hx, _⟩, he⟩
      exact hk ⟨x, hx, he⟩
    rw [if_neg hk, if_neg this, List.filter_append]
    simp [h]

theorem lookup_filter {α : Type} {m : List (Bytes × α)} {k : Bytes} {P : Bytes → Bool} (h : P k = true) :
    (m.filter fun x => P x.1).lookup k = m.lookup k := by
  induction m with
  | nil => rfl
  | cons e m ih =>
    obtain ⟨x, y⟩ := e
    rw [List.lookup_cons]
    by_cases hx : k = x
    · subst hx
      rw [List.filter_cons_of_pos (by exact h)]
      simp [List.lookup_cons]
    · rw [show (k == x) = false by simpa using hx]
      simp only
      rw [← ih]
      by_cases hp : P x = true
      · rw [List.filter_cons_of_pos (by exact hp), List.lookup_cons, show (k == x) = false by simpa using hx]
      · rw [List.filter_cons_of_neg (by exact hp)]

theorem lookup_map {α β : Type} {m : List (Bytes × α)} {k : Bytes} (f : Bytes → α → β) : (m.map fun e => (e.1, f e.1 e.2)).lookup k = (m.lookup k).map (f k) := by
  induction m with
  | nil => rfl
  | cons e m ih =>
    obtain ⟨x, y⟩ := e
    rw [List.map_cons, List.lookup_cons, List.lookup_cons]
    by_cases hx : k = x
    · subst hx; simp
    · rw [show (k == x) = false by simpa using hx]
      exact ih

theorem map_assign {α β : Type} {m : List (Bytes × α)} {k : Bytes} {v : α} (f : Bytes → α → β) :
    (assign m k v).map (fun e => (e.1, f e.1 e.2)) = assign (m.map fun e => (e.1, f e.1 e.2)) k (f k v) := by
  unfold assign
  have : (m.map fun e => (e.1, f e.1 e.2)).any (·.1 == k) = m.any (·.1 == k) := by
    rw [List.any_map]; rfl
  rw [this]
  split
  · rw [List.map_map, List.map_map]
    apply List.map_congr_left
    intro x _
    simp only [Function.comp]
    split <;> rfl
  · simp

theorem Less.keys {c : Int} {D : Bytes → Bytes → Bool} {t t' : HTTP} (h : Less c D t t') : t'.map (·.1) = t.map (·.1) := by
  rw [h.1, List.map_map]; rfl

/-- What an announce finds, and what it leaves, in both states. -/
theorem Less.request {c now : Int} {D : Bytes → Bytes → Bool} {t t' : HTTP} (h : Less c D t t') (hn : c ≤ now) {remote query : Bytes} {a : Announce} {cm : Bool}
    (hu : understood (t.map (·.1)) remote query = some (a, cm)) (hD : D a.hash (key a.place) = false) :
    ∃ table table',
      serve iter errText now remote query t = (answer cm (listing now (key a.place) (iter table)), assign t a.hash table) ∧
      serve iter errText now remote query t' = (answer cm (listing now (key a.place) (iter table')), assign t' a.hash table') ∧
      table' = table.filter (fun x => !D a.hash x.1) ∧ (∀ x ∈ table, D a.hash x.1 = true → gone c x.2 = true) := by
  obtain ⟨table, h1, h2⟩ := serve_understood (iter := iter) (errText := errText) (now := now) hu
  have hu' : understood (t'.map (·.1)) remote query = some (a, cm) := by rw [h.keys]; exact hu
  obtain ⟨table', h1', h2'⟩ := serve_understood (iter := iter) (errText := errText) (now := now) hu'
  have he : table' = table.filter fun x => !D a.hash x.1 := by
    have := lookup_map (m := t) (k := a.hash) fun k (tb : Table) => tb.filter fun x => !D k x.1
    rw [h.1, this, h1] at h1'
    exact (Option.some.inj h1').symm
  refine ⟨_, _, h2, h2', ?_, ?_⟩
  · rw [← assign_filter (P := fun k => !D a.hash k) (by simp [hD]), he]
    congr 1
    unfold newEntry
    rw [lookup_filter (P := fun k => !D a.hash k) (by simp [hD])]
  · intro x hx hd
    rcases mem_assign.mp hx with rfl | ⟨hx, _⟩
    · rw [hD] at hd; cases hd
    · exact h.2 _ (mem_of_lookup h1) x hx hd

theorem gone_mono {c now : Int} (h : c ≤ now) {p : Peer} (hg : gone c p = true) : gone now p = true := by
  unfold gone at *
  simp only [Bool.or_eq_true, beq_iff_eq, decide_eq_true_eq] at *
  rcases hg with h | h
  · exact .inl h
  · exact .inr (by omega)

theorem Less.cleanup {c now : Int} {D : Bytes → Bytes → Bool} {t t' : HTTP} (h : Less c D t t') : Less c D (cleanup now t) (cleanup now t') := by
  refine ⟨?_, ?_⟩
  · rw [h.1]
    simp only [Pex.cleanup, List.map_map]
    apply List.map_congr_left
    intro x _
    simp only [Function.comp, List.filter_filter, Prod.mk.injEq, true_and]
    apply List.filter_congr
    intro y _
    exact Bool.and_comm _ _
  · intro e he x hx hd
    simp only [Pex.cleanup, List.mem_map] at he
    obtain ⟨y, hy, rfl⟩ := he
    exact h.2 y hy x (List.mem_filter.mp hx).1 hd

theorem listing_filter {now : Int} {addr : Bytes} {table : Table} {P : Bytes → Bool} (h : ∀ x ∈ table, P x.1 = true → gone now x.2 = true) :
    listing now addr (table.filter fun x => !P x.1) = listing now addr table := by
  induction table with
  | nil => rfl
  | cons x table ih =>
    obtain ⟨k, p⟩ := x
    have ih := ih fun y hy => h y (by simp [hy])
    cases hp : P k with
    | true =>
      rw [List.filter_cons_of_neg (by simp [hp]), ih]
      have := h (k, p) (by simp) hp
      rw [listing, if_pos this]
    | false =>
      rw [List.filter_cons_of_pos (by simp [hp]), listing, listing, ih]

theorem listing_perm {now : Int} {addr : Bytes} {table table' : Table} (h : table.Perm table') : (listing now addr table).Perm (listing now addr table') := by
  induction h with
  | nil => exact .refl _
  | cons x _ ih =>
    obtain ⟨k, p⟩ := x
    unfold listing
    split
    · exact ih
    · split
      · exact ih.cons _
      · exact ih
  | swap x y l =>
    obtain ⟨k, p⟩ := x
    obtain ⟨k', p'⟩ := y
    simp only [listing]
    split <;> split <;> (try split) <;> (try split) <;> first | exact .refl _ | exact .swap _ _ _
  | trans _ _ ih1 ih2 => exact ih1.trans ih2

theorem unnoticed (hi : ∀ l, (iter l).Perm l) (t : HTTP) (ht : ∀ e ∈ t, (e.2.map (·.1)).Nodup) (hk : (t.map (·.1)).Nodup) (c : Int) (h : List (Int × Event))
    (now : Int) (hc : Clock now ((h.map (·.1)) ++ [c])) (remote query : Bytes) (a : Announce) (cm : Bool)
    (hu : understood (t.map (·.1)) remote query = some (a, cm))
    (hback : ∀ b, (b = a ∨ ∃ u, (u, some b) ∈ past (t.map (·.1)) h) → ∀ table p, t.lookup b.hash = some table → table.lookup (key b.place) = some p → p.lastEvent ≠ b!"stopped" ∧ c - p.updatedAt ≤ 60000000000) :
    ∃ ps ps', (serve iter errText now remote query (run iter errText t h)).1 = answer cm ps ∧
      (serve iter errText now remote query (run iter errText (cleanup c t) h)).1 = answer cm ps' ∧ ps'.Perm ps := by
  -- what is removed
  let D : Bytes → Bytes → Bool := fun hash k => match t.lookup hash with
    | some table => match table.lookup k with
      | some p => gone c p
      | none => false
    | none => false
  have hD : ∀ b, (b = a ∨ ∃ u, (u, some b) ∈ past (t.map (·.1)) h) → D b.hash (key b.place) = false := by
    intro b hb
    show (match t.lookup b.hash with | some table => (match table.lookup (key b.place) with | some p => gone c p | none => false) | none => false) = false
    split
    · rename_i table htab
      split
      · rename_i p hp
        obtain ⟨j1, j2⟩ := hback b hb table p htab hp
        simp [gone, minute, j1]; omega
      · rfl
    · rfl
  have h0 : Less c D t (cleanup c t) := by
    have hDe : ∀ e ∈ t, ∀ x ∈ e.2, D e.1 x.1 = gone c x.2 := by
      intro e he x hx
      show (match t.lookup e.1 with | some table => (match table.lookup x.1 with | some p => gone c p | none => false) | none => false) = _
      rw [lookup_of_mem hk (show (e.1, e.2) ∈ t from he)]
      simp only
      rw [lookup_of_mem (ht e he) (show (x.1, x.2) ∈ e.2 from hx)]
    refine ⟨?_, ?_⟩
    · unfold cleanup
      apply List.map_congr_left
      intro e he
      congr 1
      apply List.filter_congr
      intro x hx
      rw [hDe e he x hx]
    · intro e he x hx hd
      rw [hDe e he x hx] at hd
      exact hd
  have hrun : ∀ (h : List (Int × Event)) (now : Int), Clock now ((h.map (·.1)) ++ [c]) → (∀ b u, (u, some b) ∈ past (t.map (·.1)) h → D b.hash (key b.place) = false) →
      Less c D (run iter errText t h) (run iter errText (cleanup c t) h) ∧ c ≤ now ∧ (run iter errText t h).map (·.1) = t.map (·.1) := by
    intro h
    induction h with
    | nil => intro now hc _; exact ⟨h0, hc.1, rfl⟩
    | cons e h ih =>
      obtain ⟨u, e⟩ := e
      intro now hc hb
      obtain ⟨hc1, hc2⟩ := hc
      have hc1 : u ≤ now := hc1
      cases e with
      | cleanup =>
        obtain ⟨h1, h2, h3⟩ := ih u hc2 (fun b u hu => hb b u (by simp [past, hu]))
        refine ⟨h1.cleanup, by omega, ?_⟩
        rw [← h3]
        simp [run, cleanup, List.map_map, Function.comp_def]
      | request remote query =>
        obtain ⟨h1, h2, h3⟩ := ih u hc2 (fun b u hu => hb b u (by simp [past, hu]))
        simp only [run]
        cases hun : understood (t.map (·.1)) remote query with
        | none =>
          rw [← h3] at hun
          rw [(serve_not_understood hun).1]
          rw [← h1.keys] at hun
          rw [(serve_not_understood hun).1]
          exact ⟨h1, by omega, h3⟩
        | some ac =>
          obtain ⟨b, cm⟩ := ac
          have hDb := hb b u (by simp [past, hun])
          rw [← h3] at hun
          obtain ⟨table, table', k1, k2, k3, k4⟩ := h1.request (iter := iter) (errText := errText) h2 hun hDb
          rw [k1, k2]
          refine ⟨⟨?_, ?_⟩, by omega, ?_⟩
          · simp only
            rw [map_assign fun k (tb : Table) => tb.filter fun x => !D k x.1, ← h1.1, k3]
          · intro e he x hx hd
            rcases mem_assign.mp he with rfl | ⟨he, _⟩
            · exact k4 x hx hd
            · exact h1.2 e he x hx hd
          · simp only
            rw [assign_keys_eq (understood_good hun).2, h3]
  obtain ⟨h1, h2, h3⟩ := hrun h now hc fun b u hb => hD b (.inr ⟨u, hb⟩)
  rw [← h3] at hu
  obtain ⟨table, table', k1, k2, k3, k4⟩ := h1.request (iter := iter) (errText := errText) h2 hu (hD a (.inl rfl))
  refine ⟨_, _, by rw [k1], by rw [k2], ?_⟩
  have e1 := listing_perm (now := now) (addr := key a.place) (hi table)
  have e2 := listing_perm (now := now) (addr := key a.place) (hi table')
  refine e2.trans (.trans ?_ e1.symm)
  rw [k3, listing_filter fun x hx hd => gone_mono h2 (k4 x hx hd)]

theorem run_append (t : HTTP) (h h0 : List (Int × Event)) : run iter errText t (h ++ h0) = run iter errText (run iter errText t h0) h := by
  induction h with
  | nil => rfl
  | cons e h ih =>
    obtain ⟨u, e⟩ := e
    cases e <;> simp [run, ih]

theorem clock_tail {now : Int} {l r : List Int} (h : Clock now (l ++ r)) : ∃ u, u ≤ now ∧ Clock u r := by
  induction l generalizing now with
  | nil => exact ⟨now, Int.le_refl _, h⟩
  | cons t l ih =>
    obtain ⟨u, h1, h2⟩ := ih h.2
    exact ⟨u, Int.le_trans h1 h.1, h2⟩

theorem clock_head {now c : Int} {l r : List Int} (h : Clock now (l ++ c :: r)) : Clock now (l ++ [c]) := by
  induction l generalizing now with
  | nil => exact ⟨h.1, trivial⟩
  | cons t l ih => exact ⟨h.1, ih h.2⟩

theorem past_goods (known : List Bytes) (h : List (Int × Event)) {u : Int} {b : Announce} (hb : (u, some b) ∈ past known h) : Good b := by
  induction h with
  | nil => cases hb
  | cons e h ih =>
    obtain ⟨t, e⟩ := e
    cases e with
    | cleanup =>
      simp only [past, List.mem_cons, Prod.mk.injEq, reduceCtorEq, and_false, false_or] at hb
      exact ih hb
    | request remote query =>
      simp only [past, List.mem_cons, Prod.mk.injEq] at hb
      rcases hb with ⟨-, hb⟩ | hb
      · cases hu : understood known remote query with
        | none => rw [hu] at hb; cases hb
        | some ac =>
          rw [hu] at hb
          cases hb
          exact (understood_good hu).1
      · exact ih hb

/-- **C60.** A cleanup cannot be noticed: whatever has happened before (`h0`) and whatever happens afterwards (`h`), as long as no place
that had stopped or been silent for a minute at the time of the cleanup announces again, an announce is answered with the same peers as without the cleanup.
(The order of the peers is that of an iteration over a map, which is arbitrary.) -/
theorem C60_unnoticed (hi : ∀ l, (iter l).Perm l) (infos : List Metainfo.Info) (h0 h : List (Int × Event)) (c now : Int) (p0 p : Past)
    (hp0 : PastOf (hashes infos) h0 p0) (hp : PastOf (hashes infos) h p) (hc : Clock now (h.map (·.1) ++ c :: h0.map (·.1))) (remote query : Bytes) (a : Announce) (cm : Bool)
    (hu : Announces (hashes infos) remote query a cm)
    (hback : ∀ b, (b = a ∨ ∃ u, (u, some b) ∈ p) → ∀ t event, lastSeen b.hash b.place p0 = some (t, event) → event ≠ b!"stopped" ∧ c - t ≤ 60 * 1000000000) :
    let reply := (serve iter errText now remote query (after iter errText infos (h ++ h0))).1
    let reply' := (serve iter errText now remote query (after iter errText infos (h ++ (c, .cleanup) :: h0))).1
    ∃ ps ps', Answered cm ps reply.status reply.body ∧ Answered cm ps' reply'.status reply'.body ∧ ps'.Perm ps := by
  intro reply reply'
  obtain rfl := pastOf_iff.mp hp0
  obtain rfl := pastOf_iff.mp hp
  rw [← announces_iff] at hu
  obtain ⟨hf, hkn⟩ := newHTTP_fresh infos
  obtain ⟨u, -, hcu⟩ := clock_tail hc
  have hinv := run_inv (iter := iter) (errText := errText) hf h0 c hcu.2
  have hkeys : (after iter errText infos h0).map (·.1) = (newHTTP infos).map (·.1) := hinv.keys
  have hpast : ∀ h, past ((after iter errText infos h0).map (·.1)) h = past (hashes infos) h := fun h => by rw [hkeys]; exact past_congr hkn h
  obtain ⟨ps, ps', e1, e2, e3⟩ := unnoticed (errText := errText) hi (after iter errText infos h0) (fun e he => (hinv.tables e he).nodup) (by rw [hkeys]; exact hf.1) c h now
    (clock_head hc) remote query a cm (by rw [hkeys, understood_congr hkn]; exact hu) (by
      intro b hb table q h1 h2
      rw [hpast] at hb
      obtain ⟨x, t, k1, k2, k3, k4, k5⟩ := (hinv.tables _ (mem_of_lookup h1)).entry _ (mem_of_lookup h2)
      simp only at k3 k5 k2
      have hgb : Good b := by
        rcases hb with rfl | ⟨u, hb⟩
        · exact (understood_good hu).1
        · exact past_goods _ _ hb
      have hgx : Good x := hinv.goods _ _ k1
      have hpl : b.place = x.place := key_inj (place_length hgb) (place_length hgx) k3
      rw [← hpl, past_congr hkn] at k5
      have := hback b hb _ _ k5
      exact ⟨this.1, by have := this.2; omega⟩)
  refine ⟨ps, ps', ?_, ?_, e3⟩
  · have : reply = answer cm ps := by
      rw [← e1]
      show (serve iter errText now remote query (run iter errText _ (h ++ h0))).1 = _
      rw [run_append]
      rfl
    rw [this]
    exact answered cm ps
  · have : reply' = answer cm ps' := by
      rw [← e2]
      show (serve iter errText now remote query (run iter errText _ (h ++ (c, .cleanup) :: h0))).1 = _
      rw [run_append]
      rfl
    rw [this]
    exact answered cm ps'

/-- Two minutes later the cleanup has removed all, and who announces then learns of those who announced in between. -/
example : let t := after (fun t => t) Ex.err [Ex.info 97] Ex.history
    let h := [(130 * Ex.second, Event.request b!"8.8.8.8:1" (Ex.query b!"1" [] []))]
    (cleanup (120 * Ex.second) t).map (·.2.length) = [1] ∧ t.map (·.2.length) = [4] ∧
    Ex.peers (serve (fun t => t) Ex.err (131 * Ex.second) b!"9.9.9.9:1" (Ex.query b!"2" [] []) (run (fun t => t) Ex.err t h)).1 = some [(b!"8.8.8.8", 1)] ∧
    Ex.peers (serve (fun t => t) Ex.err (131 * Ex.second) b!"9.9.9.9:1" (Ex.query b!"2" [] []) (run (fun t => t) Ex.err (cleanup (120 * Ex.second) t) h)).1 = some [(b!"8.8.8.8", 1)] :=
  ⟨by kernel_rfl, by kernel_rfl, by kernel_rfl, by kernel_rfl⟩

/-! ### C83: client and tracker -/

/-- The network between a client at the address `remote` and a tracker, at a time. -/
def network (iter : Table → Table) (errText : Bytes → Bytes) (now : Int) (remote : Bytes) (t : HTTP) (_url query : Bytes) : Option Bytes × HTTP :=
  (some (serve iter errText now remote query t).1.body, (serve iter errText now remote query t).2)

/-- What is read from the compact form. -/
theorem compact_endpoints {data : Bytes} {r : Response} {l : Option (List Tracker.Peer)} (h : unmarshalResponse data = .ok r) (hp : r.peers = some ⟨true, l⟩) :
    ∀ q ∈ l.getD [], ∃ e : Endpoint, e.port < 65536 ∧ q = ⟨[], e.ip, e.port⟩ := by
  obtain ⟨es, rest, -, hr⟩ := (C114_reads _ _).1 h
  rcases hr.peers with ⟨-, h⟩ | ⟨_, t, p, -, hp', h⟩
  · rw [hp] at h; cases h
  · rw [hp] at h; injection h with h; replace hp := hp'
    rcases hp.2 with ⟨_, eps, -, hlt, rfl⟩ | ⟨_, _, -, -, rfl⟩
    · injection h with _ h
      subst h
      intro q hq
      have hq : q ∈ eps.map fun e => (⟨[], e.ip, e.port⟩ : Tracker.Peer) := by
        cases eps with
        | nil => simp [nilIfEmpty] at hq
        | cons a l => simpa [nilIfEmpty] using hq
      obtain ⟨e, he, rfl⟩ := List.mem_map.1 hq
      exact ⟨e, hlt e he, rfl⟩
    · injection h with h _
      cases h

/-- **C83.** A client of this program that announces to a tracker of this program, whatever has happened there before, learns exactly
the peers that have announced the torrent within the last minute and have not stopped, each once, and never itself, with addresses a.b.c.d;
and from now on it is alive for the others (or has stopped, if that is what it announces). This needs that the
swarm is an IPv4 swarm. -/
theorem C83_client_tracker (hi : ∀ l, (iter l).Perm l) (infos : List Metainfo.Info) (h : List (Int × Event)) (p : Past) (hp : PastOf (hashes infos) h p) (now : Int)
    (hc : Clock now (h.map (·.1))) (hlen : h.length < 2 ^ 45) (v : View) (event url remote : Bytes) (me : Endpoint)
    (hv : (v.request event).WF) (hash : v.info.sha1 ∈ hashes infos) (hhost : HostOf remote me.ip) (hport : v.port = me.port) (hme : me.port < 65536) (hme0 : me.port ≠ 0)
    (hb : ∀ b t, (t, some b) ∈ p → b.hash = v.info.sha1 → Live now p v.info.sha1 b.place ∨ b.place = me.place →
      ∃ e : Endpoint, e.port < 65536 ∧ b.text = e.ip ∧ b.port = e.port) :
    ∃ res l, (trackerGet (network iter errText now remote) v event (after iter errText infos h) url).1 = .ok res ∧ res.interval = 30 ∧ peerList (some res) = .ok l ∧
      (∀ e, (∃ q ∈ l, ListedAt q e) ↔ Live now p v.info.sha1 e ∧ e ≠ me.place) ∧
      (l.Pairwise fun q q' => ∀ e, ListedAt q e → ¬ ListedAt q' e) ∧ (∀ q ∈ l, ∃ e : Endpoint, e.port < 65536 ∧ q = ⟨[], e.ip, e.port⟩) ∧
      (trackerGet (network iter errText now remote) v event (after iter errText infos h) url).2 =
        after iter errText infos ((now, .request remote (v.request event).encode) :: h) ∧
      ∀ p', PastOf (hashes infos) ((now, .request remote (v.request event).encode) :: h) p' → lastSeen v.info.sha1 me.place p' = some (now, event) := by
  obtain rfl := pastOf_iff.mp hp
  have hdec := C33_roundtrip _ hv
  have hip : Net.parseIP me.ip = some me.place.1 := Net.parseIP_dotted _ _ _ _
  let a : Announce := ⟨v.info.sha1, v.peerID, me.ip, me.place.1, v.port, event⟩
  have hu : understood (hashes infos) remote (v.request event).encode = some (a, true) := by
    unfold understood
    rw [hdec]
    have h0 : v.port ≠ 0 := by rw [hport]; omega
    simp only [View.request, hash, if_true, ipText, (splitHost_iff _ _).mpr hhost, hip]
    exact if_neg h0
  have hp0 := hp
  have hp : a.place = me.place := by
    show (me.place.1, v.port) = _
    rw [hport]; rfl
  have hcan : ∀ b, (b = a ∨ ∃ t, (t, some b) ∈ past (hashes infos) h) → b.hash = a.hash →
      (b = a ∨ Live now (past (hashes infos) h) v.info.sha1 b.place ∨ b.place = me.place) →
      ∃ e : Endpoint, e.port < 65536 ∧ b.text = e.ip ∧ b.port = e.port := by
    rintro b (rfl | ⟨t, hbt⟩) hh hl
    · exact ⟨me, hme, rfl, hport⟩
    · rcases hl with rfl | hl
      · exact ⟨me, hme, rfl, hport⟩
      · exact hb b t hbt hh hl
  obtain ⟨-, l, h1, h2, h3, h4, h5⟩ := C59_answered_partial (errText := errText) hi infos h _ hp0 now hc remote _ a true ((announces_iff _ _ _ _ _).mp hu) hlen (by
    intro b hb' hh hl _
    rw [if_pos rfl]
    refine hcan b hb' hh ?_
    by_cases e : b.place = a.place
    · exact .inr (.inr (e.trans hp))
    · exact .inr (.inl ((live_cons e).mp hl))) (by simp)
  have h5 := h5 (by
    intro b hb' hh hpl
    obtain ⟨e, _, he, _⟩ := hcan b hb' hh (.inr (.inr (hpl.trans hp)))
    rw [he]
    exact ⟨_, .v4⟩)
  have hget : trackerGet (network iter errText now remote) v event (after iter errText infos h) url =
      (.ok { interval := 30, peers := some ⟨true, l⟩ }, after iter errText infos ((now, .request remote (v.request event).encode) :: h)) := by
    unfold trackerGet network
    simp only
    rw [h1]
    rfl
  rw [hget]
  refine ⟨_, l.getD [], rfl, rfl, rfl, ?_, h4, compact_endpoints h1 rfl, rfl, ?_⟩
  · intro e
    by_cases he : e = me.place
    · subst he
      constructor
      · rintro ⟨q, hq, hat⟩
        rw [← hp] at hat
        exact absurd hat (h5 q hq)
      · rintro ⟨_, k⟩
        exact absurd rfl k
    · rw [h2 e (by rw [hp]; exact he)]
      exact ⟨fun k => ⟨k, he⟩, fun k => k.1⟩
  · intro p' hp'
    rw [pastOf_iff.mp hp']
    simp only [past, hu, Option.map_some, lastSeen]
    rw [if_pos ⟨rfl, hp⟩]

/-- The client of `Ex.view` and a tracker with two other peers. -/
example : let infos := [Ex.view.info]
    let q (port : Bytes) : Bytes := b!"info_hash=%07%07%07%07%07%07%07%07%07%07%07%07%07%07%07%07%07%07%07%07&peer_id=1&left=1&port=" ++ port
    let h := [(2, Event.request b!"1.2.3.4:5" (q b!"8")), (1, .request b!"1.2.3.4:6" (q b!"7")), (0, .request b!"2.2.2.2:6" (q b!"6881"))]
    (trackerGet (network (fun t => t) Ex.err 3 b!"2.2.2.2:2") Ex.view b!"started" (after (fun t => t) Ex.err infos h) b!"http://x/announce").1 =
      .ok { interval := 30, peers := some ⟨true, some [⟨[], b!"1.2.3.4", 7⟩, ⟨[], b!"1.2.3.4", 8⟩]⟩ } := by kernel_rfl

end Drip.Pex
