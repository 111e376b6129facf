import Verif.Props.Pex
import Verif.Spec.Refusal
/-
What a refused announce is told: C136 of /verif/properties.jsonl.
-/

namespace Drip.Pex
open Spec Bencode Tracker Multi

variable {iter : Table → Table} {errText : Bytes → Bytes}

/-! ### C136

"An announce that the tracker refuses is answered with a response that says why, and the client that sent it gets an error." The second half holds. The first does not if the connection
has no address with a port. -/

/-- C136: every announce that is refused is told the reason. -/
def Explains (errText : Bytes → Bytes) (t : HTTP) : Prop := ∀ (iter : Table → Table) (now : Int) (remote query : Bytes), (∀ a c, ¬ Announces (t.map (·.1)) remote query a c) →
  ∃ reason, reason ≠ [] ∧ unmarshalResponse (serve iter errText now remote query t).1.body = .ok { failureReason := reason }

/-- C136 does not hold in full: over a unix socket, whose connections have the address `@`, the answer is empty. -/
theorem C136_refuted : ¬ Explains Ex.err (newHTTP [Ex.info 97]) := by
  intro h
  have hn : understood ((newHTTP [Ex.info 97]).map (·.1)) b!"@" (Ex.query b!"5" [] []) = none := by kernel_rfl
  obtain ⟨r, _, h1⟩ := h (fun t => t) 0 b!"@" (Ex.query b!"5" [] []) (not_announces.1 hn)
  have h2 : unmarshalResponse (serve (fun t => t) Ex.err 0 b!"@" (Ex.query b!"5" [] []) (newHTTP [Ex.info 97])).1.body = .err .eof := by kernel_rfl
  rw [h2] at h1
  cases h1

theorem text_of {r : Request} {remote text : Bytes} (h : if r.ip = [] then HostOf remote text else text = r.ip) : (if r.ip = [] then splitHost remote else some r.ip) = some text := by
  split
  · rename_i h0; rw [if_pos h0] at h; exact (splitHost_iff _ _).2 h
  · rename_i h0; rw [if_neg h0] at h; rw [h]

theorem lookup_some {t : HTTP} {k : Bytes} (h : k ∈ t.map (·.1)) : ∃ table, t.lookup k = some table := by
  cases hl : t.lookup k with
  | none => exact absurd h (lookup_none.1 hl)
  | some table => exact ⟨table, rfl⟩

theorem no_address {text : Bytes} (h : ∀ ip, ¬ IsAddress text ip) : Net.parseIP text = none := by
  cases hp : Net.parseIP text with
  | none => rfl
  | some ip => exact absurd ((Net.parseIP_iff _ _).1 hp) (h ip)

theorem serve_reason {t : HTTP} {remote query reason : Bytes} (now : Int) (h : Reason errText (t.map (·.1)) remote query reason) :
    serve iter errText now remote query t = (fail reason, t) := by
  cases h with
  | query h =>
    unfold serve
    cases hd : Request.zero.decode query with
    | ok r => exact absurd ((decode_iff _ _).1 hd) (h r)
    | err e => rfl
    | panic => rfl
  | @unknown r h1 h2 =>
    unfold serve
    rw [(decode_iff _ _).2 h1]
    simp only [lookup_none.2 h2]
  | @address r text h1 h2 h3 h4 =>
    obtain ⟨table, hl⟩ := lookup_some h2
    unfold serve
    rw [(decode_iff _ _).2 h1]
    simp only [hl, text_of h3, no_address h4]
  | @port r text ip h1 h2 h3 h4 h5 =>
    obtain ⟨table, hl⟩ := lookup_some h2
    unfold serve
    rw [(decode_iff _ _).2 h1]
    simp only [hl, text_of h3, (Net.parseIP_iff _ _).2 h4, h5, if_true]

/-- C136 (partial: not if neither the request nor the connection has an address). The answer is a response with exactly the reason: a query that cannot be read, an unknown torrent, an
address that is none, port 0. Nothing changes. -/
theorem C136_reason_partial (t : HTTP) (now : Int) (remote query reason : Bytes) (hr : Reason errText (t.map (·.1)) remote query reason) (hlen : reason.length ≤ 2 ^ 48) :
    (serve iter errText now remote query t).1.status = 400 ∧ unmarshalResponse (serve iter errText now remote query t).1.body = .ok { failureReason := reason } ∧
      (serve iter errText now remote query t).2 = t := by
  rw [serve_reason now hr]
  exact ⟨(fail_400 _ hlen).1, (fail_400 _ hlen).2, rfl⟩

/-- C136 (partial). Every announce that is refused has such a reason, or no address at all; then the answer is empty. -/
theorem C136_every_partial (t : HTTP) (now : Int) (remote query : Bytes) (hu : ∀ a c, ¬ Announces (t.map (·.1)) remote query a c) :
    (∃ reason, Reason errText (t.map (·.1)) remote query reason) ∨
      (Nowhere (t.map (·.1)) remote query ∧ (serve iter errText now remote query t).1 = ⟨400, []⟩) := by
  cases hd : Request.zero.decode query with
  | err e => exact .inl ⟨_, .query fun r h => by rw [(decode_iff _ _).2 h] at hd; cases hd⟩
  | panic => exact .inl ⟨_, .query fun r h => by rw [(decode_iff _ _).2 h] at hd; cases hd⟩
  | ok r =>
    have hr := (decode_iff _ _).1 hd
    by_cases hk : r.infoHash ∈ t.map (·.1)
    · cases ht : (if r.ip = [] then splitHost remote else some r.ip) with
      | none =>
        right
        have h0 : r.ip = [] := by
          by_cases h : r.ip = []
          · exact h
          · rw [if_neg h] at ht; cases ht
        rw [if_pos h0] at ht
        refine ⟨⟨r, hr, hk, h0, fun host hh => by rw [(splitHost_iff _ _).2 hh] at ht; cases ht⟩, ?_⟩
        obtain ⟨table, hl⟩ := lookup_some hk
        unfold serve
        rw [hd]
        simp only [hl, h0, if_true, ht]
      | some text =>
        left
        have h3 : if r.ip = [] then HostOf remote text else text = r.ip := by
          split
          · rename_i h0; rw [if_pos h0] at ht; exact (splitHost_iff _ _).1 ht
          · rename_i h0; rw [if_neg h0] at ht; exact (Option.some.inj ht).symm
        by_cases hip : ∃ ip, IsAddress text ip
        · obtain ⟨ip, hip⟩ := hip
          by_cases hp : r.port = 0
          · exact ⟨_, .port hr hk h3 hip hp⟩
          · exact absurd ⟨r, hr, rfl, hk, rfl, h3, hip, rfl, hp, rfl, rfl⟩ (hu ⟨r.infoHash, r.peerID, text, ip, r.port, r.event⟩ r.compact)
        · exact ⟨_, .address hr hk h3 fun ip h => hip ⟨ip, h⟩⟩
    · exact .inl ⟨_, .unknown hr hk⟩

/-- C136: the client whose announce is refused, for whatever reason, gets an error. -/
theorem C136_client (t : HTTP) (now : Int) (v : View) (event url remote : Bytes) (hlen : (errText (v.request event).encode).length ≤ 2 ^ 48) (hne : errText (v.request event).encode ≠ [])
    (hu : ∀ a c, ¬ Announces (t.map (·.1)) remote (v.request event).encode a c) :
    ∃ e, (trackerGet (network iter errText now remote) v event t url).1 = .err e := by
  unfold trackerGet network
  simp only
  rcases C136_every_partial (iter := iter) (errText := errText) t now remote (v.request event).encode hu with ⟨reason, hr⟩ | ⟨_, h⟩
  · have hl : reason.length ≤ 2 ^ 48 ∧ reason ≠ [] := by
      cases hr with
      | query => exact ⟨hlen, hne⟩
      | _ => exact ⟨by simp, by simp⟩
    rw [(C136_reason_partial t now remote _ reason hr hl.1).2.1]
    exact ⟨.tracker, if_pos hl.2⟩
  · rw [h]
    exact ⟨.eof, by rw [show unmarshalResponse [] = .err .eof by kernel_rfl]; rfl⟩

/-- Each of the four reasons. -/
example : Reason Ex.err (hashes [Ex.info 97]) b!"9.9.9.9:1" b!"port=x" (Ex.err b!"port=x") ∧
    Reason Ex.err (hashes [Ex.info 98]) b!"9.9.9.9:1" (Ex.query b!"5" [] []) b!"unknown info hash" ∧
    Reason Ex.err (hashes [Ex.info 97]) b!"9.9.9.9:1" (Ex.query b!"5" b!"1.2.3" []) b!"bad ip" ∧
    Reason Ex.err (hashes [Ex.info 97]) b!"9.9.9.9:1" (Ex.query b!"0" [] []) b!"bad port" := by
  have h1 : Request.zero.decode b!"port=x" = .err .badQuery := by kernel_rfl
  have h2 : Request.zero.decode (Ex.query b!"5" [] []) = .ok ⟨List.replicate 20 97, List.replicate 20 98, [], 5, 0, 0, 4, [], false⟩ := by kernel_rfl
  have h3 : Request.zero.decode (Ex.query b!"5" b!"1.2.3" []) = .ok ⟨List.replicate 20 97, List.replicate 20 98, b!"1.2.3", 5, 0, 0, 4, [], false⟩ := by kernel_rfl
  have h4 : Request.zero.decode (Ex.query b!"0" [] []) = .ok ⟨List.replicate 20 97, List.replicate 20 98, [], 0, 0, 0, 4, [], false⟩ := by kernel_rfl
  refine ⟨.query (fun r h => by rw [(decode_iff _ _).2 h] at h1; cases h1), .unknown ((decode_iff _ _).1 h2) (by decide +kernel),
    .address ((decode_iff _ _).1 h3) (by decide +kernel) (text := b!"1.2.3") (by rw [if_neg (by simp)]) fun ip h => ?_,
    .port ((decode_iff _ _).1 h4) (by decide +kernel) (text := b!"9.9.9.9") (ip := [0, 0, 0, 0, 0, 0, 0, 0, 0, 0, 255, 255, 9, 9, 9, 9])
      (by rw [if_pos rfl]; exact (splitHost_iff _ _).1 (by kernel_rfl)) ((Net.parseIP_iff _ _).1 (by kernel_rfl)) rfl⟩
  have := (Net.parseIP_iff _ _).2 h
  rw [show Net.parseIP b!"1.2.3" = none by kernel_rfl] at this
  cases this

end Drip.Pex
