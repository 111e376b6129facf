import Verif.Props.Tracker
import Verif.Lemmas.MetainfoRT
/-
Tracker responses: C78.
-/

namespace Drip.Tracker
open Spec Bencode Metainfo

theorem peersUnmarshal_nofuel (data : Bytes) (p : Peers) : peersUnmarshal data p ≠ .err .fuel := by
  unfold peersUnmarshal
  have h := C22_terminates noEnv noEnv_sane .any .nilIface data
  cases hu : unmarshal noEnv .any .nilIface data with
  | panic => intro e; cases e
  | err e => rw [hu] at h; intro e'; cases e'; exact h rfl
  | ok v =>
    rw [Res.bind_ok]
    split
    · unfold parseCompactPeers
      split <;> (intro e; cases e)
    · rename_i vs
      have : ∀ vs, parsePeers vs ≠ .err .fuel := by
        intro vs
        induction vs with
        | nil => intro e; cases e
        | cons v vs ih =>
          have hs : ∀ es k, strEntry es k = .panic ∨ ∃ s, strEntry es k = .ok s := fun _ _ => strEntry_panic
          have hp : parsePeer v ≠ .err .fuel := by
            unfold parsePeer
            split
            · rename_i es
              rcases hs es b!"peer id" with h1 | ⟨a, h1⟩ <;> rw [h1]
              · intro e; cases e
              rcases hs es b!"ip" with h2 | ⟨b, h2⟩ <;> rw [h2]
              · intro e; cases e
              rcases intEntry_panic (es := es) (k := b!"port") with h3 | ⟨c, h3⟩ <;> rw [h3] <;> (intro e; cases e)
            · intro e; cases e
          unfold parsePeers
          cases h1 : parsePeer v with
          | panic => intro e; cases e
          | err e => rw [h1] at hp; intro e'; cases e'; exact hp rfl
          | ok q =>
            rw [Res.bind_ok]
            cases h2 : parsePeers vs with
            | panic => intro e; cases e
            | err e => rw [h2] at ih; intro e'; cases e'; exact ih rfl
            | ok q => intro e; cases e
      cases h2 : parsePeers vs with
      | panic => intro e; cases e
      | err e => have := this vs; rw [h2] at this; intro e'; cases e'; exact this rfl
      | ok q => intro e; cases e
    · intro e; cases e

theorem trackerEnv_sane : trackerEnv.Sane := by
  intro id um h raw v
  unfold trackerEnv at h
  split at h
  · cases h
    have := peersUnmarshal_nofuel raw ((ofVal v).getD ⟨false, none⟩)
    intro e
    simp only [] at e
    cases hp : peersUnmarshal raw ((ofVal v).getD ⟨false, none⟩) with
    | panic => rw [hp] at e; cases e
    | err e' => rw [hp] at e this; cases e; exact this rfl
    | ok q => rw [hp] at e; cases e
  · cases h

theorem responseFields_plain : PlainStruct responseFields := by
  refine ⟨?_, by decide +kernel⟩
  intro f hf
  simp only [responseFields, List.mem_cons, List.not_mem_nil, or_false] at hf
  rcases hf with rfl | rfl | rfl | rfl | rfl | rfl | rfl | rfl
  all_goals exact .inr ⟨rfl, rfl, by decide +kernel, by decide +kernel, by decide +kernel⟩

theorem peersOf_map (ps : List Peer) : peersOf (ps.map Peer.val) = some ps := by
  induction ps with
  | nil => rfl
  | cons p ps ih => simp [peersOf, ih, peerOf, Peer.val]

theorem ofVal_val (p : Peers) : ofVal p.val = some p := by
  obtain ⟨c, l⟩ := p
  cases c <;> cases l <;> simp [Peers.val, ofVal, boolVal, listVal, peersOf_map]

/-- A list of peers that can be sent: IPv4 addresses in the compact form, otherwise any list that is not nil. -/
def Sendable (p : Peers) : Prop :=
  if p.compact then 6 * (p.list.getD []).length ≤ 2 ^ 48 ∧ ∀ q ∈ p.list.getD [], ∃ e : Endpoint, e.port < 65536 ∧ q.ip = e.ip ∧ q.port = e.port
  else ∃ l, p.list = some l ∧ ∀ q ∈ l, q.WF

/-- What is received: the same form, the same peers in the same order; the compact form has no ids. -/
def Received (p p' : Peers) : Prop :=
  p'.compact = p.compact ∧ p'.list.getD [] = if p.compact then (p.list.getD []).map fun q => { q with id := [] } else p.list.getD []

theorem endpoints {l : List Peer} (h : ∀ q ∈ l, ∃ e : Endpoint, e.port < 65536 ∧ q.ip = e.ip ∧ q.port = e.port) :
    ∃ es : List (Bytes × Endpoint), (∀ e ∈ es, e.2.port < 65536) ∧ l = es.map fun e => ⟨e.1, e.2.ip, e.2.port⟩ := by
  induction l with
  | nil => exact ⟨[], by simp, rfl⟩
  | cons q l ih =>
    obtain ⟨es, h1, h2⟩ := ih fun x hx => h x (by simp [hx])
    obtain ⟨e, h3, h4, h5⟩ := h q (by simp)
    refine ⟨(q.id, e) :: es, ?_, ?_⟩
    · simp only [List.mem_cons, forall_eq_or_imp]
      exact ⟨h3, h1⟩
    · rw [List.map_cons, ← h2, ← h4, ← h5]

theorem peers_back {p : Peers} (h : Sendable p) : ∃ b p', b.Fits ∧ peersMarshal p = .ok (benc b) ∧
    peersUnmarshal (benc b) ⟨false, none⟩ = .ok p' ∧ Received p p' := by
  obtain ⟨c, l⟩ := p
  unfold Sendable at h
  cases c with
  | true =>
    simp only [if_true] at h
    obtain ⟨es, h1, h2⟩ := endpoints h.2
    have hl : (es.flatMap fun e => e.2.six) = (es.map (·.2)).flatMap Endpoint.six := by simp [List.flatMap_map]
    have h3 : ((es.map (·.2)).flatMap Endpoint.six).length ≤ 2 ^ 48 := by
      rw [sixes_length]
      have := h.1
      rw [h2] at this
      simpa using this
    obtain ⟨l', h4, h5⟩ := C34_unmarshal (es.map (·.2)) (by simpa using fun b a hb => h1 (a, b) hb) h3 ⟨false, none⟩
    refine ⟨.str (es.flatMap fun e => e.2.six), ⟨true, l'⟩, by rw [hl]; exact h3, ?_, by rw [hl]; exact h4, rfl, ?_⟩
    · have := C34_marshal es h1
      rw [← h2] at this
      exact this
    · rw [h5]
      simp only [if_true]
      rw [h2]
      simp [List.map_map]
  | false =>
    simp only [Bool.false_eq_true, if_false] at h
    obtain ⟨l, rfl, h1⟩ := h
    obtain ⟨bs, l', h2, h3, h4⟩ := C36_roundtrip_partial l h1 ⟨false, none⟩
    rw [C36_marshal_partial] at h2
    cases h2
    exact ⟨.list (l.map Peer.bval), _, peers_fit l h1, C36_marshal_partial l, h3, rfl, h4⟩

/-- Strings can be allocated and numbers fit. -/
structure Response.WF (r : Response) : Prop where
  failureReason : r.failureReason.length ≤ 2 ^ 48
  interval : FitsInt64 r.interval
  peers : ∀ p, r.peers = some p → Sendable p
  warningReason : r.warningReason.length ≤ 2 ^ 48
  minInterval : FitsInt64 r.minInterval
  trackerID : r.trackerID.length ≤ 2 ^ 48
  complete : FitsInt64 r.complete
  incomplete : FitsInt64 r.incomplete

/-- The same for a list that may be missing. -/
def ReceivedOpt : Option Peers → Option Peers → Prop
  | none, q => q = none
  | some p, q => ∃ p', q = some p' ∧ Received p p'

theorem backF_peers (A : Bool → Prop) {o : Option Peers} (h : ∀ p, o = some p → Sendable p) :
    BackF trackerEnv trackerEnv A (fun _ => True) (fun _ w => ∃ o', w = peersPtr o' ∧ ReceivedOpt o o') ⟨b!"Peers", b!"peers", false, true⟩ (.ptr peersTy) (peersPtr o) := by
  cases o with
  | none => exact .inl ⟨⟨none, rfl, rfl⟩, .inr (.inl trivial)⟩
  | some p =>
    obtain ⟨b, p', h1, h2, h3, h4⟩ := peers_back (h p rfl)
    refine .inr ⟨by decide +kernel, by simp [peersPtr, Nil], by simp [peersPtr, EmptyVal], b, 0, .ptr p'.val, ?_, trivial, ⟨some p', rfl, p', rfl, h4⟩, ?_⟩
    · intro a _
      refine .method (.ptr (m := fun v => match ofVal v with
        | some p => peersMarshal p
        | none => .panic) rfl rfl ?_)
      rw [ofVal_val]
      exact h2
    · intro fl id i fs us hfl hf hu hpl
      refine (DA_nilptr (id := id) rfl hf hu ⟨hfl, by simp⟩).mpr ⟨_, ?_, rfl⟩
      rw [← canon_print]
      refine D.method (um := fun data v => (peersUnmarshal data ((ofVal v).getD ⟨false, none⟩)).map Peers.val) rfl rfl (canon_valid _ h1) ?_
      rw [canon_print]
      show (peersUnmarshal (benc b) ⟨false, none⟩).map Peers.val = _
      rw [h3]
      rfl

theorem peersVal_height (p : Peers) : p.val.height ≤ 5 := by
  have h1 : (boolVal p.compact).height ≤ 1 := by cases p.compact <;> simp [boolVal, Val.height]
  have h2 : (listVal p.list).height ≤ 4 := by
    cases p.list with
    | none => simp [listVal, Val.height]
    | some l =>
      simp only [listVal, Val.height]
      have : heights (l.map Peer.val) ≤ 3 := heights_le (by
        intro v hv
        obtain ⟨q, _, rfl⟩ := List.mem_map.mp hv
        simp [Peer.val, Val.height, heights])
      omega
  simp only [Peers.val, Val.height, heights]
  omega

theorem response_height (r : Response) : r.val.height ≤ 7 := by
  have : (peersPtr r.peers).height ≤ 6 := by
    cases r.peers with
    | none => simp [peersPtr, Val.height]
    | some p => have := peersVal_height p; simp only [peersPtr, Val.height]; omega
  simp only [Response.val, Val.height, heights]
  omega

/-- **C78**, for every response that can be sent. A response survives the trip from the tracker to the client: every field is what it was, and the peers are the
same in the same order (without the ids, in the compact form), whatever follows the response. -/
theorem C78_response_partial (r : Response) (hr : r.WF) :
    ∃ out o', r.marshal = .ok out ∧ ReceivedOpt r.peers o' ∧ ∀ rest, unmarshalResponse (out ++ rest) = .ok { r with peers := o' } := by
  obtain ⟨b, d, ws, h1, -, h3, h4, h5⟩ := back_struct (env := trackerEnv) (env' := trackerEnv) (id := 23) (A := fun _ => True) (Q := fun _ => True)
    (R := fun i v w => if i = 2 then ∃ o', w = peersPtr o' ∧ ReceivedOpt r.peers o' else w = v) (fs := responseFields)
    (vs := [.str r.failureReason, .int r.interval, peersPtr r.peers, .str r.warningReason,
      .int r.minInterval, .str r.trackerID, .int r.complete, .int r.incomplete]) responseFields_plain (by
    intro i h ft fv hf hv
    match i with
    | 0 => cases hf; cases hv; exact backF_str (by decide +kernel) hr.failureReason trivial rfl
    | 1 => cases hf; cases hv; exact backF_int (by decide +kernel) hr.interval trivial rfl
    | 2 => cases hf; cases hv; exact backF_peers _ hr.peers
    | 3 => cases hf; cases hv; exact backF_str (by decide +kernel) hr.warningReason trivial rfl
    | 4 => cases hf; cases hv; exact backF_int (by decide +kernel) hr.minInterval trivial rfl
    | 5 => cases hf; cases hv; exact backF_str (by decide +kernel) hr.trackerID trivial rfl
    | 6 => cases hf; cases hv; exact backF_int (by decide +kernel) hr.complete trivial rfl
    | 7 => cases hf; cases hv; exact backF_int (by decide +kernel) hr.incomplete trivial rfl
    | n + 8 => cases hf) rfl
  have d2 : Denotes trackerEnv { addr := false } (.ptr responseTy) (.ptr r.val) b d :=
    .kind (by simp [UsesMethod, responseTy]) (.ptr (.kind (by simp [UsesMethod, responseTy]) (h1 _ trivial)))
  have hd : d ≤ 1000 := by
    have h6 := denotes_height _ _ _ _ _ _ _ d2 (Nat.le_refl _)
    have h7 := response_height r
    simp only [Val.height] at h6
    omega
  have hu := h3 { addr := true } rfl
  match ws, h4 with
  | [w0, w1, w2, w3, w4, w5, w6, w7], _ =>
    have k0 := h5 0 (by simp)
    have k1 := h5 1 (by simp)
    have k2 := h5 2 (by simp)
    have k3 := h5 3 (by simp)
    have k4 := h5 4 (by simp)
    have k5 := h5 5 (by simp)
    have k6 := h5 6 (by simp)
    have k7 := h5 7 (by simp)
    simp at k0 k1 k2 k3 k4 k5 k6 k7
    obtain ⟨o', k2, ho⟩ := k2
    subst k0 k1 k2 k3 k4 k5 k6 k7
    refine ⟨benc b, o', (C20_limit d2).1 hd, ho, fun rest => ?_⟩
    unfold unmarshalResponse
    rw [show responseTy = .struct 23 responseFields from rfl, hu.unmarshal trackerEnv_sane rest, Res.bind_ok]
    cases o' with
    | none => rfl
    | some p' => simp [Response.ofVal, peersPtr, ofVal_val]

example : (Response.marshal { interval := 30, peers := some ⟨true, some [⟨b!"x", b!"1.2.3.4", 80⟩]⟩ }) =
    .ok (b!"d8:intervali30e5:peers6:" ++ [1, 2, 3, 4, 0, 80] ++ b!"e") := by kernel_rfl
/-- **C78** is false of the code in general: the nil list in the list form makes a response that no client can read. A tracker
that knows of no other peer sends it. -/
theorem C78_nil_list_refuted : (Response.marshal { interval := 30, peers := some ⟨false, none⟩ }) = .ok b!"d8:intervali30e5:peerse" ∧
    unmarshalResponse b!"d8:intervali30e5:peerse" = .err .syntax := ⟨by kernel_rfl, by kernel_rfl⟩
example : Response.WF { interval := 30, peers := some ⟨false, some [⟨b!"x", b!"::1", 80⟩]⟩, complete := 3 } := by
  constructor <;> simp [FitsInt64, Sendable, Peer.WF]

end Drip.Tracker
