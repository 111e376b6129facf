import Verif.Props.Response
import Verif.Props.TorrentFile
import Verif.Spec.Response
/-
C114: which tracker responses are read, and what is read from them.
-/

namespace Drip.Tracker
open Spec Bencode Metainfo

theorem appended_eq (l : List Peer) : appended l = nilIfEmpty l := by cases l <;> simp [appended, nilIfEmpty]

theorem peerDicts_iff (ts : List CTree) (qs : List Peer) :
    PeerDicts (abss ts) qs ↔ List.Forall₂ (fun (t : CTree) (q : Peer) => PeerDict t.abs q.id q.ip q.port) ts qs := by
  constructor
  · intro h
    induction ts generalizing qs with
    | nil => cases h; exact .nil
    | cons t ts ih => rw [abss] at h; cases h with | cons h1 h2 => exact .cons h1 (ih _ h2)
  · intro h
    induction h with
    | nil => exact .nil
    | cons h _ ih => rw [abss]; exact .cons h ih

theorem peersUnmarshal_iff {t : CTree} (hv : CV t) {p : Peers} : peersUnmarshal t.print ⟨false, none⟩ = .ok p ↔ IsPeers t p := by
  have h1 := (C12_accepts_iff noEnv _ _).mpr ⟨t, [], (List.append_nil _).symm, hv, rfl⟩
  unfold peersUnmarshal IsPeers
  rw [h1, Res.bind_ok]
  cases t with
  | int => 
    simp only [CTree.abs, toAny]
    constructor
    · intro h; cases h
    · rintro ⟨-, ⟨_, _, e, _⟩ | ⟨_, _, e, _⟩⟩ <;> cases e
  | dict => 
    simp only [CTree.abs, toAny]
    constructor
    · intro h; cases h
    · rintro ⟨-, ⟨_, _, e, _⟩ | ⟨_, _, e, _⟩⟩ <;> cases e
  | str l s =>
    simp only [CTree.abs, toAny, parseCompactPeers]
    constructor
    · intro h
      split at h
      · cases h
      · obtain ⟨es, rfl, h2⟩ := sixes_of_length (s.length / 6) s (by omega)
        rw [Res.bind_ok] at h
        cases h
        rw [appended_eq, parseSixes_flat es h2]
        exact ⟨hv, .inl ⟨l, es, rfl, h2, rfl⟩⟩
    · rintro ⟨-, ⟨l', es, e, h2, rfl⟩ | ⟨_, _, e, _⟩⟩
      · cases e
        rw [if_neg (by rw [sixes_length]; omega), Res.bind_ok, appended_eq, parseSixes_flat es h2]
      · cases e
  | list ts =>
    obtain ⟨h2, h3⟩ := parsePeers_spec (abss ts) (valids_nodup hv)
    simp only [CTree.abs, toAny]
    constructor
    · intro h
      by_cases hq : ∃ qs, PeerDicts (abss ts) qs
      · obtain ⟨qs, hq⟩ := hq
        rw [h2 qs hq, Res.bind_ok] at h
        cases h
        exact ⟨hv, .inr ⟨ts, qs, rfl, (peerDicts_iff _ _).mp hq, by rw [appended_eq]⟩⟩
      · rw [h3 hq] at h; cases h
    · rintro ⟨-, ⟨_, _, e, _⟩ | ⟨ts', qs, e, hq, rfl⟩⟩
      · cases e
      · cases e
        rw [h2 qs ((peerDicts_iff _ _).mpr hq), Res.bind_ok, appended_eq]

theorem reads_peers {t : CTree} (hs : Syn t) {x : Val} :
    D trackerEnv { addr := true } peersTy (zero peersTy) t.print x ↔ ∃ p, IsPeers t p ∧ x = p.val := by
  constructor
  · intro h
    obtain ⟨⟨tr, hcv, e⟩, h2⟩ := D.method_inv (um := fun data v => (peersUnmarshal data ((ofVal v).getD ⟨false, none⟩)).map Peers.val) rfl rfl h
    obtain ⟨rfl, -⟩ := print_unique t tr hs (Valid.syn tr hcv) [] [] (by simpa using e)
    change (peersUnmarshal t.print ⟨false, none⟩).map Peers.val = _ at h2
    cases h3 : peersUnmarshal t.print ⟨false, none⟩ with
    | panic => rw [h3] at h2; cases h2
    | err e => rw [h3] at h2; cases h2
    | ok p => rw [h3] at h2; cases h2; exact ⟨p, (peersUnmarshal_iff hcv).mp h3, rfl⟩
  · rintro ⟨p, hp, rfl⟩
    refine D.method (um := fun data v => (peersUnmarshal data ((ofVal v).getD ⟨false, none⟩)).map Peers.val) rfl rfl hp.1 ?_
    show (peersUnmarshal t.print ⟨false, none⟩).map Peers.val = _
    rw [(peersUnmarshal_iff hp.1).mpr hp]
    rfl

theorem entry_int {es : List (Bytes × Bytes × CTree)} {k : Bytes} {x : Val} (h : Entry es k (.int 0) IsInt x) : ∃ n, x = .int n := by
  rcases h with ⟨_, rfl⟩ | ⟨_, _, _, s, n, _, _, _, _, _, rfl⟩
  · exact ⟨0, rfl⟩
  · exact ⟨n, rfl⟩

theorem entry_str {es : List (Bytes × Bytes × CTree)} {k : Bytes} {x : Val} (h : Entry es k (.str []) IsStr x) : ∃ b, x = .str b := by
  rcases h with ⟨_, rfl⟩ | ⟨_, _, _, l, b, _, _, rfl⟩
  · exact ⟨[], rfl⟩
  · exact ⟨b, rfl⟩

theorem isResponse_syn {es : List (Bytes × Bytes × CTree)} {r : Response} (h : IsResponse es r) : SynEs es := by
  refine synEs_of h.keys fun l k t hm => ?_
  have key : ∀ {z x : Val} {R : CTree → Val → Prop}, (∀ t v, R t v → Syn t) → Entry es k z R x → Syn t := by
    rintro z x R hR (⟨h', _⟩ | ⟨l', t', h1, h2⟩)
    · exact absurd rfl (h' _ hm)
    · rw [keysFrom_unique h.keys hm h1]; exact hR _ _ h2
  by_cases hx : k ∈ responseKeys
  · simp only [responseKeys, List.mem_cons, List.not_mem_nil, or_false] at hx
    rcases hx with rfl | rfl | rfl | rfl | rfl | rfl | rfl | rfl
    · exact key (fun t v h => isStr_syn h) h.failureReason
    · exact key (fun t v h => isInt_syn h) h.interval
    · rcases h.peers with ⟨h', _⟩ | ⟨l', t', p, h1, h2, _⟩
      · exact absurd rfl (h' _ hm)
      · rw [keysFrom_unique h.keys hm h1]; exact Valid.syn _ h2.1
    · exact key (fun t v h => isStr_syn h) h.warningReason
    · exact key (fun t v h => isInt_syn h) h.minInterval
    · exact key (fun t v h => isStr_syn h) h.trackerID
    · exact key (fun t v h => isInt_syn h) h.complete
    · exact key (fun t v h => isInt_syn h) h.incomplete
  · exact Valid.syn _ (h.others l k t hm hx)

theorem reads_response {es : List (Bytes × Bytes × CTree)} (hs : SynEs es) {v : Val} :
    D trackerEnv { addr := true } responseTy (zero responseTy) (CTree.dict es).print v ↔ ∃ r, IsResponse es r ∧ v = r.val := by
  unfold responseTy
  rw [struct_reads responseFields_plain hs]
  have e1 : ∀ {k x}, Entry es k (.str []) (fun t => FieldReads trackerEnv .str t.print) x ↔ Entry es k (.str []) IsStr x :=
    entry_congr hs fun t ht => field_plain (by trivial) (fun t ht x => reads_str ht) t ht _
  have e2 : ∀ {k x}, Entry es k (.int 0) (fun t => FieldReads trackerEnv (.int 64) t.print) x ↔ Entry es k (.int 0) IsInt x :=
    entry_congr hs fun t ht => field_plain (by trivial) (fun t ht x => reads_int ht) t ht _
  have e3 : ∀ {k x}, Entry es k .nilPtr (fun t => FieldReads trackerEnv (.ptr peersTy) t.print) x ↔
      Entry es k .nilPtr (fun t x => ∃ y, (∃ p, IsPeers t p ∧ y = p.val) ∧ x = .ptr y) x :=
    entry_congr hs fun t ht => field_ptr (fun t ht x => reads_peers ht) t ht _
  have hkeys : ∀ k, (∀ (i : Nat) (hd : Hdr) (ft : Ty), responseFields[i]? = some (hd, ft) → ¬ Hidden hd → fieldKey hd ≠ k) ↔ k ∉ responseKeys := by
    intro k
    constructor
    · intro h hm
      simp only [responseKeys, List.mem_cons, List.not_mem_nil, or_false] at hm
      rcases hm with rfl | rfl | rfl | rfl | rfl | rfl | rfl | rfl
      · exact h 0 _ _ rfl (by decide +kernel) (by decide +kernel)
      · exact h 1 _ _ rfl (by decide +kernel) (by decide +kernel)
      · exact h 2 _ _ rfl (by decide +kernel) (by decide +kernel)
      · exact h 3 _ _ rfl (by decide +kernel) (by decide +kernel)
      · exact h 4 _ _ rfl (by decide +kernel) (by decide +kernel)
      · exact h 5 _ _ rfl (by decide +kernel) (by decide +kernel)
      · exact h 6 _ _ rfl (by decide +kernel) (by decide +kernel)
      · exact h 7 _ _ rfl (by decide +kernel) (by decide +kernel)
    · rintro h i hd ft hi - rfl
      apply h
      match i with
      | 0 => cases hi; decide +kernel
      | 1 => cases hi; decide +kernel
      | 2 => cases hi; decide +kernel
      | 3 => cases hi; decide +kernel
      | 4 => cases hi; decide +kernel
      | 5 => cases hi; decide +kernel
      | 6 => cases hi; decide +kernel
      | 7 => cases hi; decide +kernel
      | n + 8 => cases hi
  constructor
  · rintro ⟨hk, ho, ws, rfl, hl, hf⟩
    match ws, hl with
    | [w0, w1, w2, w3, w4, w5, w6, w7], _ =>
      obtain ⟨x0, h0, -, a0⟩ := hf 0 _ _ rfl
      obtain ⟨x1, h1, -, a1⟩ := hf 1 _ _ rfl
      obtain ⟨x2, h2, -, a2⟩ := hf 2 _ _ rfl
      obtain ⟨x3, h3, -, a3⟩ := hf 3 _ _ rfl
      obtain ⟨x4, h4, -, a4⟩ := hf 4 _ _ rfl
      obtain ⟨x5, h5, -, a5⟩ := hf 5 _ _ rfl
      obtain ⟨x6, h6, -, a6⟩ := hf 6 _ _ rfl
      obtain ⟨x7, h7, -, a7⟩ := hf 7 _ _ rfl
      cases h0; cases h1; cases h2; cases h3; cases h4; cases h5; cases h6; cases h7
      have a0 := e1.mp (a0 (by decide +kernel))
      have a1 := e2.mp (a1 (by decide +kernel))
      have a2 := e3.mp (a2 (by decide +kernel))
      have a3 := e1.mp (a3 (by decide +kernel))
      have a4 := e2.mp (a4 (by decide +kernel))
      have a5 := e1.mp (a5 (by decide +kernel))
      have a6 := e2.mp (a6 (by decide +kernel))
      have a7 := e2.mp (a7 (by decide +kernel))
      obtain ⟨v0, rfl⟩ := entry_str a0
      obtain ⟨v1, rfl⟩ := entry_int a1
      obtain ⟨v3, rfl⟩ := entry_str a3
      obtain ⟨v4, rfl⟩ := entry_int a4
      obtain ⟨v5, rfl⟩ := entry_str a5
      obtain ⟨v6, rfl⟩ := entry_int a6
      obtain ⟨v7, rfl⟩ := entry_int a7
      have ho' : OthersOk responseKeys es := fun l k t hm hn => ho l k t hm ((hkeys k).mpr hn)
      rcases a2 with ⟨h', rfl⟩ | ⟨l, t, hm, _, ⟨p, hp, rfl⟩, rfl⟩
      · exact ⟨⟨v0, v1, none, v3, v4, v5, v6, v7⟩, ⟨hk, ho', a0, a1, .inl ⟨h', rfl⟩, a3, a4, a5, a6, a7⟩, rfl⟩
      · exact ⟨⟨v0, v1, some p, v3, v4, v5, v6, v7⟩, ⟨hk, ho', a0, a1, .inr ⟨l, t, p, hm, hp, rfl⟩, a3, a4, a5, a6, a7⟩, rfl⟩
  · rintro ⟨r, h, rfl⟩
    refine ⟨h.keys, fun l k t hm hn => h.others l k t hm ((hkeys k).mp hn), _, rfl, rfl, ?_⟩
    intro i hd ft hi
    match i with
    | 0 => cases hi; exact ⟨_, rfl, fun h => absurd h (by decide +kernel), fun _ => e1.mpr h.failureReason⟩
    | 1 => cases hi; exact ⟨_, rfl, fun h => absurd h (by decide +kernel), fun _ => e2.mpr h.interval⟩
    | 2 =>
      cases hi
      refine ⟨_, rfl, fun h => absurd h (by decide +kernel), fun _ => e3.mpr ?_⟩
      rcases h.peers with ⟨h1, h2⟩ | ⟨l, t, p, h1, h2, h3⟩
      · exact .inl ⟨h1, by rw [h2]; rfl⟩
      · exact .inr ⟨l, t, h1, _, ⟨p, h2, rfl⟩, by rw [h3]; rfl⟩
    | 3 => cases hi; exact ⟨_, rfl, fun h => absurd h (by decide +kernel), fun _ => e1.mpr h.warningReason⟩
    | 4 => cases hi; exact ⟨_, rfl, fun h => absurd h (by decide +kernel), fun _ => e2.mpr h.minInterval⟩
    | 5 => cases hi; exact ⟨_, rfl, fun h => absurd h (by decide +kernel), fun _ => e1.mpr h.trackerID⟩
    | 6 => cases hi; exact ⟨_, rfl, fun h => absurd h (by decide +kernel), fun _ => e2.mpr h.complete⟩
    | 7 => cases hi; exact ⟨_, rfl, fun h => absurd h (by decide +kernel), fun _ => e2.mpr h.incomplete⟩
    | n + 8 => cases hi

theorem response_back (r : Response) : Response.ofVal r.val = some r := by
  obtain ⟨a, b, p, c, d, e, f, g⟩ := r
  cases p with
  | none => rfl
  | some p => simp [Response.val, Response.ofVal, peersPtr, ofVal_val]

/-- **C114.** Exactly the texts that begin with a dictionary in the layout of tracker responses are read, and each field holds
what is at its key. -/
theorem C114_reads (bs : Bytes) (r : Response) :
    unmarshalResponse bs = .ok r ↔ ∃ es rest, bs = (CTree.dict es).print ++ rest ∧ IsResponse es r := by
  constructor
  · intro h
    unfold unmarshalResponse at h
    cases hu : unmarshal trackerEnv responseTy (zero responseTy) bs with
    | panic => rw [hu] at h; cases h
    | err e => rw [hu] at h; cases h
    | ok v =>
      rw [hu, Res.bind_ok] at h
      obtain ⟨tr, rest, h1, rfl, h3⟩ := (unmarshal_D trackerEnv_sane).mp hu
      obtain ⟨es', e, h6⟩ := D.struct_inv h3
      obtain ⟨es, rfl, hv⟩ := h6.valid
      rw [entries_textEs] at e
      have hs : SynEs es := Valid.syn (.dict es) hv
      have e' : tr.print = (CTree.dict es).print := by rw [e]; rfl
      rw [e'] at h3
      obtain ⟨r', h7, rfl⟩ := (reads_response hs).mp h3
      rw [response_back] at h
      cases h
      exact ⟨es, rest, by rw [e'], h7⟩
  · rintro ⟨es, rest, rfl, h⟩
    have h3 := (reads_response (isResponse_syn h)).mpr ⟨r, h, rfl⟩
    unfold unmarshalResponse
    rw [h3.unmarshal trackerEnv_sane rest, Res.bind_ok, response_back]

/-- A response with two peers, in either form, and a key that is not known. -/
example : unmarshalResponse (b!"d8:intervali30e5:peers12:" ++ [1, 2, 3, 4, 0, 80, 5, 6, 7, 8, 1, 1] ++ b!"1:xlee") =
      .ok { interval := 30, peers := some ⟨true, some [⟨[], b!"1.2.3.4", 80⟩, ⟨[], b!"5.6.7.8", 257⟩]⟩ } ∧
    unmarshalResponse b!"d8:completei3e5:peersld2:ip3:::17:peer id1:a4:porti9eeee" =
      .ok { complete := 3, peers := some ⟨false, some [⟨b!"a", b!"::1", 9⟩]⟩ } := ⟨by kernel_rfl, by kernel_rfl⟩

example : ∃ es rest, b!"d8:completei3e5:peersld2:ip3:::17:peer id1:a4:porti9eeee" = (CTree.dict es).print ++ rest ∧
    IsResponse es { complete := 3, peers := some ⟨false, some [⟨b!"a", b!"::1", 9⟩]⟩ } := (C114_reads _ _).mp (by kernel_rfl)

/-- Not a multiple of six, keys out of order, or a number in place of the peers: not read. -/
example : unmarshalResponse b!"d5:peers5:abcdee" = .err .badPeers ∧ unmarshalResponse b!"d5:peers0:8:intervali30ee" = .err .unsorted ∧
    unmarshalResponse b!"d5:peersi5ee" = .err .badPeers := ⟨by kernel_rfl, by kernel_rfl, by kernel_rfl⟩

end Drip.Tracker
