import Verif.Props.ResponseRead
import Verif.Props.TorrentWrite
/-
C115: how tracker responses are written.
-/

namespace Drip.Tracker
open Spec Bencode Metainfo

theorem peersMarshal_tree {p : Peers} {b : BVal} (h : PeersTree p b) : peersMarshal p = .ok (benc b) := by
  obtain ⟨c, l⟩ := p
  rcases h with ⟨hc, s, h1, rfl⟩ | ⟨hc, qs, h2, rfl⟩
  · cases hc
    exact (C34_writes l).1 s h1
  · cases hc; cases h2
    exact C36_marshal_partial qs

theorem response_fields : structFields responseTy = [
    leafInfo [] 6 ⟨b!"Complete", b!"complete,omitempty", false, true⟩ (.int 64),
    leafInfo [] 0 ⟨b!"FailureReason", b!"failure reason,omitempty", false, true⟩ .str,
    leafInfo [] 7 ⟨b!"Incomplete", b!"incomplete,omitempty", false, true⟩ (.int 64),
    leafInfo [] 1 ⟨b!"Interval", b!"interval", false, true⟩ (.int 64),
    leafInfo [] 4 ⟨b!"MinInterval", b!"min interval,omitempty", false, true⟩ (.int 64),
    leafInfo [] 2 ⟨b!"Peers", b!"peers", false, true⟩ (.ptr peersTy),
    leafInfo [] 5 ⟨b!"TrackerID", b!"tracker id,omitempty", false, true⟩ .str,
    leafInfo [] 3 ⟨b!"WarningReason", b!"warning reason,omitempty", false, true⟩ .str] := by kernel_rfl

theorem rest_peers {fl : Flags} {id i : Nat} {fs : List (Hdr × Ty)} {vs : List Val} {hd : Hdr} {L : List FieldInfo} {bs pb : List (Bytes × BVal)}
    {o : Option Peers} (hr : Rest trackerEnv fl id fs vs L bs) (hi : fs[i]? = some (hd, .ptr peersTy)) (hv : vs[i]? = some (peersPtr o)) (ha : hd.anon = false)
    (hk : fieldKey hd = b!"peers") (hp : PeersEntry o pb) : Rest trackerEnv fl id fs vs (leafInfo [] i hd (.ptr peersTy) :: L) (pb ++ bs) := by
  cases o with
  | none =>
    cases hp
    exact hr.omit (fv := .nilPtr) hi hv ha (.inl trivial)
  | some p =>
    obtain ⟨b, hb, rfl⟩ := hp
    rw [← hk]
    refine hr.put (fv := .ptr p.val) (d := 0) hi hv ha (by simp [Nil]) (by simp [EmptyVal]) (.method (.ptr (m := fun v => match ofVal v with
      | some p => peersMarshal p
      | none => .panic) rfl rfl ?_))
    rw [ofVal_val]
    exact peersMarshal_tree hb

theorem response_writes (r : Response) {pb : List (Bytes × BVal)} (hp : PeersEntry r.peers pb) (fl : Flags) :
    ∃ d, DenotesK trackerEnv fl responseTy r.val (responseTree r pb) d := by
  unfold responseTree
  refine Rest.dict (bs := Spec.optInt b!"complete" r.complete ++ (Spec.optStr b!"failure reason" r.failureReason ++ (Spec.optInt b!"incomplete" r.incomplete ++
    ([(b!"interval", .int r.interval)] ++ (Spec.optInt b!"min interval" r.minInterval ++ (pb ++ (Spec.optStr b!"tracker id" r.trackerID ++
    (Spec.optStr b!"warning reason" r.warningReason ++ [])))))))) ?_ (by simp)
  rw [← responseTy, response_fields]
  have h0 : Rest trackerEnv fl 23 responseFields [.str r.failureReason, .int r.interval, peersPtr r.peers, .str r.warningReason,
    .int r.minInterval, .str r.trackerID, .int r.complete, .int r.incomplete] [] [] := ⟨0, .nil⟩
  have h1 := h0.optStr (i := 3) rfl rfl rfl (by decide +kernel)
  have h2 := h1.optStr (i := 5) rfl rfl rfl (by decide +kernel)
  have h3 := rest_peers h2 (i := 2) (hd := ⟨b!"Peers", b!"peers", false, true⟩) rfl rfl rfl (by decide +kernel) hp
  have h4 := h3.optInt (i := 4) rfl rfl rfl (by decide +kernel)
  have h5 := h4.int (i := 1) rfl rfl rfl (by decide +kernel)
  have h6 := h5.optInt (i := 7) rfl rfl rfl (by decide +kernel)
  have h7 := h6.optStr (i := 0) rfl rfl rfl (by decide +kernel)
  exact h7.optInt (i := 6) rfl rfl rfl (by decide +kernel)

/-- **C115**, for responses whose peers can be sent. A response is written in the layout of tracker responses. -/
theorem C115_writes_partial (r : Response) (pb : List (Bytes × BVal)) (hp : PeersEntry r.peers pb) : r.marshal = .ok (benc (responseTree r pb)) := by
  have hh := response_height r
  obtain ⟨d, h⟩ := response_writes r hp { addr := true }
  have d2 : Denotes trackerEnv { addr := false } (.ptr responseTy) (.ptr r.val) (responseTree r pb) d :=
    .kind (by simp [UsesMethod, responseTy]) (.ptr (.kind (by simp [UsesMethod, responseTy]) h))
  have := denotes_height _ _ _ _ _ _ _ d2 (Nat.le_refl _)
  simp only [Val.height] at this
  exact (C20_limit d2).1 (by omega)

theorem err_next {rec : Enc} {fl ffl : Flags} {t ft : Ty} {v fv : Val} {f : FieldInfo} {fs : List FieldInfo} {e : Err}
    (hf : fieldByIndex f.index fl t v = some (ffl, ft, fv)) (hr : ∀ s, ∃ s', rec ffl ft fv s = (.ok (), s'))
    (h : ∀ s, ∃ s', encFields rec fl t v fs s = (.err e, s')) (s : ESt) : ∃ s', encFields rec fl t v (f :: fs) s = (.err e, s') := by
  unfold encFields
  rw [hf]
  simp only []
  split
  · exact h s
  split
  · exact h s
  · obtain ⟨s1, h1⟩ := hr { s with out := s.out ++ natDec f.key.length ++ [58] ++ f.key }
    obtain ⟨s2, h2⟩ := h s1
    refine ⟨s2, ?_⟩
    simp only [E.seq, encString, E.write]
    rw [h1]
    exact h2

theorem err_here {rec : Enc} {fl ffl : Flags} {t ft : Ty} {v fv : Val} {f : FieldInfo} {fs : List FieldInfo} {e : Err}
    (hf : fieldByIndex f.index fl t v = some (ffl, ft, fv)) (hn : isNil fv = false) (ho : f.omitempty = false) (hr : ∀ s, ∃ s', rec ffl ft fv s = (.err e, s'))
    (s : ESt) : ∃ s', encFields rec fl t v (f :: fs) s = (.err e, s') := by
  unfold encFields
  rw [hf]
  simp only []
  rw [if_neg (by rw [hn]; decide), if_neg (by simp [ho])]
  obtain ⟨s1, h1⟩ := hr { s with out := s.out ++ natDec f.key.length ++ [58] ++ f.key }
  refine ⟨s1, ?_⟩
  simp only [E.seq, encString, E.write]
  rw [h1]

theorem encFields_peers (r : Response) {p : Peers} (hp : r.peers = some p) {e : Err} (he : peersMarshal p = .err e) (n : Nat) (s : ESt) :
    ∃ s', encFields (encode trackerEnv (n + 1)) { addr := true } responseTy r.val (structFields responseTy) s = (.err e, s') := by
  rw [response_fields]
  have hint : ∀ (fl : Flags) (i : Int) (s : ESt), ∃ s', encode trackerEnv (n + 1) fl (.int 64) (.int i) s = (.ok (), s') := fun _ _ _ => ⟨_, rfl⟩
  have hstr : ∀ (fl : Flags) (b : Bytes) (s : ESt), ∃ s', encode trackerEnv (n + 1) fl .str (.str b) s = (.ok (), s') := fun _ _ _ => ⟨_, rfl⟩
  refine err_next (ffl := _) (ft := .int 64) (fv := .int r.complete) rfl (hint _ _) (err_next (ffl := _) (ft := .str) (fv := .str r.failureReason) rfl (hstr _ _)
    (err_next (ffl := _) (ft := .int 64) (fv := .int r.incomplete) rfl (hint _ _) (err_next (ffl := _) (ft := .int 64) (fv := .int r.interval) rfl (hint _ _)
    (err_next (ffl := _) (ft := .int 64) (fv := .int r.minInterval) rfl (hint _ _) fun s => ?_)))) s
  have hf : fieldByIndex (leafInfo [] 2 ⟨b!"Peers", b!"peers", false, true⟩ (.ptr peersTy)).index { addr := true } responseTy r.val =
      some ({ addr := true }, .ptr peersTy, .ptr p.val) := by
    rw [Response.val, hp]; rfl
  have hm : ∀ s, encode trackerEnv (n + 1) { addr := true } (.ptr peersTy) (.ptr p.val) s = (.err e, s) := by
    intro s
    show encMarshaler false (fun v => match ofVal v with
      | some p => peersMarshal p
      | none => .panic) (some p.val) s = _
    simp only [encMarshaler, ofVal_val, he]
    rfl
  exact err_here hf rfl (by decide +kernel) (fun s => ⟨s, hm s⟩) s

/-- Peers that cannot be written make the whole response fail. -/
theorem response_err (r : Response) {p : Peers} (hp : r.peers = some p) {e : Err} (he : peersMarshal p = .err e) : r.marshal = .err e := by
  have hh : ∃ n, (Val.ptr r.val).height = n + 3 := by
    rw [Response.val]
    simp only [Val.height, heights]
    exact ⟨max 1 (max 1 (max (peersPtr r.peers).height 1)) - 1, by omega⟩
  obtain ⟨n, hn⟩ := hh
  unfold Response.marshal Bencode.marshal encodeTop
  rw [hn]
  obtain ⟨s', h⟩ := encFields_peers r hp he n ⟨[100], 1⟩
  have h1 : encode trackerEnv (n + 3) { addr := false } (.ptr responseTy) (.ptr r.val) =
      nested 100 (encFields (encode trackerEnv (n + 1)) { addr := true } responseTy r.val (structFields responseTy)) := rfl
  rw [h1]
  simp only [nested, ptrDepthLimit, E.seq, E.write, List.nil_append]
  rw [h]
  rfl

/-- **C115.** In the compact form, a peer whose address is not an IPv4 address is an error: nothing is written. -/
theorem C115_refuses (r : Response) (l : List Peer) (hr : r.peers = some ⟨true, some l⟩) (q : Peer) (hq : q ∈ l)
    (hd : ∀ a b c d, ¬ IsAddress q.ip (mapped a b c d)) : r.marshal = .err .notIPv4 :=
  response_err r hr (C34_refuses l q hq hd)

theorem benc_pos (b : BVal) : 0 < (benc b).length := by
  cases b <;> simp [benc] <;> omega

/-- **C115** is false in general: a response with the nil list in the list form, as a tracker sends when it knows no other
peer, has nothing after the key. -/
theorem C115_refuted : ¬ ∀ r : Response, r.peers = some ⟨false, none⟩ → ∃ b, r.marshal = .ok (benc (responseTree r [(b!"peers", b)])) := by
  intro h
  obtain ⟨b, hb⟩ := h { interval := 30, peers := some ⟨false, none⟩ } rfl
  have h1 := C78_nil_list_refuted.1
  rw [h1] at hb
  injection hb with hb
  have hl := congrArg List.length hb
  have e : benc (responseTree { interval := 30, peers := some ⟨false, none⟩ } [(b!"peers", b)]) = b!"d8:intervali30e5:peers" ++ benc b ++ b!"e" := by
    show benc (.dict [(b!"interval", .int 30), (b!"peers", b)]) = _
    have e1 : decNat (b!"interval").length = b!"8" := by kernel_rfl
    have e2 : decNat (b!"peers").length = b!"5" := by kernel_rfl
    have e3 : decInt 30 = b!"30" := by kernel_rfl
    rw [benc, bencEs, bencEs, bencEs, benc, e1, e2, e3]
    simp
  rw [e] at hl
  have := benc_pos b
  simp only [List.length_append, List.length_cons, List.length_nil] at hl
  omega

/-- A response of everything, in either form. -/
example : (Response.marshal { interval := 30, peers := some ⟨true, some [⟨b!"x", b!"1.2.3.4", 80⟩]⟩, warningReason := b!"w", minInterval := 5, trackerID := b!"t", complete := 1, incomplete := 2, failureReason := b!"f" }) =
    .ok (b!"d8:completei1e14:failure reason1:f10:incompletei2e8:intervali30e12:min intervali5e5:peers6:" ++ [1, 2, 3, 4, 0, 80] ++ b!"10:tracker id1:t14:warning reason1:we") := by
  kernel_rfl

example : benc (responseTree { interval := 0, complete := 7 } [(b!"peers", .list [peerTree ⟨b!"x", b!"::1", 80⟩])]) =
    b!"d8:completei7e8:intervali0e5:peersld2:ip3:::17:peer id1:x4:porti80eeee" := by kernel_rfl

example : PeersEntry (some ⟨false, some [⟨b!"x", b!"::1", 80⟩]⟩) [(b!"peers", .list [peerTree ⟨b!"x", b!"::1", 80⟩])] :=
  ⟨_, .inr ⟨rfl, _, rfl, rfl⟩, rfl⟩

example : PeersEntry (some ⟨true, some [⟨b!"x", b!"1.2.3.4", 80⟩]⟩) [(b!"peers", .str [1, 2, 3, 4, 0, 80])] :=
  ⟨_, .inl ⟨rfl, _, .cons (text := b!"1.2.3.4") (port := 80) (a := 1) (b := 2) (c := 3) (d := 4) ((Net.parseIP_iff _ _).mp (by kernel_rfl)) .nil, rfl⟩, rfl⟩

example : (Response.marshal { peers := some ⟨true, some [⟨b!"x", b!"1.2.3.4", 80⟩, ⟨b!"y", b!"host", 80⟩]⟩ }) = .err .notIPv4 := by kernel_rfl

end Drip.Tracker
