import Verif.Model.Tracker
import Verif.Model.Magnet
import Verif.Model.KernelRfl
import Verif.Lemmas.Url
import Verif.Lemmas.Net
import Verif.Props.BencodeDecode
import Verif.Props.BencodeEncode
import Verif.Lemmas.Bencode.Num
import Verif.Lemmas.Bencode.Emit
import Verif.Lemmas.Announces
import Verif.Lemmas.Recommended
import Verif.Model.KernelRfl
import Verif.Spec.Tracker
/-
Properties of the tracker API: C33-C36.
-/

namespace Drip.Tracker
open Spec Bencode

/-! ### C33: requests -/

/-- The parameters of a request, as the protocol names them. -/
def Request.announce (r : Request) : List (Bytes × Bytes) :=
  announceParams r.infoHash r.peerID r.ip r.port r.uploaded r.downloaded r.left r.event r.compact

/-- A request with values that fit the Go types. -/
structure Request.WF (r : Request) : Prop where
  infoHash : r.infoHash.length = 20
  peerID : r.peerID.length = 20
  port : FitsInt64 r.port
  uploaded : FitsInt64 r.uploaded
  downloaded : FitsInt64 r.downloaded
  left : FitsInt64 r.left

theorem param_eq {ps : List (Bytes × Bytes)} {k v : Bytes} {f : Bytes → Request → Res Request} {r : Request} (h : Url.get ps k = v) :
    param ps k f r = if v = [] then .ok r else f v r := by unfold param; rw [h]

theorem intParam_eq {ps : List (Bytes × Bytes)} {k : Bytes} {i : Int} {f : Int → Request → Request} {r : Request}
    (h : Url.get ps k = decInt i) (hi : FitsInt64 i) : param ps k (intParam f) r = .ok (f i r) := by
  rw [← intDec_eq_decInt] at h
  rw [param_eq h]
  have hp := parseInt_intDec i hi.1 hi.2
  rw [if_neg]
  · unfold intParam; rw [hp]
  · intro e; rw [e] at hp; simp [parseInt, parseNat] at hp

theorem copy20_full {d v : Bytes} (hd : d.length = 20) (hv : v.length = 20) : copy20 d v = v := by
  unfold copy20
  rw [List.take_of_length_le (by omega), List.drop_of_length_le (by omega), List.append_nil]

theorem strParam_eq {ps : List (Bytes × Bytes)} {k v : Bytes} {f : Bytes → Request → Request} {r : Request} (h : Url.get ps k = v)
    (h0 : f [] r = r) : param ps k (fun v r => .ok (f v r)) r = .ok (f v r) := by
  rw [param_eq h]
  by_cases hv : v = []
  · rw [if_pos hv, hv, h0]
  · rw [if_neg hv]

theorem decode_of {r : Request} (hr : r.WF) {ps : List (Bytes × Bytes)} {q : Bytes} (hq : Url.parseQuery q = (ps, false))
    (k1 : Url.get ps b!"info_hash" = r.infoHash) (k2 : Url.get ps b!"peer_id" = r.peerID) (k3 : Url.get ps b!"ip" = r.ip)
    (k4 : Url.get ps b!"port" = decInt r.port) (k5 : Url.get ps b!"uploaded" = decInt r.uploaded)
    (k6 : Url.get ps b!"downloaded" = decInt r.downloaded) (k7 : Url.get ps b!"left" = decInt r.left)
    (k8 : Url.get ps b!"event" = r.event) (k9 : Url.get ps b!"compact" = if r.compact then b!"1" else b!"0") :
    Request.zero.decode q = .ok r := by
  obtain ⟨h1, h2, h3, h4, h5, h6, h7, h8, h9⟩ := r
  obtain ⟨w1, w2, w4, w5, w6, w7⟩ := hr
  unfold Request.decode
  rw [hq]
  generalize b!"info_hash" = n1 at *
  generalize b!"peer_id" = n2 at *
  generalize b!"ip" = n3 at *
  generalize b!"port" = n4 at *
  generalize b!"uploaded" = n5 at *
  generalize b!"downloaded" = n6 at *
  generalize b!"left" = n7 at *
  generalize b!"event" = n8 at *
  generalize b!"compact" = n9 at *
  simp only [Bool.false_eq_true, if_false] at *
  have h20 : ∀ s : Bytes, s.length = 20 → s ≠ [] := by rintro s h rfl; simp at h
  have g : (List.replicate 20 (0 : UInt8)).length = 20 := rfl
  unfold Request.zero
  generalize List.replicate 20 (0 : UInt8) = z at *
  rw [param_eq k1, if_neg (h20 _ w1), Res.bind_ok, param_eq k2, if_neg (h20 _ w2), Res.bind_ok]
  rw [copy20_full g w1, copy20_full g w2]
  rw [strParam_eq (f := fun v r => { r with ip := v }) k3 rfl, Res.bind_ok]
  rw [intParam_eq k4 w4, Res.bind_ok, intParam_eq k5 w5, Res.bind_ok, intParam_eq k6 w6, Res.bind_ok, intParam_eq k7 w7, Res.bind_ok]
  rw [strParam_eq (f := fun v r => { r with event := v }) k8 rfl, Res.bind_ok]
  rw [param_eq k9]
  cases h9 <;> rfl

/-- **C33.** Any text that stands for the parameters of a request (in any order, in any escaping, with any other parameters
among them) is decoded to that request. Parameters with an empty value may be missing. -/
theorem C33_decode (r : Request) (hr : r.WF) (ps : List (Bytes × Bytes)) (q : Bytes) (hq : QPairs ps q) (hn : (ps.map (·.1)).Nodup)
    (hin : ∀ p ∈ r.announce, p.2 ≠ [] → p ∈ ps) (hout : ∀ p ∈ r.announce, p.2 = [] → ∀ v, (p.1, v) ∈ ps → v = []) :
    Request.zero.decode q = .ok r := by
  have key : ∀ k v, (k, v) ∈ r.announce → Url.get ps k = v := by
    intro k v h
    by_cases hv : v = []
    · by_cases hk : k ∈ ps.map (·.1)
      · obtain ⟨⟨k', v'⟩, h1, rfl⟩ := List.mem_map.mp hk
        rw [Url.get_of_mem hn h1, hv]
        exact hout _ h hv _ h1
      · rw [Url.get_of_not_mem hk, hv]
    · exact Url.get_of_mem hn (hin _ h hv)
  have k1 := key b!"info_hash" r.infoHash (by simp [Request.announce, announceParams])
  have k2 := key b!"peer_id" r.peerID (by simp [Request.announce, announceParams])
  have k3 := key b!"ip" r.ip (by simp [Request.announce, announceParams])
  have k4 := key b!"port" (decInt r.port) (by simp [Request.announce, announceParams])
  have k5 := key b!"uploaded" (decInt r.uploaded) (by simp [Request.announce, announceParams])
  have k6 := key b!"downloaded" (decInt r.downloaded) (by simp [Request.announce, announceParams])
  have k7 := key b!"left" (decInt r.left) (by simp [Request.announce, announceParams])
  have k8 := key b!"event" r.event (by simp [Request.announce, announceParams])
  have k9 := key b!"compact" (if r.compact then b!"1" else b!"0") (by simp [Request.announce, announceParams])
  exact decode_of hr (Url.parseQuery_of hq) k1 k2 k3 k4 k5 k6 k7 k8 k9

theorem params_filter (r : Request) : r.params.filter (fun p => decide (p.2 ≠ [])) = r.announce.filter (fun p => decide (p.2 ≠ [])) := by
  have h : r.params = r.announce ++ [(b!"no_peer_id", []), (b!"numwant", []), (b!"key", []), (b!"trackerid", [])] := by
    simp [Request.params, Request.announce, announceParams, intDec_eq_decInt]
  rw [h, List.filter_append]
  simp

theorem announce_nodup (r : Request) : (r.announce.map (·.1)).Nodup := by
  show [b!"info_hash", b!"peer_id", b!"ip", b!"port", b!"uploaded", b!"downloaded", b!"left", b!"event", b!"compact"].Nodup
  decide +kernel

/-- **C33.** The encoded request stands for exactly its parameters that are not empty, in some order. -/
theorem C33_encode (r : Request) : ∃ ps, QPairs ps r.encode ∧ ps.Perm (r.announce.filter fun p => decide (p.2 ≠ [])) := by
  refine ⟨_, Url.qpairs_encode _, ?_⟩
  rw [← params_filter]
  exact sortByKey_perm _ _

/-- **C33.** The round trip. -/
theorem C33_roundtrip (r : Request) (hr : r.WF) : Request.zero.decode r.encode = .ok r := by
  obtain ⟨ps, hq, hp⟩ := C33_encode r
  have hnd : (ps.map (·.1)).Nodup := by
    refine (List.Perm.nodup_iff (hp.map _)).mpr ?_
    exact (announce_nodup r).sublist (List.Sublist.map _ List.filter_sublist)
  refine C33_decode r hr ps _ hq hnd ?_ ?_
  · intro p h1 h2
    rw [hp.mem_iff, List.mem_filter]; simp [h1, h2]
  · intro p h1 h2 v hv
    rw [hp.mem_iff, List.mem_filter] at hv
    have := announce_nodup r
    have e1 := Url.get_of_mem this hv.1
    have e2 := Url.get_of_mem this (k := p.1) (v := p.2) h1
    rw [← e1, e2, h2]

theorem queryEscape_eq (s : Bytes) : Url.queryEscape s = formText s := by
  have h : ∀ b : UInt8, Url.unreserved b = leftAlone b ∧ Url.hexUpper (b.toNat / 16) = (b!"0123456789ABCDEF").getD (b.toNat / 16) 0 ∧
      Url.hexUpper (b.toNat % 16) = (b!"0123456789ABCDEF").getD (b.toNat % 16) 0 := by
    have h : ∀ n : Fin 256, Url.unreserved (UInt8.ofNat n.val) = leftAlone (UInt8.ofNat n.val) ∧
        Url.hexUpper ((UInt8.ofNat n.val).toNat / 16) = (b!"0123456789ABCDEF").getD ((UInt8.ofNat n.val).toNat / 16) 0 ∧
        Url.hexUpper ((UInt8.ofNat n.val).toNat % 16) = (b!"0123456789ABCDEF").getD ((UInt8.ofNat n.val).toNat % 16) 0 := by decide +kernel
    intro b
    have := h ⟨b.toNat, b.toNat_lt⟩
    rwa [UInt8.ofNat_toNat] at this
  induction s with
  | nil => rfl
  | cons b s ih =>
    obtain ⟨h1, h2, h3⟩ := h b
    rw [Url.queryEscape, h1, h2, h3, ih]
    unfold formText
    rw [List.flatMap_cons]
    split
    · rfl
    · split <;> rfl

theorem encodePairs_eq : ∀ ps : List (Bytes × Bytes), (∀ p ∈ ps, formText p.1 = p.1) → Url.encodePairs ps = formPairs ps
  | [], _ => rfl
  | [(k, v)], h => by
    have h1 := h _ (List.mem_singleton.2 rfl)
    simp only at h1
    rw [Url.encodePairs, queryEscape_eq, queryEscape_eq, h1]
    simp [formPairs, List.intercalate]
  | (k, v) :: p :: ps, h => by
    have h1 := h _ (List.mem_cons_self ..)
    have ih := encodePairs_eq (p :: ps) fun q hq => h q (List.mem_cons_of_mem _ hq)
    simp only at h1
    rw [Url.encodePairs, queryEscape_eq, queryEscape_eq, h1, ih]
    · simp [formPairs, List.intercalate]
    · simp

/-- The parameters of a request in the alphabetical order of their names. -/
def Request.sorted (r : Request) : List (Bytes × Bytes) := [
  (b!"compact", if r.compact then b!"1" else b!"0"), (b!"downloaded", decInt r.downloaded), (b!"event", r.event), (b!"info_hash", r.infoHash), (b!"ip", r.ip),
  (b!"left", decInt r.left), (b!"peer_id", r.peerID), (b!"port", decInt r.port), (b!"uploaded", decInt r.uploaded)]

/-- **C33.** What is sent, byte for byte: the parameters that are not empty in alphabetical order, in the form encoding. -/
theorem C33_exact (r : Request) : r.encode = formPairs (r.sorted.filter fun p => decide (p.2 ≠ [])) := by
  have hsort : r.sorted = sortByKey (·.1) r.announce := by kernel_rfl
  have hinc : Incr (·.1) r.sorted := by rw [hsort]; exact sortByKey_incr _ _ (announce_nodup r)
  have hperm : r.sorted.Perm r.announce := by rw [hsort]; exact sortByKey_perm _ _
  have hkeys : ∀ p ∈ r.sorted, formText p.1 = p.1 := by
    have h : ∀ k ∈ r.sorted.map (·.1), formText k = k := by
      rw [show r.sorted.map (·.1) = [b!"compact", b!"downloaded", b!"event", b!"info_hash", b!"ip", b!"left", b!"peer_id", b!"port", b!"uploaded"] from rfl]
      decide +kernel
    exact fun p hp => h _ (List.mem_map.2 ⟨p, hp, rfl⟩)
  have hf : Incr (·.1) (r.sorted.filter fun p => decide (p.2 ≠ [])) := List.Pairwise.sublist List.filter_sublist hinc
  unfold Request.encode Url.encode
  rw [params_filter, sortByKey_of_perm_incr _ _ _ (hperm.filter _) hf]
  exact encodePairs_eq _ fun p hp => hkeys p (List.mem_filter.1 hp).1

theorem param_bad {ps : List (Bytes × Bytes)} {k v : Bytes} {f : Int → Request → Request} {r : Request} (h : Url.get ps k = v) (hv : v ≠ [])
    (hb : ¬ ∃ n, SNumeral v n ∧ FitsInt64 n) : param ps k (intParam f) r = .err .badQuery := by
  rw [param_eq h, if_neg hv]
  unfold intParam
  cases hp : parseInt v with
  | none => rfl
  | some n => exact absurd ⟨n, ((parseInt_some v n).mp hp).1, ((parseInt_some v n).mp hp).2⟩ hb

theorem param_cases (ps : List (Bytes × Bytes)) (k : Bytes) (f : Int → Request → Request) (r : Request) :
    (∃ r', param ps k (intParam f) r = .ok r') ∨ param ps k (intParam f) r = .err .badQuery := by
  unfold param intParam
  split
  · exact Or.inl ⟨_, rfl⟩
  · split
    · exact Or.inl ⟨_, rfl⟩
    · exact Or.inr rfl

theorem param_total {ps : List (Bytes × Bytes)} {k : Bytes} {f : Bytes → Request → Request} {r : Request} :
    ∃ r', param ps k (fun v r => .ok (f v r)) r = .ok r' := by
  unfold param
  split <;> exact ⟨_, rfl⟩

/-- **C33.** A request with a number that is not one is refused, whatever the rest is. -/
theorem C33_refuses (r : Request) (ps : List (Bytes × Bytes)) (q : Bytes) (hq : QPairs ps q) (hn : (ps.map (·.1)).Nodup)
    (k v : Bytes) (hk : k ∈ [b!"port", b!"uploaded", b!"downloaded", b!"left"]) (hv : (k, v) ∈ ps) (hne : v ≠ [])
    (hb : ¬ ∃ n, SNumeral v n ∧ FitsInt64 n) : r.decode q = .err .badQuery := by
  have hg := Url.get_of_mem hn hv
  unfold Request.decode
  rw [Url.parseQuery_of hq]
  simp only [Bool.false_eq_true, if_false]
  obtain ⟨r1, e1⟩ := param_total (ps := ps) (k := b!"info_hash") (f := fun v r => { r with infoHash := copy20 r.infoHash v }) (r := r)
  obtain ⟨r2, e2⟩ := param_total (ps := ps) (k := b!"peer_id") (f := fun v r => { r with peerID := copy20 r.peerID v }) (r := r1)
  obtain ⟨r3, e3⟩ := param_total (ps := ps) (k := b!"ip") (f := fun v r => { r with ip := v }) (r := r2)
  rw [e1, Res.bind_ok, e2, Res.bind_ok, e3, Res.bind_ok]
  rcases param_cases ps b!"port" (fun i r => { r with port := i }) r3 with ⟨r4, e4⟩ | e4
  rotate_left
  · rw [e4]; rfl
  rcases param_cases ps b!"uploaded" (fun i r => { r with uploaded := i }) r4 with ⟨r5, e5⟩ | e5
  rotate_left
  · rw [e4, Res.bind_ok, e5]; rfl
  rcases param_cases ps b!"downloaded" (fun i r => { r with downloaded := i }) r5 with ⟨r6, e6⟩ | e6
  rotate_left
  · rw [e4, Res.bind_ok, e5, Res.bind_ok, e6]; rfl
  rcases param_cases ps b!"left" (fun i r => { r with left := i }) r6 with ⟨r7, e7⟩ | e7
  rotate_left
  · rw [e4, Res.bind_ok, e5, Res.bind_ok, e6, Res.bind_ok, e7]; rfl
  simp only [List.mem_cons, List.not_mem_nil, or_false] at hk
  rcases hk with rfl | rfl | rfl | rfl
  · rw [param_bad hg hne hb] at e4; cases e4
  · rw [param_bad hg hne hb] at e5; cases e5
  · rw [param_bad hg hne hb] at e6; cases e6
  · rw [param_bad hg hne hb] at e7; cases e7

example : Request.zero.decode b!"port=68x1&left=5" = .err .badQuery := by kernel_rfl

/-- A request with awkward bytes. -/
def awkward : Request := ⟨(List.range 20).map fun n => UInt8.ofNat (n * 13 + 32), List.replicate 20 38, b!"a b+c%&=;#", 6881, -1, 0, 2 ^ 40, [], true⟩

example : awkward.WF ∧ Request.zero.decode awkward.encode = .ok awkward := by
  have h : awkward.WF := by constructor <;> simp [awkward, FitsInt64]
  exact ⟨h, C33_roundtrip _ h⟩

/-- Its text. -/
example : awkward.encode = b!"compact=1&downloaded=0&info_hash=+-%3AGTan%7B%88%95%A2%AF%BC%C9%D6%E3%F0%FD%0A%17&ip=a+b%2Bc%25%26%3D%3B%23&left=1099511627776" ++
    b!"&peer_id=%26%26%26%26%26%26%26%26%26%26%26%26%26%26%26%26%26%26%26%26&port=6881&uploaded=-1" := by kernel_rfl

theorem param_never {ps : List (Bytes × Bytes)} {k : Bytes} {f : Bytes → Request → Res Request} {r : Request}
    (h : ∀ v, (∃ r', f v r = .ok r') ∨ f v r = .err .badQuery) : (∃ r', param ps k f r = .ok r') ∨ param ps k f r = .err .badQuery := by
  unfold param
  split
  · exact .inl ⟨_, rfl⟩
  · exact h _

theorem bind_never {x : Res Request} {f : Request → Res Request} (h : (∃ r, x = .ok r) ∨ x = .err .badQuery)
    (hf : ∀ r, (∃ r', f r = .ok r') ∨ f r = .err .badQuery) : (∃ r, (x >>= f) = .ok r) ∨ (x >>= f) = .err .badQuery := by
  rcases h with ⟨r, rfl⟩ | rfl
  · exact hf r
  · exact .inr rfl

/-- **C33.** Which request a query is, exactly. A query that is none is refused. -/
theorem C33_reads (q : Bytes) : (∀ r, Request.zero.decode q = .ok r ↔ IsRequest q r) ∧ ((¬ ∃ r, IsRequest q r) → Request.zero.decode q = .err .badQuery) := by
  refine ⟨decode_iff q, fun h => ?_⟩
  have hn : ∀ (f : Int → Request → Request) v r, (∃ r', intParam f v r = .ok r') ∨ intParam f v r = .err .badQuery := by
    intro f v r
    unfold intParam
    split
    · exact .inl ⟨_, rfl⟩
    · exact .inr rfl
  have : (∃ r, Request.zero.decode q = .ok r) ∨ Request.zero.decode q = .err .badQuery := by
    unfold Request.decode
    simp only
    split
    · exact .inr rfl
    · exact bind_never (param_never fun v => .inl ⟨_, rfl⟩) fun _ => bind_never (param_never fun v => .inl ⟨_, rfl⟩) fun _ => bind_never (param_never fun v => .inl ⟨_, rfl⟩) fun _ =>
        bind_never (param_never fun v => hn _ v _) fun _ => bind_never (param_never fun v => hn _ v _) fun _ => bind_never (param_never fun v => hn _ v _) fun _ =>
        bind_never (param_never fun v => hn _ v _) fun _ => bind_never (param_never fun v => .inl ⟨_, rfl⟩) fun _ => param_never fun v => .inl ⟨_, rfl⟩
  rcases this with ⟨r, hr⟩ | hr
  · exact absurd ⟨r, (decode_iff q r).mp hr⟩ h
  · exact hr

/-- Two ports, a short hash, and a number with a sign. -/
example : IsRequest b!"port=%2B80&info_hash=a%00&port=x&&left=-0" ⟨[97, 0] ++ List.replicate 18 0, List.replicate 20 0, [], 80, 0, 0, 0, [], false⟩ := by
  rw [← decode_iff]
  kernel_rfl

/-! ### C34: compact lists -/

theorem port16_eq (n : Nat) (h : n < 65536) : port16 n = [UInt8.ofNat (n / 256), UInt8.ofNat (n % 256)] := by
  unfold port16
  have : ((n : Int) % 65536).toNat = n := by omega
  simp only [this]

theorem compactPeers_ok (es : List (Bytes × Endpoint)) (h : ∀ e ∈ es, e.2.port < 65536) :
    compactPeers (es.map fun e => ⟨e.1, e.2.ip, e.2.port⟩) = .ok (es.flatMap fun e => e.2.six) := by
  induction es with
  | nil => rfl
  | cons e es ih =>
    simp only [List.map_cons, compactPeers, Endpoint.ip, Net.parseTo4_dotted]
    simp only [Endpoint.ip] at ih
    rw [ih fun x hx => h x (by simp [hx]), port16_eq _ (h e (by simp))]
    simp [Res.map, Endpoint.six]

/-- **C34.** Marshalling a compact list of IPv4 peers gives the string of BEP 23: six bytes for each peer, in order. -/
theorem C34_marshal (es : List (Bytes × Endpoint)) (h : ∀ e ∈ es, e.2.port < 65536) :
    peersMarshal ⟨true, some (es.map fun e => ⟨e.1, e.2.ip, e.2.port⟩)⟩ = .ok (benc (.str (es.flatMap fun e => e.2.six))) := by
  unfold peersMarshal
  simp only [if_true, Option.getD_some]
  rw [compactPeers_ok es h, Res.bind_ok]
  exact (C20_limit (env := noEnv) (d := 0) (.kind (by simp [UsesMethod]) .bytes)).1 (by omega)

theorem parseSixes_flat (es : List Endpoint) (h : ∀ e ∈ es, e.port < 65536) :
    parseSixes (es.flatMap Endpoint.six) = es.map fun e => ⟨[], e.ip, e.port⟩ := by
  induction es with
  | nil => rfl
  | cons e es ih =>
    have hp := h e (by simp)
    simp only [List.flatMap_cons, Endpoint.six, List.cons_append, List.nil_append, parseSixes, List.map_cons]
    rw [ih fun x hx => h x (by simp [hx]), Net.ipv4String_eq]
    congr 1
    simp only [Endpoint.ip, Peer.mk.injEq, true_and]
    rw [Net.ofNat_toNat_lt (by omega), Net.ofNat_toNat_lt (by omega)]
    omega

theorem sixes_of_length : ∀ (n : Nat) (s : Bytes), s.length = 6 * n → ∃ es : List Endpoint, s = es.flatMap Endpoint.six ∧ ∀ e ∈ es, e.port < 65536
  | 0, s, h => ⟨[], by simpa using h, by simp⟩
  | n + 1, s, h => by
    match s with
    | a :: b :: c :: d :: e :: f :: r =>
      obtain ⟨es, rfl, h2⟩ := sixes_of_length n r (by simp at h; omega)
      have he := e.toNat_lt
      have hf := f.toNat_lt
      refine ⟨⟨a, b, c, d, e.toNat * 256 + f.toNat⟩ :: es, ?_, ?_⟩
      · simp only [List.flatMap_cons, Endpoint.six, List.cons_append, List.nil_append]
        have h1 : (e.toNat * 256 + f.toNat) / 256 = e.toNat := by omega
        have h3 : (e.toNat * 256 + f.toNat) % 256 = f.toNat := by omega
        rw [h1, h3]
        simp
      · simp only [List.mem_cons, forall_eq_or_imp]
        exact ⟨by omega, h2⟩
    | [] => simp at h
    | [_] => simp at h; omega
    | [_, _] => simp at h; omega
    | [_, _, _] => simp at h; omega
    | [_, _, _, _] => simp at h; omega
    | [_, _, _, _, _] => simp at h; omega

theorem appended_getD (l : List Peer) : (appended l).getD [] = l := by cases l <;> rfl

theorem sixes_length (es : List Endpoint) : (es.flatMap Endpoint.six).length = 6 * es.length := by
  induction es with
  | nil => rfl
  | cons e es ih => simp [ih, Endpoint.six]; omega

/-- **C34.** A compact list of peers is read back in order, with empty ids. -/
theorem C34_unmarshal (es : List Endpoint) (h : ∀ e ∈ es, e.port < 65536) (hl : (es.flatMap Endpoint.six).length ≤ 2 ^ 48) (p : Peers) :
    ∃ l, peersUnmarshal (benc (.str (es.flatMap Endpoint.six))) p = .ok ⟨true, l⟩ ∧ l.getD [] = es.map fun e => ⟨[], e.ip, e.port⟩ := by
  have h1 := C12_roundtrip noEnv (.str (es.flatMap Endpoint.six)) (by simpa [BVal.Fits] using hl) []
  rw [List.append_nil] at h1
  unfold peersUnmarshal
  rw [h1, Res.bind_ok]
  simp only [toAny, parseCompactPeers]
  rw [if_neg (by rw [sixes_length]; omega), Res.bind_ok]
  exact ⟨_, rfl, by rw [appended_getD, parseSixes_flat es h]⟩

/-- **C34.** Both directions together: everything but the ids survives. -/
theorem C34_roundtrip (es : List (Bytes × Endpoint)) (h : ∀ e ∈ es, e.2.port < 65536)
    (hl : 6 * es.length ≤ 2 ^ 48) (p : Peers) :
    ∃ bs l, peersMarshal ⟨true, some (es.map fun e => ⟨e.1, e.2.ip, e.2.port⟩)⟩ = .ok bs ∧ peersUnmarshal bs p = .ok ⟨true, l⟩ ∧
      l.getD [] = es.map fun e => ⟨[], e.2.ip, e.2.port⟩ := by
  have e0 : (es.flatMap fun e => e.2.six) = (es.map (·.2)).flatMap Endpoint.six := by simp [List.flatMap_map]
  obtain ⟨l, h1, h2⟩ := C34_unmarshal (es.map (·.2)) (by simpa using fun b a hb => h (a, b) hb) (by rw [sixes_length]; simpa using hl) p
  rw [← e0] at h1
  exact ⟨_, l, C34_marshal es h, h1, by rw [h2, List.map_map]; rfl⟩

/-- **C34.** A compact string is accepted iff its length is a multiple of 6, and then it is read six bytes at a time. -/
theorem C34_accepts (l s rest : Bytes) (hs : (CTree.str l s).Valid true (2 ^ 63)) (p : Peers) :
    (s.length % 6 = 0 → ∃ (es : List Endpoint) (ps : Option (List Peer)), (∀ e ∈ es, e.port < 65536) ∧ s = es.flatMap Endpoint.six ∧
      peersUnmarshal ((CTree.str l s).print ++ rest) p = .ok ⟨true, ps⟩ ∧ ps.getD [] = es.map fun e => ⟨[], e.ip, e.port⟩) ∧
    (s.length % 6 ≠ 0 → peersUnmarshal ((CTree.str l s).print ++ rest) p = .err .badPeers) := by
  have h1 := (C12_accepts_iff noEnv _ _).mpr ⟨_, rest, rfl, hs, rfl⟩
  unfold peersUnmarshal
  rw [h1, Res.bind_ok]
  simp only [CTree.abs, toAny, parseCompactPeers]
  constructor
  · intro h6
    obtain ⟨es, rfl, h2⟩ := sixes_of_length (s.length / 6) s (by omega)
    rw [if_neg (by omega), Res.bind_ok]
    exact ⟨es, _, h2, rfl, rfl, by rw [appended_getD, parseSixes_flat es h2]⟩
  · intro h6
    rw [if_pos h6]
    rfl

theorem compactPeers_iff (ps : List Peer) (s : Bytes) : compactPeers ps = .ok s ↔ CompactForm (ps.map fun q => (q.ip, q.port)) s := by
  induction ps generalizing s with
  | nil =>
    simp only [compactPeers, Res.ok.injEq, List.map_nil]
    constructor
    · rintro rfl; exact .nil
    · intro h; cases h; rfl
  | cons q ps ih =>
    rw [compactPeers, List.map_cons]
    constructor
    · intro h
      split at h
      · cases h
      · rename_i ip hip
        obtain ⟨a, b, c, d, h1, rfl⟩ := (Net.parseTo4_iff _ _).mp hip
        cases hc : compactPeers ps with
        | ok r =>
          rw [hc] at h
          cases h
          exact .cons h1 ((ih r).mp hc)
        | err e => rw [hc] at h; cases h
        | panic => rw [hc] at h; cases h
    · intro h
      cases h with
      | cons h1 h2 =>
        rw [(Net.parseTo4_iff _ _).mpr ⟨_, _, _, _, h1, rfl⟩, (ih _).mpr h2]
        rfl

theorem compactPeers_cases (ps : List Peer) : (∃ s, compactPeers ps = .ok s) ∨ compactPeers ps = .err .notIPv4 := by
  induction ps with
  | nil => exact .inl ⟨_, rfl⟩
  | cons q ps ih =>
    rw [compactPeers]
    split
    · exact .inr rfl
    · rcases ih with ⟨s, h⟩ | h
      · rw [h]; exact .inl ⟨_, rfl⟩
      · rw [h]; exact .inr rfl

/-- **C34.** Exactly the lists of peers with IPv4 addresses, in whatever notation, have a compact form; anything else is an error. -/
theorem C34_writes (l : Option (List Peer)) :
    (∀ s, CompactForm ((l.getD []).map fun q => (q.ip, q.port)) s → peersMarshal ⟨true, l⟩ = .ok (benc (.str s))) ∧
    ((¬ ∃ s, CompactForm ((l.getD []).map fun q => (q.ip, q.port)) s) → peersMarshal ⟨true, l⟩ = .err .notIPv4) := by
  constructor
  · intro s h
    unfold peersMarshal
    simp only [if_true]
    rw [(compactPeers_iff _ _).mpr h, Res.bind_ok]
    exact (C20_limit (env := noEnv) (d := 0) (.kind (by simp [UsesMethod]) .bytes)).1 (by omega)
  · intro h
    unfold peersMarshal
    simp only [if_true]
    rcases compactPeers_cases (l.getD []) with ⟨s, hs⟩ | hs
    · exact absurd ⟨s, (compactPeers_iff _ _).mp hs⟩ h
    · rw [hs]; rfl

theorem compactForm_mem {ps : List (Bytes × Int)} {s : Bytes} (h : CompactForm ps s) {q : Bytes × Int} (hq : q ∈ ps) : ∃ a b c d, IsAddress q.1 (mapped a b c d) := by
  induction h with
  | nil => cases hq
  | cons h1 _ ih =>
    rcases List.mem_cons.mp hq with rfl | hq
    · exact ⟨_, _, _, _, h1⟩
    · exact ih hq

/-- **C34.** A peer with an address that is not an IPv4 address is refused. -/
theorem C34_refuses (ps : List Peer) (q : Peer) (hq : q ∈ ps) (hd : ∀ a b c d, ¬ IsAddress q.ip (mapped a b c d)) :
    peersMarshal ⟨true, some ps⟩ = .err .notIPv4 := by
  refine (C34_writes _).2 ?_
  rintro ⟨s, hs⟩
  obtain ⟨a, b, c, d, h⟩ := compactForm_mem hs (List.mem_map.mpr ⟨q, hq, rfl⟩)
  exact hd a b c d h

/-- A mapped address, and a port that does not fit. -/
example : CompactForm [(b!"::ffff:102:304", 65617)] [1, 2, 3, 4, 0, 81] := by
  refine CompactForm.cons (a := 1) (b := 2) (c := 3) (d := 4) ?_ .nil
  rw [← Net.parseIP_iff]
  kernel_rfl

example : ∀ a b c d, ¬ IsAddress b!"::1" (mapped a b c d) := by
  intro a b c d h
  have h1 : Net.parseIP b!"::1" = some [0, 0, 0, 0, 0, 0, 0, 0, 0, 0, 0, 0, 0, 0, 0, 1] := by kernel_rfl
  rw [← Net.parseIP_iff, h1] at h
  simp [mapped] at h

example : peersMarshal ⟨true, some [⟨b!"x", b!"10.0.0.255", 6881⟩, ⟨[], b!"1.2.3.4", 80⟩]⟩ =
    .ok (b!"12:" ++ [10, 0, 0, 255, 26, 225, 1, 2, 3, 4, 0, 80]) := by kernel_rfl
example : peersMarshal ⟨true, some [⟨[], b!"01.2.3.4", 80⟩]⟩ = .err .notIPv4 := by kernel_rfl
example : peersUnmarshal (b!"6:" ++ [10, 0, 0, 255, 26, 225]) ⟨false, none⟩ = .ok ⟨true, some [⟨[], b!"10.0.0.255", 6881⟩]⟩ := by kernel_rfl
example : peersUnmarshal (b!"7:" ++ [10, 0, 0, 255, 26, 225, 7]) ⟨false, none⟩ = .err .badPeers := by kernel_rfl

/-! ### C35: malformed lists -/

/-- **C35** is false: a list with an entry that is not a dictionary panics (tracker.go:192), and so does an entry without an
id, or with the wrong kind of value. -/
theorem C35_no_panic_refuted : ¬ ∀ data p, peersUnmarshal data p ≠ .panic := fun h =>
  h b!"li1ee" ⟨false, none⟩ (by kernel_rfl)

example : peersUnmarshal b!"ld2:ip7:1.2.3.44:porti80eee" ⟨false, none⟩ = .panic := by kernel_rfl
example : peersUnmarshal b!"ld2:ip7:1.2.3.47:peer id1:x4:port2:80ee" ⟨false, none⟩ = .panic := by kernel_rfl
example : peersUnmarshal b!"ld2:ip7:1.2.3.47:peer id1:x4:porti80eee" ⟨false, none⟩ = .ok ⟨false, some [⟨b!"x", b!"1.2.3.4", 80⟩]⟩ := by kernel_rfl

theorem lookup_of_mem {es : List (Bytes × BVal)} (hs : (es.map (·.1)).Nodup) {k : Bytes} {v : BVal} (h : (k, v) ∈ es) :
    (toAnyEs es).lookup k = some (toAny v) := by
  induction es with
  | nil => simp at h
  | cons e es ih =>
    obtain ⟨k', v'⟩ := e
    simp only [List.map_cons, List.nodup_cons] at hs
    simp only [toAnyEs]
    rcases List.mem_cons.mp h with h | h'
    · cases h; simp
    · have : ¬ k = k' := by
        rintro rfl
        exact hs.1 (List.mem_map.mpr ⟨(k, v), h', rfl⟩)
      rw [List.lookup_cons, show (k == k') = false by simpa using this]
      exact ih hs.2 h'

theorem mem_of_lookup {es : List (Bytes × BVal)} {k : Bytes} {w : Val} (h : (toAnyEs es).lookup k = some w) :
    ∃ v, (k, v) ∈ es ∧ w = toAny v := by
  induction es with
  | nil => simp [toAnyEs] at h
  | cons e es ih =>
    obtain ⟨k', v'⟩ := e
    simp only [toAnyEs] at h
    by_cases hk : k = k'
    · subst hk
      simp at h
      exact ⟨v', by simp, h.symm⟩
    · rw [List.lookup_cons, show (k == k') = false by simpa using hk] at h
      obtain ⟨v, h1, h2⟩ := ih h
      exact ⟨v, by simp [h1], h2⟩

theorem strEntry_ok {es : List (Bytes × BVal)} (hs : (es.map (·.1)).Nodup) {k s : Bytes} :
    strEntry (toAnyEs es) k = .ok s ↔ (k, .str s) ∈ es := by
  unfold strEntry
  constructor
  · intro h
    split at h
    · rename_i s' hl
      obtain ⟨v, h1, h2⟩ := mem_of_lookup hl
      cases v <;> simp [toAny] at h2
      cases h
      subst h2
      exact h1
    · cases h
  · intro h
    rw [lookup_of_mem hs h]
    rfl

theorem intEntry_ok {es : List (Bytes × BVal)} (hs : (es.map (·.1)).Nodup) {k : Bytes} {i : Int} :
    intEntry (toAnyEs es) k = .ok i ↔ (k, .int i) ∈ es := by
  unfold intEntry
  constructor
  · intro h
    split at h
    · rename_i s' hl
      obtain ⟨v, h1, h2⟩ := mem_of_lookup hl
      cases v <;> simp [toAny] at h2
      cases h
      subst h2
      exact h1
    · cases h
  · intro h
    rw [lookup_of_mem hs h]
    rfl

theorem strEntry_panic {es : List (Bytes × Val)} {k : Bytes} : strEntry es k = .panic ∨ ∃ s, strEntry es k = .ok s := by
  unfold strEntry
  split
  · exact Or.inr ⟨_, rfl⟩
  · exact Or.inl rfl

theorem intEntry_panic {es : List (Bytes × Val)} {k : Bytes} : intEntry es k = .panic ∨ ∃ s, intEntry es k = .ok s := by
  unfold intEntry
  split
  · exact Or.inr ⟨_, rfl⟩
  · exact Or.inl rfl

/-- The keys of a dictionary differ. -/
def NodupKeys : BVal → Prop
  | .dict es => (es.map (·.1)).Nodup
  | _ => True

theorem parsePeer_spec (v : BVal) (hv : NodupKeys v) (q : Peer) : parsePeer (toAny v) = .ok q ↔ PeerDict v q.id q.ip q.port := by
  cases v with
  | int n => simp [toAny, parsePeer, PeerDict]
  | str n => simp [toAny, parsePeer, PeerDict]
  | list n => simp [toAny, parsePeer, PeerDict]
  | dict es =>
    simp only [toAny, parsePeer, PeerDict, BVal.dict.injEq, exists_eq_left']
    constructor
    · intro h
      rcases strEntry_panic (es := toAnyEs es) (k := b!"peer id") with h1 | ⟨a, h1⟩
      · rw [h1] at h; cases h
      rcases strEntry_panic (es := toAnyEs es) (k := b!"ip") with h2 | ⟨b, h2⟩
      · rw [h1, h2] at h; cases h
      rcases intEntry_panic (es := toAnyEs es) (k := b!"port") with h3 | ⟨c, h3⟩
      · rw [h1, h2, h3] at h; cases h
      rw [h1, h2, h3] at h
      cases h
      exact ⟨(strEntry_ok hv).mp h1, (strEntry_ok hv).mp h2, (intEntry_ok hv).mp h3⟩
    · rintro ⟨h1, h2, h3⟩
      rw [(strEntry_ok hv).mpr h1, (strEntry_ok hv).mpr h2, (intEntry_ok hv).mpr h3]
      rfl

theorem parsePeer_panic (v : BVal) : parsePeer (toAny v) = .panic ∨ ∃ q, parsePeer (toAny v) = .ok q := by
  cases v with
  | int n => exact Or.inl rfl
  | str n => exact Or.inl rfl
  | list n => exact Or.inl rfl
  | dict es =>
    simp only [toAny, parsePeer]
    rcases strEntry_panic (es := toAnyEs es) (k := b!"peer id") with h1 | ⟨a, h1⟩
    · rw [h1]; exact Or.inl rfl
    rcases strEntry_panic (es := toAnyEs es) (k := b!"ip") with h2 | ⟨b, h2⟩
    · rw [h1, h2]; exact Or.inl rfl
    rcases intEntry_panic (es := toAnyEs es) (k := b!"port") with h3 | ⟨c, h3⟩
    · rw [h1, h2, h3]; exact Or.inl rfl
    rw [h1, h2, h3]
    exact Or.inr ⟨_, rfl⟩

/-- The entries of a list are the given peers. -/
inductive PeerDicts : List BVal → List Peer → Prop
  | nil : PeerDicts [] []
  | cons {v vs q qs} : PeerDict v q.id q.ip q.port → PeerDicts vs qs → PeerDicts (v :: vs) (q :: qs)

theorem parsePeers_spec (vs : List BVal) (hv : ∀ v ∈ vs, NodupKeys v) :
    (∀ qs, PeerDicts vs qs → parsePeers (toAnys vs) = .ok qs) ∧ ((¬ ∃ qs, PeerDicts vs qs) → parsePeers (toAnys vs) = .panic) := by
  induction vs with
  | nil =>
    refine ⟨fun qs h => by cases h; rfl, fun h => absurd ⟨[], .nil⟩ h⟩
  | cons v vs ih =>
    obtain ⟨i1, i2⟩ := ih fun x hx => hv x (by simp [hx])
    refine ⟨fun qs h => ?_, fun h => ?_⟩
    · cases h with
      | cons h1 h2 =>
        simp only [toAnys, parsePeers]
        rw [(parsePeer_spec v (hv v (by simp)) _).mpr h1, i1 _ h2]
        rfl
    · simp only [toAnys, parsePeers]
      rcases parsePeer_panic v with hp | ⟨q, hp⟩
      · rw [hp]; rfl
      · rw [hp, i2]
        · rfl
        · rintro ⟨qs, hqs⟩
          exact h ⟨q :: qs, .cons ((parsePeer_spec v (hv v (by simp)) q).mp hp) hqs⟩

theorem keysAbove_lt {α : Type} (es : List (Bytes × α)) (last : Bytes) (h : KeysAbove last es) : ∀ e ∈ es, BLt last e.1 := by
  induction es generalizing last with
  | nil => simp
  | cons e es ih =>
    obtain ⟨k, v⟩ := e
    intro x hx
    rcases List.mem_cons.mp hx with rfl | hx
    · exact h.1
    · exact BLt.trans h.1 (ih k h.2 x hx)

theorem keysAbove_nodup {α : Type} (es : List (Bytes × α)) (last : Bytes) (h : KeysAbove last es) : (es.map (·.1)).Nodup := by
  induction es generalizing last with
  | nil => simp
  | cons e es ih =>
    obtain ⟨k, v⟩ := e
    simp only [List.map_cons, List.nodup_cons]
    refine ⟨fun hm => ?_, ih k h.2⟩
    obtain ⟨e, he, hk⟩ := List.mem_map.mp hm
    have := keysAbove_lt es k h.2 e he
    rw [hk] at this
    exact BLt.irrefl _ this

theorem validEs_keys (hi : Int) (b : Bool) (es : List (Bytes × Bytes × CTree)) (last : Bytes) (h : ValidEs b hi last es) : KeysAbove last (absEs es) := by
  induction es generalizing last with
  | nil => trivial
  | cons e es ih =>
    obtain ⟨l, k, t⟩ := e
    exact ⟨h.2.1, ih k h.2.2.2⟩

theorem valid_nodup {t : CTree} {b : Bool} {hi : Int} (h : t.Valid b hi) : NodupKeys t.abs := by
  cases t with
  | int => trivial
  | str => trivial
  | list => trivial
  | dict es => exact keysAbove_nodup _ _ (validEs_keys hi b es [] h)

theorem valids_nodup {b : Bool} {hi : Int} : ∀ {ts : List CTree}, Valids b hi ts → ∀ v ∈ abss ts, NodupKeys v
  | [], _ => by simp [abss]
  | t :: ts, h => by
    simp only [abss, List.mem_cons, forall_eq_or_imp]
    exact ⟨valid_nodup h.1, valids_nodup h.2⟩

/-- **C35**, what holds: a list is accepted iff every entry is a dictionary with an id, an address and a port of the right
kinds, and then it is read in order; otherwise the program panics. Integers and dictionaries are errors. (For strings see
C34.) -/
theorem C35_lists_partial (ts : List CTree) (rest : Bytes) (hs : (CTree.list ts).Valid true (2 ^ 63)) (p : Peers) :
    (∀ qs, PeerDicts (abss ts) qs → ∃ l, peersUnmarshal ((CTree.list ts).print ++ rest) p = .ok ⟨p.compact, l⟩ ∧ l.getD [] = qs) ∧
    ((¬ ∃ qs, PeerDicts (abss ts) qs) → peersUnmarshal ((CTree.list ts).print ++ rest) p = .panic) := by
  have h1 := (C12_accepts_iff noEnv _ _).mpr ⟨_, rest, rfl, hs, rfl⟩
  obtain ⟨h2, h3⟩ := parsePeers_spec (abss ts) (valids_nodup hs)
  unfold peersUnmarshal
  rw [h1, Res.bind_ok]
  simp only [CTree.abs, toAny]
  refine ⟨fun qs h => ?_, fun h => ?_⟩
  · rw [h2 qs h]
    exact ⟨_, rfl, appended_getD qs⟩
  · rw [h3 h]; rfl

/-- **C35**, what holds: integers and dictionaries are errors. -/
theorem C35_other_partial (t : CTree) (rest : Bytes) (hs : t.Valid true (2 ^ 63)) (hl : ∀ ts, t ≠ .list ts) (hb : ∀ l s, t ≠ .str l s) (p : Peers) :
    peersUnmarshal (t.print ++ rest) p = .err .badPeers := by
  have h1 := (C12_accepts_iff noEnv _ _).mpr ⟨_, rest, rfl, hs, rfl⟩
  unfold peersUnmarshal
  rw [h1, Res.bind_ok]
  cases t with
  | int => rfl
  | str l s => exact absurd rfl (hb l s)
  | list ts => exact absurd rfl (hl ts)
  | dict => rfl

/-- A number, and a list of numbers. -/
theorem snumeral_5 : SNumeral b!"5" 5 := .inl ⟨5, ⟨by decide, by simp [Digit], rfl⟩, rfl⟩
example : (CTree.int b!"5" 5).Valid true (2 ^ 63) ∧ (CTree.list [.int b!"5" 5]).Valid true (2 ^ 63) := by
  simp [CTree.Valid, Valids, snumeral_5, LeadingZero]
example : peersUnmarshal b!"i5e" ⟨false, none⟩ = .err .badPeers ∧ peersUnmarshal b!"li5ee" ⟨false, none⟩ = .panic := ⟨by kernel_rfl, by kernel_rfl⟩

/-! ### C36: lists of dictionaries -/

/-- The bencode value of a peer. -/
def Peer.bval (q : Peer) : BVal := .dict [(b!"ip", .str q.ip), (b!"peer id", .str q.id), (b!"port", .int q.port)]

theorem peer_fields : structFields peerTy = [
    ⟨false, [1], b!"ip", b!"ip", b!"ip", false, .str, ⟨b!"IP", b!"ip", false, true⟩⟩,
    ⟨false, [0], b!"id", b!"peer id", b!"peer id", false, .str, ⟨b!"ID", b!"peer id", false, true⟩⟩,
    ⟨false, [2], b!"port", b!"port", b!"port", false, .int 64, ⟨b!"Port", b!"port", false, true⟩⟩] := by kernel_rfl

theorem peer_denotes (q : Peer) : Denotes noEnv { addr := true } (.ptr peerTy) q.val q.bval 1 := by
  refine .kind (by simp [UsesMethod, peerTy]) (.ptr (.kind (by simp [UsesMethod, peerTy]) (.struct (d := 0) ?_)))
  rw [show Ty.struct 20 _ = peerTy from rfl, peer_fields]
  have st : ∀ {fl b}, Denotes noEnv fl .str (.str b) (.str b) 0 := fun {fl b} => .kind (by simp [UsesMethod]) .str
  have it : ∀ {fl i}, Denotes noEnv fl (.int 64) (.int i) (.int i) 0 := fun {fl b} => .kind (by simp [UsesMethod]) .int
  refine .cons (d := 0) (d' := 0) (.field rfl rfl rfl .done) ?_ st (.cons (d := 0) (d' := 0) (.field rfl rfl rfl .done) ?_ st
    (.cons (d := 0) (d' := 0) (.field rfl rfl rfl .done) ?_ it .nil))
  all_goals (rw [omitted_iff rfl]; simp [isNil])

theorem peers_denotes (qs : List Peer) : ∃ d ≤ 1, DenotesL noEnv { addr := true } (.ptr peerTy) (qs.map Peer.val) (qs.map Peer.bval) d := by
  induction qs with
  | nil => exact ⟨0, by omega, .nil⟩
  | cons q qs ih =>
    obtain ⟨d, hd, h⟩ := ih
    exact ⟨max 1 d, by omega, .cons (peer_denotes q) h⟩

/-- **C36**, what holds: a list that is not nil is marshalled to the list of its dictionaries. -/
theorem C36_marshal_partial (qs : List Peer) :
    peersMarshal ⟨false, some qs⟩ = .ok (benc (.list (qs.map Peer.bval))) := by
  obtain ⟨d, hd, h⟩ := peers_denotes qs
  unfold peersMarshal
  simp only [Bool.false_eq_true, if_false]
  exact (C20_limit (env := noEnv) (d := d + 1) (.kind (by simp [UsesMethod]) (.slice h))).1 (by omega)

/-- The values fit the Go types and the allocation limit. -/
def Peer.WF (q : Peer) : Prop := q.id.length ≤ 2 ^ 48 ∧ q.ip.length ≤ 2 ^ 48 ∧ FitsInt64 q.port

theorem peers_fit (qs : List Peer) (h : ∀ q ∈ qs, q.WF) : FitsL (qs.map Peer.bval) := by
  induction qs with
  | nil => trivial
  | cons q qs ih =>
    obtain ⟨h1, h2, h3, h4⟩ := h q (by simp)
    refine ⟨?_, ih fun x hx => h x (by simp [hx])⟩
    simp [Peer.bval, BVal.Fits, FitsD, BLt, h1, h2]
    exact ⟨h3, h4⟩

theorem peers_dicts (qs : List Peer) : PeerDicts (qs.map Peer.bval) qs := by
  induction qs with
  | nil => exact .nil
  | cons q qs ih => exact .cons ⟨_, rfl, by simp, by simp, by simp⟩ ih

theorem peers_nodup (qs : List Peer) : ∀ v ∈ qs.map Peer.bval, NodupKeys v := by
  intro v hv
  obtain ⟨q, _, rfl⟩ := List.mem_map.mp hv
  show [b!"ip", b!"peer id", b!"port"].Nodup
  decide +kernel

/-- **C36**, what holds: a list that is not nil survives. Missing is the nil list. -/
theorem C36_roundtrip_partial (qs : List Peer) (h : ∀ q ∈ qs, q.WF) (p : Peers) :
    ∃ bs l, peersMarshal ⟨false, some qs⟩ = .ok bs ∧ peersUnmarshal bs p = .ok ⟨p.compact, l⟩ ∧ l.getD [] = qs := by
  refine ⟨_, _, C36_marshal_partial qs, ?_, appended_getD qs⟩
  have h1 := C12_roundtrip noEnv (.list (qs.map Peer.bval)) (peers_fit qs h) []
  rw [List.append_nil] at h1
  unfold peersUnmarshal
  rw [h1, Res.bind_ok]
  simp only [toAny]
  rw [(parsePeers_spec _ (peers_nodup qs)).1 qs (peers_dicts qs)]
  rfl

example : peersMarshal ⟨false, some [⟨b!"x", b!"::1", 80⟩]⟩ = .ok b!"ld2:ip3:::17:peer id1:x4:porti80eee" := by kernel_rfl

/-- **C36** is false: the nil list is marshalled to nothing (bencode drops it), which is not a peer list. -/
theorem C36_roundtrip_refuted :
    ¬ ∀ l, ∃ bs l', peersMarshal ⟨false, l⟩ = .ok bs ∧ peersUnmarshal bs ⟨false, none⟩ = .ok ⟨false, l'⟩ ∧ l'.getD [] = l.getD [] := by
  intro h
  obtain ⟨bs, l', h1, h2, _⟩ := h none
  have e : peersMarshal ⟨false, none⟩ = .ok [] := by kernel_rfl
  rw [e] at h1
  cases h1
  have e2 : peersUnmarshal [] ⟨false, none⟩ = .err .eof := by kernel_rfl
  rw [e2] at h2
  cases h2

end Drip.Tracker
