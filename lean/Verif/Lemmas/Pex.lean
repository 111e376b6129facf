import Verif.Model.Pex
import Verif.Spec.Swarm
import Verif.Lemmas.Net6
import Verif.Props.ResponseWrite
import Verif.Spec.Announces
/-
Lemmas about the tracker's tables.
-/

namespace Drip.Pex
open Spec Tracker Bencode

theorem mem_assign {α : Type} {m : List (Bytes × α)} {k : Bytes} {v : α} {x : Bytes × α} :
    x ∈ assign m k v ↔ x = (k, v) ∨ (x ∈ m ∧ x.1 ≠ k) := by
  unfold assign
  split
  · rename_i h
    simp only [List.any_eq_true, beq_iff_eq] at h
    obtain ⟨e, he, hk⟩ := h
    simp only [List.mem_map]
    constructor
    · rintro ⟨y, hy, rfl⟩
      split
      · exact .inl rfl
      · rename_i h; exact .inr ⟨hy, h⟩
    · rintro (rfl | ⟨h1, h2⟩)
      · exact ⟨e, he, by rw [if_pos hk]⟩
      · exact ⟨x, h1, by rw [if_neg h2]⟩
  · rename_i h
    simp only [List.any_eq_true, beq_iff_eq, not_exists, not_and] at h
    simp only [List.mem_append, List.mem_singleton]
    constructor
    · rintro (h1 | rfl)
      · exact .inr ⟨h1, fun hk => h x h1 hk⟩
      · exact .inl rfl
    · rintro (rfl | ⟨h1, _⟩)
      · exact .inr rfl
      · exact .inl h1

theorem assign_keys {α : Type} (m : List (Bytes × α)) (k : Bytes) (v : α) :
    (assign m k v).map (·.1) = if k ∈ m.map (·.1) then m.map (·.1) else m.map (·.1) ++ [k] := by
  unfold assign
  have : (m.any (·.1 == k)) = true ↔ k ∈ m.map (·.1) := by
    simp only [List.any_eq_true, beq_iff_eq, List.mem_map]
  by_cases h : k ∈ m.map (·.1)
  · rw [if_pos (this.mpr h), if_pos h, List.map_map]
    refine List.map_congr_left fun e _ => ?_
    simp only [Function.comp_apply]
    split
    · rename_i h; exact h.symm
    · rfl
  · rw [if_neg (fun x => h (this.mp x)), if_neg h]
    simp

theorem assign_nodup {α : Type} {m : List (Bytes × α)} {k : Bytes} {v : α} (h : (m.map (·.1)).Nodup) : ((assign m k v).map (·.1)).Nodup := by
  rw [assign_keys]
  split
  · exact h
  · rename_i hk
    rw [List.nodup_append]
    refine ⟨h, by simp, ?_⟩
    intro a ha b hb
    rw [List.mem_singleton.mp hb]
    rintro rfl
    exact hk ha

theorem mem_of_lookup {α : Type} {m : List (Bytes × α)} {k : Bytes} {v : α} (h : m.lookup k = some v) : (k, v) ∈ m := by
  induction m with
  | nil => cases h
  | cons e m ih =>
    obtain ⟨k', v'⟩ := e
    rw [List.lookup_cons] at h
    split at h
    · rename_i hk
      cases h
      rw [beq_iff_eq.mp hk]; simp
    · exact List.mem_cons_of_mem _ (ih h)

theorem lookup_of_mem {α : Type} {m : List (Bytes × α)} {k : Bytes} {v : α} (hn : (m.map (·.1)).Nodup) (h : (k, v) ∈ m) : m.lookup k = some v := by
  induction m with
  | nil => cases h
  | cons e m ih =>
    obtain ⟨k', v'⟩ := e
    simp only [List.map_cons, List.nodup_cons] at hn
    rw [List.lookup_cons]
    rcases List.mem_cons.mp h with h | h1
    · cases h; simp
    · have : k ≠ k' := by
        rintro rfl
        exact hn.1 (List.mem_map.mpr ⟨(k, v), h1, rfl⟩)
      rw [show (k == k') = false by simpa using this]
      exact ih hn.2 h1

theorem lookup_none {α : Type} {m : List (Bytes × α)} {k : Bytes} : m.lookup k = none ↔ k ∉ m.map (·.1) := by
  induction m with
  | nil => simp
  | cons e m ih =>
    obtain ⟨k', v'⟩ := e
    rw [List.lookup_cons]
    by_cases h : k = k'
    · subst h; simp
    · rw [show (k == k') = false by simpa using h]
      simp only [List.map_cons, List.mem_cons, not_or, ih]
      exact ⟨fun x => ⟨h, x⟩, fun x => x.2⟩

/-- Decimal texts have no colon. -/
theorem intDec_colon (i : Int) : (58 : UInt8) ∉ intDec i := by
  intro h
  have hd : ∀ n, (58 : UInt8) ∉ natDec n := fun n hn => absurd (natDec_digits n _ hn) (by simp [Digit])
  unfold intDec at h
  split at h
  · exact hd _ h
  · simp only [List.mem_cons] at h
    rcases h with h | h
    · cases h
    · exact hd _ h

theorem intDec_inj {i j : Int} (h : intDec i = intDec j) : i = j := by
  rw [intDec_eq_decInt, intDec_eq_decInt] at h
  have h1 := decInt_snumeral i
  rw [h] at h1
  exact snumeral_unique h1 (decInt_snumeral j)

theorem addrText_inj {ip ip' : Bytes} {p p' : Int} (h : addrText ip p = addrText ip' p') : ip = ip' ∧ p = p' := by
  unfold addrText at h
  have h1 := congrArg List.reverse h
  simp only [List.reverse_append, List.reverse_cons, List.append_assoc, List.singleton_append] at h1
  obtain ⟨h2, h3⟩ := split_unique (by simpa using intDec_colon p) (by simpa using intDec_colon p') h1
  exact ⟨List.reverse_inj.mp h3, intDec_inj (List.reverse_inj.mp h2)⟩

/-! ### The requests -/

/-- What `Decode` guarantees. -/
def Decoded (r : Request) : Prop := r.infoHash.length = 20 ∧ r.peerID.length = 20 ∧ FitsInt64 r.port

theorem copy20_length {d v : Bytes} (h : d.length = 20) : (copy20 d v).length = 20 := by
  unfold copy20
  simp only [List.length_append, List.length_take, List.length_drop, h]
  omega

theorem param_inv {P : Request → Prop} {ps : List (Bytes × Bytes)} {k : Bytes} {f : Bytes → Request → Res Request} {r r' : Request} (h : P r)
    (hf : ∀ v r', f v r = .ok r' → P r') (e : param ps k f r = .ok r') : P r' := by
  unfold param at e
  split at e
  · cases e; exact h
  · exact hf _ _ e

theorem intParam_inv {f : Int → Request → Request} {v : Bytes} {r r' : Request} (e : intParam f v r = .ok r') : ∃ i, FitsInt64 i ∧ r' = f i r := by
  unfold intParam at e
  cases hp : parseInt v with
  | none => rw [hp] at e; cases e
  | some i =>
    rw [hp] at e
    cases e
    exact ⟨i, ((parseInt_some v i).mp hp).2, rfl⟩

theorem decode_decoded {r r' : Request} {q : Bytes} (h : Decoded r) (e : r.decode q = .ok r') : Decoded r' := by
  unfold Request.decode at e
  simp only at e
  split at e
  · cases e
  simp only [Res.bind_eq_ok] at e
  obtain ⟨r1, e1, r2, e2, r3, e3, r4, e4, r5, e5, r6, e6, r7, e7, r8, e8, e9⟩ := e
  have h1 : Decoded r1 := param_inv h (by intro v r' h'; cases h'; exact ⟨copy20_length h.1, h.2⟩) e1
  have h2 : Decoded r2 := param_inv h1 (by intro v r' h'; cases h'; exact ⟨h1.1, copy20_length h1.2.1, h1.2.2⟩) e2
  have h3 : Decoded r3 := param_inv h2 (by intro v r' h'; cases h'; exact h2) e3
  have h4 : Decoded r4 := param_inv h3 (by intro v r' h'; obtain ⟨i, hi, rfl⟩ := intParam_inv h'; exact ⟨h3.1, h3.2.1, hi⟩) e4
  have h5 : Decoded r5 := param_inv h4 (by intro v r' h'; obtain ⟨i, hi, rfl⟩ := intParam_inv h'; exact h4) e5
  have h6 : Decoded r6 := param_inv h5 (by intro v r' h'; obtain ⟨i, hi, rfl⟩ := intParam_inv h'; exact h5) e6
  have h7 : Decoded r7 := param_inv h6 (by intro v r' h'; obtain ⟨i, hi, rfl⟩ := intParam_inv h'; exact h6) e7
  have h8 : Decoded r8 := param_inv h7 (by intro v r' h'; cases h'; exact h7) e8
  exact param_inv h8 (by intro v r' h'; cases h'; exact h8) e9

theorem zero_decoded : Decoded Request.zero := ⟨rfl, rfl, by simp [FitsInt64, Request.zero]⟩

/-- The text of the address of an announce: the `ip` parameter, else the address of the connection. -/
def ipText (remoteAddr : Bytes) (r : Request) : Option Bytes := if r.ip = [] then splitHost remoteAddr else some r.ip

/-- A valid announce for one of the torrents `known`: it can be decoded, its address can be parsed, its port is not zero. -/
def understood (known : List Bytes) (remoteAddr rawQuery : Bytes) : Option (Announce × Bool) :=
  match Request.zero.decode rawQuery with
  | .ok r =>
    if r.infoHash ∈ known then
      match ipText remoteAddr r with
      | none => none
      | some text =>
        match Net.parseIP text with
        | none => none
        | some ip => if r.port = 0 then none else some (⟨r.infoHash, r.peerID, text, ip, r.port, r.event⟩, r.compact)
    else none
  | _ => none

/-- The address under which a place is filed. -/
def key (e : Place) : Bytes := addrText (Net.ipString e.1) e.2

theorem key_inj {e e' : Place} (h1 : e.1.length = 16) (h2 : e'.1.length = 16) (h : key e = key e') : e = e' := by
  obtain ⟨h3, h4⟩ := addrText_inj h
  have := Net.parseIP_string h1
  rw [h3, Net.parseIP_string h2] at this
  exact Prod.ext (Option.some.inj this).symm h4

/-- The table after an announce. -/
def newEntry (now : Int) (a : Announce) (table : Table) : Peer :=
  { ((table.lookup (key a.place)).getD ⟨⟨a.id, a.text, a.port⟩, 0, []⟩) with updatedAt := now, lastEvent := a.event }

/-- The reply to a valid announce. -/
def answer (compact : Bool) (ps : List Tracker.Peer) : Reply :=
  match Response.marshal { interval := 30, peers := some ⟨compact, appended ps⟩ } with
  | .ok data => ⟨200, data⟩
  | _ => ⟨500, []⟩

theorem serve_understood {iter : Table → Table} {errText : Bytes → Bytes} {now : Int} {remoteAddr rawQuery : Bytes} {t : HTTP} {a : Announce} {c : Bool}
    (h : understood (t.map (·.1)) remoteAddr rawQuery = some (a, c)) :
    ∃ table, t.lookup a.hash = some table ∧
      serve iter errText now remoteAddr rawQuery t =
        (answer c (listing now (key a.place) (iter (assign table (key a.place) (newEntry now a table)))),
          assign t a.hash (assign table (key a.place) (newEntry now a table))) := by
  unfold understood at h
  split at h
  · rename_i r hr
    split at h
    · rename_i hk
      cases hl : t.lookup r.infoHash with
      | none => exact absurd hk (lookup_none.mp hl)
      | some table =>
        split at h
        · cases h
        · rename_i text ht
          split at h
          · cases h
          · rename_i ip hip
            split at h
            · cases h
            · rename_i hp
              cases h
              refine ⟨table, hl, ?_⟩
              unfold serve
              rw [hr]
              unfold ipText at ht
              simp only [hl, ht, hip, if_neg hp]
              have hu : update now r text (addrText (Net.ipString ip) r.port) table =
                  assign table (key (ip, r.port)) (newEntry now ⟨r.infoHash, r.peerID, text, ip, r.port, r.event⟩ table) := by
                unfold update newEntry key Announce.place
                simp only
                cases List.lookup (addrText (Net.ipString ip) r.port) table <;> rfl
              rw [hu]
              unfold answer
              simp only [show addrText (Net.ipString ip) r.port = key (Announce.place ⟨r.infoHash, r.peerID, text, ip, r.port, r.event⟩) from rfl,
                show key (ip, r.port) = key (Announce.place ⟨r.infoHash, r.peerID, text, ip, r.port, r.event⟩) from rfl]
              generalize Response.marshal _ = m
              cases m <;> rfl
    · cases h
  · cases h

attribute [local irreducible] fail in
theorem serve_not_understood {iter : Table → Table} {errText : Bytes → Bytes} {now : Int} {remoteAddr rawQuery : Bytes} {t : HTTP}
    (h : understood (t.map (·.1)) remoteAddr rawQuery = none) :
    (serve iter errText now remoteAddr rawQuery t).2 = t ∧
      ((∃ reason, (serve iter errText now remoteAddr rawQuery t).1 = fail reason) ∨ (serve iter errText now remoteAddr rawQuery t).1 = ⟨400, []⟩) := by
  unfold serve
  split
  · exact ⟨rfl, .inl ⟨_, rfl⟩⟩
  · exact ⟨rfl, .inl ⟨_, rfl⟩⟩
  · rename_i r hr
    split
    · exact ⟨rfl, .inl ⟨_, rfl⟩⟩
    · rename_i table hl
      split
      · exact ⟨rfl, .inr rfl⟩
      · rename_i text ht
        split
        · exact ⟨rfl, .inl ⟨_, rfl⟩⟩
        · rename_i ip hip
          split
          · exact ⟨rfl, .inl ⟨_, rfl⟩⟩
          · rename_i hp
            unfold understood at h
            rw [hr] at h
            have : r.infoHash ∈ t.map (·.1) := by
              cases hm : decide (r.infoHash ∈ t.map (·.1)) with
              | true => exact of_decide_eq_true hm
              | false =>
                rw [lookup_none.mpr (of_decide_eq_false hm)] at hl
                cases hl
            simp only [if_pos this] at h
            unfold ipText at h
            rw [ht] at h
            simp only [hip, if_neg hp] at h
            cases h

theorem announces_iff (known : List Bytes) (remote query : Bytes) (a : Announce) (c : Bool) :
    understood known remote query = some (a, c) ↔ Announces known remote query a c := by
  unfold understood Announces
  constructor
  · intro h
    split at h
    · rename_i r hr
      refine ⟨r, (decode_iff _ _).mp hr, ?_⟩
      split at h
      · rename_i hk
        split at h
        · cases h
        · rename_i text ht
          split at h
          · cases h
          · rename_i ip hip
            split at h
            · cases h
            · rename_i hp
              cases h
              refine ⟨rfl, hk, rfl, ?_, (Net.parseIP_iff _ _).mp hip, rfl, hp, rfl, rfl⟩
              unfold ipText at ht
              split
              · rename_i h0
                rw [if_pos h0] at ht
                exact (splitHost_iff _ _).mp ht
              · rename_i h0
                rw [if_neg h0] at ht
                exact (Option.some.inj ht).symm
      · cases h
    · cases h
  · rintro ⟨r, hr, h1, h2, h3, h4, h5, h6, h7, h8, rfl⟩
    obtain ⟨ah, ai, atx, aip, ap, ae⟩ := a
    simp only at *
    subst h1 h3 h6 h8
    rw [(decode_iff _ _).mpr hr]
    simp only [if_pos h2]
    have : ipText remote r = some atx := by
      unfold ipText
      split
      · rename_i h0
        rw [if_pos h0] at h4
        exact (splitHost_iff _ _).mpr h4
      · rename_i h0
        rw [if_neg h0] at h4
        rw [h4]
    rw [this]
    simp only
    rw [(Net.parseIP_iff _ _).mpr h5]
    simp only
    rw [if_neg h7]

theorem not_announces {known : List Bytes} {remote query : Bytes} : understood known remote query = none ↔ ∀ a c, ¬ Announces known remote query a c := by
  simp only [← announces_iff]
  constructor
  · intro h a c h'; rw [h] at h'; cases h'
  · intro h
    cases hu : understood known remote query with
    | none => rfl
    | some ac => exact absurd hu (h ac.1 ac.2)

/-! ### Histories -/

variable (iter : Table → Table) (errText : Bytes → Bytes)

/-- The tracker after a history, newest first, with the times. -/
def run (t : HTTP) : List (Int × Event) → HTTP
  | [] => t
  | (now, .request remoteAddr rawQuery) :: h => (serve iter errText now remoteAddr rawQuery (run t h)).2
  | (now, .cleanup) :: h => cleanup now (run t h)

/-- The announces of a history. -/
def past (known : List Bytes) : List (Int × Event) → Past
  | [] => []
  | (now, .request remoteAddr rawQuery) :: h => (now, (understood known remoteAddr rawQuery).map (·.1)) :: past known h
  | (now, .cleanup) :: h => (now, none) :: past known h

/-- Every history has its announces. -/
theorem pastOf_iff {known : List Bytes} {h : List (Int × Event)} {p : Past} : PastOf known h p ↔ p = past known h := by
  constructor
  · intro hp
    induction hp with
    | nil => rfl
    | cleanup _ ih => rw [past, ih]
    | announce ha _ ih => rw [past, ih, (announces_iff _ _ _ _ _).mpr ha]; rfl
    | other ha _ ih => rw [past, ih, not_announces.mpr ha]; rfl
  · rintro rfl
    induction h with
    | nil => exact .nil
    | cons e h ih =>
      obtain ⟨t, e⟩ := e
      cases e with
      | cleanup => exact .cleanup ih
      | request remote query =>
        rw [past]
        cases hu : understood known remote query with
        | none => exact .other (not_announces.mp hu) ih
        | some ac => exact .announce ((announces_iff _ _ _ _ _).mp hu) ih

/-- What every valid announce satisfies. -/
def Good (a : Announce) : Prop := IsAddress a.text a.ip ∧ a.id.length = 20 ∧ FitsInt64 a.port ∧ a.port ≠ 0

theorem understood_good {known : List Bytes} {remoteAddr rawQuery : Bytes} {a : Announce} {c : Bool} (h : understood known remoteAddr rawQuery = some (a, c)) :
    Good a ∧ a.hash ∈ known := by
  unfold understood at h
  split at h
  · rename_i r hr
    have hd := decode_decoded zero_decoded hr
    split at h
    · rename_i hk
      split at h
      · cases h
      · split at h
        · cases h
        · rename_i hip
          split at h
          · cases h
          · rename_i hp
            cases h
            exact ⟨⟨(Net.parseIP_iff _ _).mp hip, hd.2.1, hd.2.2, hp⟩, hk⟩
    · cases h
  · cases h

theorem understood_congr {k k' : List Bytes} (h : ∀ x, x ∈ k ↔ x ∈ k') (remoteAddr rawQuery : Bytes) :
    understood k remoteAddr rawQuery = understood k' remoteAddr rawQuery := by
  unfold understood
  simp only [h]

/-- All announces are good. -/
def Goods (p : Past) : Prop := ∀ t a, (t, some a) ∈ p → Good a

theorem lastSeen_mem {hash : Bytes} {e : Place} {p : Past} {t : Int} {ev : Bytes} (h : lastSeen hash e p = some (t, ev)) :
    ∃ a, (t, some a) ∈ p ∧ a.hash = hash ∧ a.place = e ∧ a.event = ev := by
  induction p with
  | nil => cases h
  | cons x p ih =>
    obtain ⟨u, a⟩ := x
    cases a with
    | none =>
      obtain ⟨a, h1, h2⟩ := ih h
      exact ⟨a, by simp [h1], h2⟩
    | some a =>
      unfold lastSeen at h
      split at h
      · rename_i h1
        cases h
        exact ⟨a, by simp, h1.1, h1.2, rfl⟩
      · obtain ⟨a, h1, h2⟩ := ih h
        exact ⟨a, by simp [h1], h2⟩

theorem place_length {a : Announce} (h : Good a) : a.place.1.length = 16 := Net.parseIP_length ((Net.parseIP_iff _ _).mpr h.1)

/-- The tables agree with the history. -/
structure Agrees (now : Int) (p : Past) (hash : Bytes) (table : Table) : Prop where
  nodup : (table.map (·.1)).Nodup
  entry : ∀ x ∈ table, ∃ a t, (t, some a) ∈ p ∧ a.hash = hash ∧ x.1 = key a.place ∧ x.2.tp = ⟨a.id, a.text, a.port⟩ ∧
    lastSeen hash a.place p = some (x.2.updatedAt, x.2.lastEvent)
  all : ∀ e t ev, lastSeen hash e p = some (t, ev) → (key e ∈ table.map (·.1)) ∨ ev = b!"stopped" ∨ now - t > minute
  size : table.length ≤ p.length

theorem mem_keys_assign {α : Type} {m : List (Bytes × α)} {k x : Bytes} {v : α} : x ∈ (assign m k v).map (·.1) ↔ x = k ∨ x ∈ m.map (·.1) := by
  rw [assign_keys]
  split
  · rename_i h
    constructor
    · exact .inr
    · rintro (rfl | h')
      · exact h
      · exact h'
  · simp only [List.mem_append, List.mem_singleton]
    exact or_comm

theorem Agrees.nil (now : Int) (hash : Bytes) : Agrees now [] hash [] :=
  ⟨by simp, by simp, (fun e t ev h => by cases h), by simp⟩

/-- Nothing announced for this torrent. -/
theorem Agrees.other {now now' : Int} {p : Past} {hash : Bytes} {table : Table} (h : Agrees now p hash table) (hn : now ≤ now') (x : Int × Option Announce)
    (hx : ∀ a, x.2 = some a → a.hash ≠ hash) : Agrees now' (x :: p) hash table := by
  have hl : ∀ e, lastSeen hash e (x :: p) = lastSeen hash e p := by
    intro e
    obtain ⟨t, a⟩ := x
    cases a with
    | none => rfl
    | some a =>
      show (if _ then _ else _) = _
      rw [if_neg fun h => hx a rfl h.1]
  refine ⟨h.nodup, fun y hy => ?_, fun e t ev he => ?_, by have := h.size; simp; omega⟩
  · obtain ⟨a, t, h1, h2, h3, h4, h5⟩ := h.entry y hy
    exact ⟨a, t, by simp [h1], h2, h3, h4, by rw [hl, h5]⟩
  · rw [hl] at he
    rcases h.all e t ev he with k | k | k
    · exact .inl k
    · exact .inr (.inl k)
    · exact .inr (.inr (by omega))

theorem assign_length {α : Type} (m : List (Bytes × α)) (k : Bytes) (v : α) : (assign m k v).length ≤ m.length + 1 := by
  unfold assign
  split <;> simp

theorem Agrees.announce {now now' : Int} {p : Past} {table : Table} {b : Announce} (hg : Goods p) (hb : Good b) (h : Agrees now p b.hash table) (hn : now ≤ now') :
    Agrees now' ((now', some b) :: p) b.hash (assign table (key b.place) (newEntry now' b table)) := by
  have hself : lastSeen b.hash b.place ((now', some b) :: p) = some (now', b.event) := by
    unfold lastSeen; rw [if_pos ⟨rfl, rfl⟩]
  have hl : ∀ e, e ≠ b.place → lastSeen b.hash e ((now', some b) :: p) = lastSeen b.hash e p := by
    intro e he
    show (if _ then _ else _) = _
    rw [if_neg fun h => he h.2.symm]
  refine ⟨assign_nodup h.nodup, fun y hy => ?_, fun e t ev he => ?_, ?_⟩
  · rcases mem_assign.mp hy with rfl | ⟨hy, hk⟩
    · cases hlk : table.lookup (key b.place) with
      | none => exact ⟨b, now', by simp, rfl, rfl, by simp [newEntry, hlk], by simpa [newEntry, hlk] using hself⟩
      | some q =>
        obtain ⟨a, t, h1, h2, h3, h4, h5⟩ := h.entry _ (mem_of_lookup hlk)
        have : b.place = a.place := key_inj (place_length hb) (place_length (hg _ _ h1)) h3
        refine ⟨a, t, by simp [h1], h2, ?_, by simpa [newEntry, hlk] using h4, ?_⟩
        · rw [← this]
        · rw [← this, hself]
          simp [newEntry]
    · obtain ⟨a, t, h1, h2, h3, h4, h5⟩ := h.entry y hy
      refine ⟨a, t, by simp [h1], h2, h3, h4, ?_⟩
      rw [hl _ ?_, h5]
      intro e
      exact hk (h3.trans (by rw [e]))
  · rw [mem_keys_assign]
    by_cases hp : e = b.place
    · exact .inl (by simp [hp])
    · rw [hl _ hp] at he
      rcases h.all e t ev he with k | k | k
      · exact .inl (.inr k)
      · exact .inr (.inl k)
      · exact .inr (.inr (by omega))
  · have := assign_length table (key b.place) (newEntry now' b table)
    have := h.size
    simp
    omega

theorem Agrees.cleanup {now now' : Int} {p : Past} {hash : Bytes} {table : Table} (hg : Goods p) (h : Agrees now p hash table) (hn : now ≤ now') :
    Agrees now' ((now', none) :: p) hash (table.filter fun x => !gone now' x.2) := by
  have h := h.other hn (now', none) (by simp)
  refine ⟨h.nodup.sublist (List.Sublist.map _ List.filter_sublist), fun y hy => h.entry y (List.mem_filter.mp hy).1, fun e t ev he => ?_, ?_⟩
  · rcases h.all e t ev he with k | k
    · obtain ⟨⟨k, q⟩, hq, rfl⟩ := List.mem_map.mp k
      obtain ⟨a, u, h1, h2, h3, h4, h5⟩ := h.entry _ hq
      obtain ⟨b, k1, k2, rfl, k4⟩ := lastSeen_mem he
      have hga : Good a := hg u a (by simpa using h1)
      have hgb : Good b := hg t b (by simpa using k1)
      have e' : b.place = a.place := key_inj (place_length hgb) (place_length hga) h3
      rw [e', h5] at he
      cases he
      cases hgn : gone now' q with
      | false =>
        refine .inl (List.mem_map.mpr ⟨_, List.mem_filter.mpr ⟨hq, ?_⟩, rfl⟩)
        simp [hgn]
      | true =>
        simp only [gone, Bool.or_eq_true, beq_iff_eq, decide_eq_true_eq] at hgn
        exact .inr hgn
    · exact .inr k
  · have := List.length_filter_le (fun x => !gone now' x.2) table
    have := h.size
    omega

/-- The state of the tracker after a history. -/
structure SInv (known : List Bytes) (now : Int) (p : Past) (t : HTTP) : Prop where
  keys : t.map (·.1) = known
  nodup : known.Nodup
  goods : Goods p
  tables : ∀ x ∈ t, Agrees now p x.1 x.2

theorem SInv.mono {known : List Bytes} {now now' : Int} {p : Past} {t : HTTP} (h : SInv known now p t) (hn : now ≤ now') : SInv known now' p t :=
  ⟨h.keys, h.nodup, h.goods, fun x hx => ⟨(h.tables x hx).nodup, (h.tables x hx).entry, fun e t ev he => by
    rcases (h.tables x hx).all e t ev he with k | k | k
    · exact .inl k
    · exact .inr (.inl k)
    · exact .inr (.inr (by omega)), (h.tables x hx).size⟩⟩

theorem assign_keys_eq {α : Type} {m : List (Bytes × α)} {k : Bytes} {v : α} (h : k ∈ m.map (·.1)) : (assign m k v).map (·.1) = m.map (·.1) := by
  unfold assign
  obtain ⟨e, he, rfl⟩ := List.mem_map.mp h
  rw [if_pos (List.any_eq_true.mpr ⟨e, he, by simp⟩), List.map_map]
  apply List.map_congr_left
  intro x hx
  simp only [Function.comp]
  split
  · rename_i h; exact h.symm
  · rfl

variable {iter errText}

theorem SInv.request {known : List Bytes} {now now' : Int} {p : Past} {t : HTTP} (h : SInv known now p t) (hn : now ≤ now') (remoteAddr rawQuery : Bytes) :
    SInv known now' ((now', (understood known remoteAddr rawQuery).map (·.1)) :: p) (serve iter errText now' remoteAddr rawQuery t).2 := by
  cases hu : understood known remoteAddr rawQuery with
  | none =>
    rw [← h.keys] at hu
    rw [(serve_not_understood hu).1]
    refine ⟨h.keys, h.nodup, fun t a ha => h.goods t a (by simpa using ha), fun x hx => (h.tables x hx).other hn _ (by simp)⟩
  | some ac =>
    obtain ⟨a, c⟩ := ac
    obtain ⟨hga, hk⟩ := understood_good hu
    rw [← h.keys] at hu hk
    obtain ⟨table, h1, h2⟩ := serve_understood (iter := iter) (errText := errText) (now := now') hu
    rw [h2]
    refine ⟨by rw [assign_keys_eq hk, h.keys], h.nodup, ?_, ?_⟩
    · intro t b hb
      simp only [Option.map_some, List.mem_cons, Prod.mk.injEq, Option.some.injEq] at hb
      rcases hb with ⟨-, rfl⟩ | hb
      · exact hga
      · exact h.goods t b hb
    · intro x hx
      rcases mem_assign.mp hx with rfl | ⟨hx, hne⟩
      · exact (h.tables _ (mem_of_lookup h1)).announce h.goods hga hn
      · exact (h.tables x hx).other hn _ (by rintro b ⟨⟩; exact fun e => hne e.symm)

theorem SInv.cleanup {known : List Bytes} {now now' : Int} {p : Past} {t : HTTP} (h : SInv known now p t) (hn : now ≤ now') :
    SInv known now' ((now', none) :: p) (cleanup now' t) := by
  refine ⟨by rw [← h.keys]; simp [Pex.cleanup, List.map_map, Function.comp_def], h.nodup, fun t a ha => h.goods t a (by simpa using ha), ?_⟩
  intro x hx
  simp only [Pex.cleanup, List.mem_map] at hx
  obtain ⟨y, hy, rfl⟩ := hx
  exact (h.tables y hy).cleanup h.goods hn

/-- A tracker nobody has announced to. -/
def Fresh (t : HTTP) : Prop := (t.map (·.1)).Nodup ∧ ∀ x ∈ t, x.2 = []

theorem newHTTP_fresh (infos : List Metainfo.Info) : Fresh (newHTTP infos) ∧ ∀ x, x ∈ (newHTTP infos).map (·.1) ↔ x ∈ infos.map (·.sha1) := by
  have : ∀ (l : List Metainfo.Info) (t : HTTP), Fresh t → Fresh (l.foldl (fun t i => assign t i.sha1 []) t) ∧
      ∀ x, x ∈ (l.foldl (fun t i => assign t i.sha1 []) t).map (·.1) ↔ x ∈ t.map (·.1) ∨ x ∈ l.map (·.sha1) := by
    intro l
    induction l with
    | nil => intro t h; exact ⟨h, fun x => by simp⟩
    | cons i l ih =>
      intro t h
      obtain ⟨h1, h2⟩ := ih (assign t i.sha1 []) ⟨assign_nodup h.1, by
        intro x hx
        rcases mem_assign.mp hx with rfl | ⟨hx, _⟩
        · rfl
        · exact h.2 x hx⟩
      refine ⟨h1, fun x => ?_⟩
      rw [List.foldl_cons, h2, mem_keys_assign]
      simp only [List.map_cons, List.mem_cons]
      constructor
      · rintro ((h | h) | h)
        · exact .inr (.inl h)
        · exact .inl h
        · exact .inr (.inr h)
      · rintro (h | h | h)
        · exact .inl (.inr h)
        · exact .inl (.inl h)
        · exact .inr h
  obtain ⟨h1, h2⟩ := this infos [] ⟨by simp, by simp⟩
  exact ⟨h1, fun x => by simpa [newHTTP] using h2 x⟩

/-- The invariant holds after every history. -/
theorem run_inv {t : HTTP} (hf : Fresh t) (h : List (Int × Event)) (now : Int) (hc : Clock now (h.map (·.1))) :
    SInv (t.map (·.1)) now (past (t.map (·.1)) h) (run iter errText t h) := by
  induction h generalizing now with
  | nil => exact ⟨rfl, hf.1, (by intro t a h; cases h), fun x hx => by rw [hf.2 x hx]; exact .nil _ _⟩
  | cons e h ih =>
    obtain ⟨u, e⟩ := e
    obtain ⟨h1, h2⟩ := hc
    have h3 := ih u h2
    cases e with
    | request remoteAddr rawQuery => exact (h3.request (Int.le_refl u) remoteAddr rawQuery).mono h1
    | cleanup => exact (h3.cleanup (Int.le_refl u)).mono h1

/-! ### Listings -/

theorem mem_listing {now : Int} {addr : Bytes} {table : Table} {q : Tracker.Peer} :
    q ∈ listing now addr table ↔ ∃ x ∈ table, x.2.tp = q ∧ gone now x.2 = false ∧ addrText q.ip q.port ≠ addr := by
  induction table with
  | nil => simp [listing]
  | cons x table ih =>
    obtain ⟨k, p⟩ := x
    unfold listing
    simp only [List.mem_cons, exists_eq_or_imp]
    cases hg : gone now p with
    | true => simp [ih]
    | false =>
      simp only [Bool.false_eq_true, if_false]
      split
      · rename_i h1
        rw [List.mem_cons, ih]
        constructor
        · rintro (rfl | h)
          · exact .inl ⟨rfl, trivial, h1⟩
          · exact .inr h
        · rintro (⟨rfl, _⟩ | h)
          · exact .inl rfl
          · exact .inr h
      · rename_i h1
        rw [ih]
        constructor
        · exact .inr
        · rintro (⟨rfl, _, h⟩ | h)
          · exact absurd h h1
          · exact h

theorem listing_sublist {now : Int} {addr : Bytes} {table : Table} : (listing now addr table).Sublist (table.map (·.2.tp)) := by
  induction table with
  | nil => exact .slnil
  | cons x table ih =>
    obtain ⟨k, p⟩ := x
    unfold listing
    split
    · exact .cons _ ih
    · split
      · exact .cons_cons _ ih
      · exact .cons _ ih

theorem gone_live {now : Int} {p : Past} {hash : Bytes} {e : Place} {q : Peer} (h : lastSeen hash e p = some (q.updatedAt, q.lastEvent)) :
    gone now q = false ↔ Live now p hash e := by
  unfold gone Live
  simp only [h, Option.some.injEq, Prod.mk.injEq, Bool.or_eq_false_iff, beq_eq_false_iff_ne, decide_eq_false_iff_not, minute, gt_iff_lt, Int.not_lt]
  constructor
  · rintro ⟨h1, h2⟩
    exact ⟨_, _, ⟨rfl, rfl⟩, h1, by omega⟩
  · rintro ⟨t, ev, ⟨rfl, rfl⟩, h1, h2⟩
    exact ⟨h1, by omega⟩

theorem address_unique {s ip ip' : Bytes} (h : IsAddress s ip) (h' : IsAddress s ip') : ip = ip' := by
  rw [← Net.parseIP_iff] at h h'
  rw [h] at h'
  exact Option.some.inj h'

theorem at_unique {q : Tracker.Peer} {e e' : Place} (h : ListedAt q e) (h' : ListedAt q e') : e = e' :=
  Prod.ext (address_unique h.1 h'.1) (h.2.symm.trans h'.2)

/-- A list of peers, each of which has announced itself, is alive and not where the request comes from; all who are alive
are there, except possibly who asks. -/
structure Lists (now : Int) (p : Past) (a : Announce) (ps : List Tracker.Peer) : Prop where
  sound : ∀ q ∈ ps, ∃ b t, (t, some b) ∈ p ∧ b.hash = a.hash ∧ q = ⟨b.id, b.text, b.port⟩ ∧ Live now p a.hash b.place ∧
    (b.place = a.place → ¬ Canonical b.text)
  complete : ∀ e, Live now p a.hash e → e ≠ a.place → ∃ q ∈ ps, ListedAt q e
  once : ps.Pairwise fun q q' => ∀ e, ListedAt q e → ¬ ListedAt q' e
  short : ps.length ≤ p.length

theorem listing_lists {now : Int} {p : Past} {a : Announce} {table : Table} (hi : ∀ l, (iter l).Perm l) (hg : Goods p) (ha : Good a)
    (h : Agrees now p a.hash table) : Lists now p a (listing now (key a.place) (iter table)) := by
  have hat : ∀ {x : Bytes × Peer} {b : Announce}, Good b → x.2.tp = ⟨b.id, b.text, b.port⟩ → ListedAt x.2.tp b.place := by
    intro x b hb hx
    rw [hx]
    exact ⟨hb.1, rfl⟩
  refine ⟨?_, ?_, ?_, ?_⟩
  · intro q hq
    obtain ⟨x, hx, rfl, h2, h3⟩ := mem_listing.mp hq
    obtain ⟨b, t, k1, k2, k3, k4, k5⟩ := h.entry x ((hi table).mem_iff.mp hx)
    refine ⟨b, t, k1, k2, k4, (gone_live k5).mp h2, ?_⟩
    intro e hc
    apply h3
    rw [k4, ← e]
    have := (Net.parseIP_iff _ _).mpr (hg _ _ k1).1
    unfold Canonical at hc
    rw [← Net.canonText_self] at hc
    unfold Net.canonText at hc
    rw [this] at hc
    simp only [Option.map_some, Option.some.injEq] at hc
    simp only [key, Announce.place, hc]
  · intro e hl hne
    obtain ⟨t, ev, h1, h2, h3⟩ := hl
    obtain ⟨b, k1, k2, rfl, k4⟩ := lastSeen_mem h1
    rcases h.all _ t ev h1 with k | k | k
    · obtain ⟨⟨k, q⟩, hq, hk⟩ := List.mem_map.mp k
      simp only at hk
      subst hk
      obtain ⟨c, u, k1', k2', k3', k4', k5'⟩ := h.entry _ hq
      have e' : b.place = c.place := key_inj (place_length (hg _ _ k1)) (place_length (hg _ _ k1')) k3'
      refine ⟨q.tp, mem_listing.mpr ⟨_, (hi table).mem_iff.mpr hq, rfl, ?_, ?_⟩, ?_⟩
      · refine (gone_live k5').mpr ?_
        rw [← e']
        exact ⟨t, ev, h1, h2, h3⟩
      · simp only at k4'
        rw [k4']
        intro hadd
        obtain ⟨j1, j2⟩ := addrText_inj hadd
        apply hne
        have j3 := (Net.parseIP_iff _ _).mpr (hg _ _ k1').1
        simp only at j1 j2
        rw [j1, Net.parseIP_string (place_length ha)] at j3
        rw [e']
        exact Prod.ext (Option.some.inj j3).symm j2
      · rw [e']
        exact hat (hg _ _ k1') k4'
    · exact absurd k h2
    · unfold minute at k; omega
  · refine List.Pairwise.sublist listing_sublist ?_
    rw [List.pairwise_map]
    have hnd : ((iter table).map (·.1)).Nodup := ((hi table).map _).nodup_iff.mpr h.nodup
    unfold List.Nodup at hnd
    rw [List.pairwise_map] at hnd
    refine List.Pairwise.imp_of_mem ?_ hnd
    intro x y hx hy hne e h1 h2
    obtain ⟨b, t, k1, k2, k3, k4, k5⟩ := h.entry x ((hi table).mem_iff.mp hx)
    obtain ⟨c, u, j1, j2, j3, j4, j5⟩ := h.entry y ((hi table).mem_iff.mp hy)
    have l1 := hat (hg _ _ k1) k4
    have l2 := hat (hg _ _ j1) j4
    have e1 : e = b.place := at_unique h1 l1
    have e2 : e = c.place := at_unique h2 l2
    exact hne (by rw [k3, j3, ← e1, ← e2])
  · have := (listing_sublist (now := now) (addr := key a.place) (table := iter table)).length_le
    have := (hi table).length_eq
    have := h.size
    simp at *
    omega

theorem answered (c : Bool) (ps : List Tracker.Peer) : Answered c ps (answer c ps).status (answer c ps).body := by
  have hg : (appended ps).getD [] = ps := by cases ps <;> rfl
  cases c with
  | true =>
    by_cases h : ∃ s, CompactForm (ps.map fun q => (q.ip, q.port)) s
    · obtain ⟨s, hs⟩ := h
      have := C115_writes_partial { interval := 30, peers := some ⟨true, appended ps⟩ } [(b!"peers", .str s)] ⟨_, .inl ⟨rfl, s, by simpa [hg] using hs, rfl⟩, rfl⟩
      refine .inl ?_
      unfold answer
      rw [this]
      refine ⟨rfl, ?_⟩
      unfold IsAnswer
      rw [if_pos rfl]
      exact ⟨s, hs, rfl⟩
    · have := response_err { interval := 30, peers := some ⟨true, appended ps⟩ } rfl ((C34_writes (appended ps)).2 (by simpa [hg] using h))
      refine .inr ?_
      unfold answer
      rw [this]
      exact ⟨rfl, rfl, rfl, h⟩
  | false =>
    refine .inl ?_
    unfold IsAnswer
    rw [if_neg (by simp)]
    by_cases h : ps = []
    · subst h
      rw [if_pos rfl]
      unfold answer
      rw [show (appended [] : Option (List Tracker.Peer)) = none from rfl, C78_nil_list_refuted.1]
      exact ⟨rfl, rfl⟩
    · rw [if_neg h]
      have := C115_writes_partial { interval := 30, peers := some ⟨false, appended ps⟩ } [(b!"peers", .list (ps.map peerTree))]
        ⟨_, .inr ⟨rfl, ps, by cases ps with | nil => exact absurd rfl h | cons => rfl, rfl⟩, rfl⟩
      unfold answer
      rw [this]
      exact ⟨rfl, rfl⟩

end Drip.Pex
