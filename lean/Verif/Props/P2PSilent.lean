import Verif.Props.P2PStorage
/-
C85: what is sent on connections to which no BITFIELD was sent.
-/

namespace Drip.P2P
open PeerWire Metainfo
open Storage (Fate World Mem Usable)

variable {cfg : Cfg} {may : May} {r : Ref}

/-- The first message sent on the connection is a BITFIELD. -/
def Begun (c : Conn) : Prop := ∃ bf rest, c.sent = bitfieldMsg bf :: rest

def BegunAt (s : State) (x : Ref) : Prop := ∃ c, s.peers[x]? = some c ∧ Begun c

theorem Begun.append {c : Conn} (h : Begun c) {c' : Conn} {ms : List Message} (e : c'.sent = c.sent ++ ms) : Begun c' := by
  obtain ⟨bf, rest, h⟩ := h
  exact ⟨bf, rest ++ ms, by rw [e, h]; rfl⟩

theorem Change.sent {s : State} {c c' : Conn} (h : Change cfg may s r c c') : c'.sent = c.sent ∨ ∃ m, may.send r m ∧ c'.sent = c.sent ++ [m] := by
  cases h with
  | send m h1 => exact .inr ⟨m, h1, rfl⟩
  | _ => exact .inl rfl

theorem BegunAt.small {s s' : State} {x : Ref} (hx : BegunAt s x) (h : Small cfg may s s') : BegunAt s' x := by
  obtain ⟨d, hd, hb⟩ := hx
  cases h with
  | new id ip port _ => exact ⟨d, by rw [List.getElem?_append_left (List.getElem?_eq_some_iff.1 hd).1]; exact hd, hb⟩
  | upd y a b h1 h2 =>
    rcases set_get (c' := b) h1 hd with ⟨_, e, h⟩ | ⟨_, h⟩
    · subst e
      refine ⟨b, h, ?_⟩
      rcases h2.sent with e | ⟨m, _, e⟩
      · exact hb.append (ms := []) (by rw [e, List.append_nil])
      · exact hb.append e
    · exact ⟨d, h, hb⟩
  | upload y a q dd f h0 h1 h2 =>
    rcases set_get (c' := a.gave q dd) h1 hd with ⟨_, e, h⟩ | ⟨_, h⟩
    · subst e; exact ⟨_, h, hb.append rfl⟩
    · exact ⟨d, h, hb⟩
  | join y a ms ph h0 h1 =>
    rcases set_get (c' := a.join ms ph) h1 hd with ⟨_, e, h⟩ | ⟨_, h⟩
    · subst e; exact ⟨_, h, hb.append rfl⟩
    · exact ⟨d, h, hb⟩
  | _ => exact ⟨d, hd, hb⟩

/-- A connection without BITFIELD is not downloaded from, and is sent nothing but HAVE and UNCHOKE. -/
structure Silent (s : State) : Prop where
  plain : ∀ (x : Ref) (c : Conn), s.peers[x]? = some c → Begun c ∨ ∀ m ∈ c.sent, m.typ = HAVE ∨ m.typ = UNCHOKE
  queued : ∀ x : Ref, x ∈ s.toRequest ∨ x ∈ s.waiting ∨ (∃ j ∈ s.jobs, j.peer = x) → BegunAt s x

structure Tame (may : May) (s : State) : Prop where
  send : ∀ x m, may.send x m → BegunAt s x ∨ m.typ = HAVE ∨ m.typ = UNCHOKE
  upload : ∀ x m, may.upload x m → BegunAt s x
  queue : ∀ x, may.queue x → BegunAt s x

theorem Tame.small {s s' : State} (ht : Tame may s) (h : Small cfg may s s') : Tame may s' :=
  ⟨fun x m hm => (ht.send x m hm).imp (·.small h) id, fun x m hm => (ht.upload x m hm).small h, fun x hx => (ht.queue x hx).small h⟩

theorem begunAt_get {s : State} {x : Ref} {c : Conn} (h : BegunAt s x) (hc : s.peers[x]? = some c) : Begun c := by
  obtain ⟨d, hd, hb⟩ := h
  rw [hc] at hd
  cases hd
  exact hb

theorem Silent.small {s s' : State} (hs : Silent s) (hi : Inv cfg s) (ht : Tame may s) (h : Small cfg may s s') : Silent s' := by
  have hold : ∀ x : Ref, x ∈ s.toRequest ∨ x ∈ s.waiting ∨ (∃ j ∈ s.jobs, j.peer = x) → BegunAt s' x := fun x hx => (hs.queued x hx).small h
  have hall : ∀ x, BegunAt s x → BegunAt s' x := fun x hx => hx.small h
  cases h with
  | new id ip port _ =>
    refine ⟨fun x c hc => ?_, hold⟩
    rw [List.getElem?_append] at hc
    split at hc
    · exact hs.plain x c hc
    · rw [List.getElem?_singleton] at hc
      split at hc
      · injection hc with hc; subst hc
        exact .inr fun m hm => by cases hm
      · cases hc
  | upd y a b h1 h2 =>
    refine ⟨fun x c hc => ?_, hold⟩
    rcases set_cases hc with ⟨rfl, rfl⟩ | ⟨_, hc⟩
    · rcases h2.sent with e | ⟨m, hm, e⟩
      · unfold Begun
        rw [e]
        exact hs.plain _ a h1
      · rcases hs.plain _ a h1 with hb | hn
        · exact .inl (hb.append e)
        · rcases ht.send _ m hm with hb | hk
          · exact .inl ((begunAt_get hb h1).append e)
          · right
            intro m' hm'
            rw [e] at hm'
            rcases List.mem_append.mp hm' with h | h
            · exact hn m' h
            · rw [List.mem_singleton.mp h]; exact hk
    · exact hs.plain x c hc
  | upload y a q d f h0 h1 h2 =>
    refine ⟨fun x c hc => ?_, hold⟩
    rcases set_cases hc with ⟨rfl, rfl⟩ | ⟨_, hc⟩
    · exact .inl ((begunAt_get (ht.upload _ q h0) h1).append rfl)
    · exact hs.plain x c hc
  | join y a ms ph h0 h1 hph _ _ hj =>
    refine ⟨fun x c hc => ?_, hold⟩
    rcases set_cases hc with ⟨rfl, rfl⟩ | ⟨_, hc⟩
    · rcases hj with ⟨rfl, _⟩ | ⟨_, _, m, _, rfl⟩
      · unfold Begun
        rw [show (a.join [] ph).sent = a.sent from List.append_nil _]
        exact hs.plain _ a h1
      · have hreg : a.registered = false := by
          cases hr : a.registered with
          | false => rfl
          | true => exact absurd hph ((hi.conn _ a h1).reg hr).2.2.2
        refine .inl ⟨m.bitfield, [], ?_⟩
        show a.sent ++ _ = _
        rw [((hi.conn _ a h1).quiet hreg).1]
        rfl
    · exact hs.plain x c hc
  | queue q t w hq =>
    refine ⟨hs.plain, fun x hx => ?_⟩
    rcases hx with hx | hx | hx
    · rcases hq x (List.mem_append_left _ hx) with h | h | h | h
      · exact hold x (.inl h)
      · exact hold x (.inr (.inl h))
      · exact hold x (.inr (.inr h))
      · exact hall x (ht.queue x h)
    · rcases hq x (List.mem_append_right _ hx) with h | h | h | h
      · exact hold x (.inl h)
      · exact hold x (.inr (.inl h))
      · exact hold x (.inr (.inr h))
      · exact hall x (ht.queue x h)
    · exact hold x (.inr (.inr hx))
  | jobs i j h1 h2 =>
    refine ⟨hs.plain, fun x hx => ?_⟩
    rcases hx with hx | hx | ⟨k, hk, rfl⟩
    · exact hold x (.inl hx)
    · exact hold x (.inr (.inl hx))
    · rcases h2 k hk with ⟨y, hy, e⟩ | h
      · exact hold _ (.inr (.inr ⟨y, hy, e⟩))
      · exact hold _ (.inl h)
  | _ => exact ⟨hs.plain, hold⟩

theorem mayOf_tame {s : State} (hs : Silent s) (hi : Inv cfg s) (e : Event) : Tame (mayOf cfg s e) s := by
  have serving : ∀ x c p, s.peers[x]? = some c → c.phase = .serving p → BegunAt s x := fun x c p hc hp => ⟨c, hc, ((hi.conn x c hc).serving (.inl ⟨p, hp⟩)).2⟩
  constructor
  · intro x m hm
    rcases hm with ⟨_, rfl, c, p, hc, hp⟩ | ⟨_, rfl, c, hc, hr⟩ | ⟨k, _, hk, rfl⟩ | ⟨k, q, i, _, hj, _, rfl⟩ | ⟨k, y, i, _, _, _, rfl, key, hk⟩
    · exact .inl (serving x c p hc hp)
    · exact .inr (.inr rfl)
    · exact .inl (hs.queued x (.inl (List.mem_of_getElem? hk)))
    · exact .inl (hs.queued x (.inr (.inr ⟨_, List.mem_of_getElem? hj, rfl⟩)))
    · exact .inr (.inl rfl)
  · rintro x m ⟨_, _, c, hc, hp⟩
    exact serving x c _ hc hp
  · rintro x ⟨_, c, p, hc, hp⟩
    exact serving x c p hc hp

theorem Silent.step {s : State} (hs : Silent s) (hi : Inv cfg s) (e : Event × Luck) : Silent (step cfg s e) := by
  have hsm : Smalls cfg (mayOf cfg s e.1) s (P2P.step cfg s e) := step_small e hi.pendOK
  have ht := mayOf_tame (cfg := cfg) hs hi e.1
  have hg := mayOf_good (cfg := cfg) hi e.1
  generalize P2P.step cfg s e = s' at hsm
  refine (?_ : Silent s' ∧ Inv cfg s' ∧ Tame (mayOf cfg s e.1) s' ∧ Good (mayOf cfg s e.1) s').1
  induction hsm with
  | refl => exact ⟨hs, hi, ht, hg⟩
  | tail _ h ih => exact ⟨ih.1.small ih.2.1 ih.2.2.1 h, ih.2.1.small ih.2.2.2 h, ih.2.2.1.small h, ih.2.2.2.small h⟩

theorem silent_run (w : World) (es : List (Event × Luck)) : Silent (run cfg (init w) es) := by
  have : ∀ (es : List (Event × Luck)) (s : State), Silent s → Inv cfg s → Silent (run cfg s es) ∧ Inv cfg (run cfg s es) := by
    intro es
    induction es with
    | nil => intro s hs hi; exact ⟨hs, hi⟩
    | cons e es ih =>
      intro s hs hi
      refine ih _ (hs.step hi e) ?_
      have hsm : Smalls cfg (mayOf cfg s e.1) s (P2P.step cfg s e) := step_small e hi.pendOK
      have hg := mayOf_good (cfg := cfg) hi e.1
      generalize P2P.step cfg s e = s' at hsm
      refine (?_ : Inv cfg s' ∧ Good (mayOf cfg s e.1) s').1
      induction hsm with
      | refl => exact ⟨hi, hg⟩
      | tail _ h ih => exact ⟨ih.1.small ih.2 h, ih.2.small h⟩
  refine (this es _ ⟨(fun x c hc => by cases hc), fun x hx => by rcases hx with h | h | ⟨j, h, _⟩ <;> cases h⟩ (Inv.init w)).1

/-- **C85**, for every connection in every history, whatever the storage is like: either the first message that was sent on it is a BITFIELD, or nothing but HAVE and UNCHOKE (by `UnchokePeers`)
was sent on it: it gets no INTERESTED, REQUEST or PIECE, no piece is being downloaded from it and it is not queued for downloading. Missing: that the first message is a BITFIELD (C85_refuted). -/
theorem C85_silent_partial (w : World) (es : List (Event × Luck)) {c : Conn} (hc : (run cfg (init w) es).peers[r]? = some c) :
    (∃ bf rest, c.sent = bitfieldMsg bf :: rest) ∨
      ((∀ m ∈ c.sent, m.typ = HAVE ∨ m.typ = UNCHOKE) ∧ r ∉ (run cfg (init w) es).toRequest ∧ r ∉ (run cfg (init w) es).waiting ∧ ∀ j ∈ (run cfg (init w) es).jobs, j.peer ≠ r) := by
  have hs := silent_run (cfg := cfg) w es
  by_cases hb : Begun c
  · exact .inl hb
  · exact .inr ⟨(hs.plain r c hc).resolve_left hb, fun h => hb (begunAt_get (hs.queued r (.inl h)) hc), fun h => hb (begunAt_get (hs.queued r (.inr (.inl h))) hc), fun j hj e => hb (begunAt_get (hs.queued r (.inr (.inr ⟨j, hj, e⟩))) hc)⟩

/-- The connection of C85_refuted, and what the other one is sent. -/
example : (run Ex.cfg (init Ex.nothing) Ex.silent).peers.map (fun c => c.sent.map (·.typ)) = [[HAVE], [BITFIELD, INTERESTED, HAVE]] ∧
    (run Ex.cfg (init Ex.nothing) (Ex.silent ++ Ex.fine [.unchoke 0])).peers.map (fun c => c.sent.map (·.typ)) = [[HAVE, UNCHOKE], [BITFIELD, INTERESTED, HAVE]] := ⟨by kernel_rfl, by kernel_rfl⟩

end Drip.P2P
