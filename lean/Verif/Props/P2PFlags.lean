import Verif.Lemmas.P2PFlags
import Verif.Lemmas.P2PExample
import Verif.Model.FlagConc
/-
Choke and interest messages (C64).
-/

namespace Drip.P2P
open PeerWire Metainfo
open Storage (Fate World)

variable {cfg : Cfg} {r : Ref}

/-- The messages about choking and interest on a connection alternate, starting with UNCHOKE and INTERESTED, and the last ones agree
with the flags. -/
structure InStep (c : Conn) : Prop where
  chokes : Spec.Alternates UNCHOKE CHOKE ((c.sent.map (·.typ)).filter fun t => t = CHOKE ∨ t = UNCHOKE)
  choked : c.choked = false ↔ ((c.sent.map (·.typ)).filter fun t => t = CHOKE ∨ t = UNCHOKE).getLast? = some UNCHOKE
  interests : Spec.Alternates INTERESTED NOT_INTERESTED ((c.sent.map (·.typ)).filter fun t => t = INTERESTED ∨ t = NOT_INTERESTED)
  interested : c.interested = true ↔ ((c.sent.map (·.typ)).filter fun t => t = INTERESTED ∨ t = NOT_INTERESTED).getLast? = some INTERESTED

theorem Agree.inStep {c : Conn} (h : Agree c) : InStep c := by
  have last : ∀ {a b : Int} {l : List Int}, a ≠ b → Spec.Alternates a b l → (l.getLast? = some a ↔ l.length % 2 = 1) := by
    intro a b l hab hl
    rw [hl.last]
    by_cases h0 : l.length = 0
    · rw [if_pos h0, h0]; simp
    · rw [if_neg h0]
      by_cases h1 : l.length % 2 = 1
      · rw [if_pos h1]; simp [h1]
      · rw [if_neg h1]; simp [h1, hab.symm]
  refine ⟨h.chokes, ?_, h.interests, h.interested.trans (last (by decide) h.interests).symm⟩
  refine Iff.trans ?_ (last (by decide) h.chokes).symm
  have := h.choked
  cases hc : c.choked with
  | true => have := this.1 hc; simp; omega
  | false => simp; rw [hc] at this; simp at this; omega

/-- Calls on the connection `r`, one after the other, until one returns an error. -/
def calls (r : Ref) : List (Call × Bool) → Act Unit
  | [] => pure ()
  | (k, ok) :: ks => do k.act ok r; calls r ks

/-- C64, one caller: whatever calls are made on a connection on which none was made before, if none of them returns an error then the
messages alternate, starting with UNCHOKE and INTERESTED, and agree with the flags. -/
theorem C64_sequence_partial (s s' : State) (c c' : Conn) (hc : s.peers[r]? = some c) (h1 : c.choked = true) (h2 : c.interested = false) (h3 : c.sent = [])
    (ks : List (Call × Bool)) (h : calls r ks s = (.ok (), s')) (hc' : s'.peers[r]? = some c') : InStep c' := by
  have ha : Agree c := by
    have e1 : chokes c = [] := by unfold chokes; rw [h3]; rfl
    have e2 : interests c = [] := by unfold interests; rw [h3]; rfl
    exact ⟨by rw [e1]; trivial, by rw [e1, h1]; simp, by rw [e2]; trivial, by rw [e2, h2]; simp⟩
  refine Agree.inStep ?_
  clear h1 h2 h3
  induction ks generalizing s c with
  | nil => cases h; rw [hc] at hc'; cases hc'; exact ha
  | cons k ks ih =>
    obtain ⟨k, ok⟩ := k
    unfold calls at h
    rw [bind_apply] at h
    rcases k.cases hc ok with ⟨d, ⟨_, _, hk⟩, _, hd⟩ | hk | ⟨d, _, _, hk⟩
    · rw [hk] at h
      exact ih _ d (List.getElem?_set_self (List.getElem?_eq_some_iff.1 hc).1) h (hd ha)
    · rw [hk] at h; exact ih _ c hc h ha
    · rw [hk] at h; cases h

/-- C64 over every history of the server: on every connection that is open and to which no write has failed, the messages about choking and
about interest alternate, and agree with the flags. -/
theorem C64_history_partial (w : World) (es : List (Event × Luck)) (hok : ∀ e ∈ es, e.2.ok r = true) (c : Conn)
    (hc : (run cfg (init w) es).peers[r]? = some c) (ho : c.closed = false) : InStep c :=
  (flags_run (cfg := cfg) (good := (· = r)) w es (fun e he x hx => by subst hx; exact hok e he) r c rfl hc ho).inStep

/-- C64: if writes can fail it is false. The flag is set before the message is written, so after `Unchoke` has failed `Choke` sends the first
message. -/
theorem C64_write_refuted : ¬ ∀ (r : Ref) (s : State) (c c' : Conn) (k1 k2 : Call) (ok1 ok2 : Bool), s.peers[r]? = some c → c.choked = true → c.interested = false → c.sent = [] →
    c.closed = false → (k2.act ok2 r (k1.act ok1 r s).2).2.peers[r]? = some c' → InStep c' := by
  intro h
  let s : State := { init Ex.nothing with peers := [newConn Ex.cfg (Ex.id' 2) (Ex.ip 2) 5000] }
  have hr : (Call.choke.act true 0 (Call.unchoke.act false 0 s).2).2.peers[0]?.map (fun c => (c.choked, c.sent.map (·.typ))) = some (true, [CHOKE]) := by kernel_rfl
  cases hc : (Call.choke.act true 0 (Call.unchoke.act false 0 s).2).2.peers[0]? with
  | none => rw [hc] at hr; cases hr
  | some c' =>
    rw [hc] at hr
    injection hr with hr; injection hr with _ hr
    have := (h 0 s _ c' .unchoke .choke false true rfl rfl rfl rfl rfl hc).chokes
    rw [hr] at this
    exact absurd this.1 (by decide)

/-- A connection of the server. -/
example : ((run Ex.cfg (init Ex.second) (Ex.fine (Ex.joins 0 2 (Ex.id' 2) ++ [.unchoke 0] ++ Ex.gets 0 (have_ 0)))).peers[0]?).map
    (fun c => (c.choked, c.interested, c.sent.map (·.typ))) = some (false, true, [BITFIELD, UNCHOKE, INTERESTED]) := by kernel_rfl

/-- Calls in a row. -/
example : ((calls 0 [(.choke, true), (.unchoke, true), (.unchoke, true), (.interest, true), (.choke, true), (.notInterest, true)]
    { init Ex.nothing with peers := [newConn Ex.cfg (Ex.id' 2) (Ex.ip 2) 5000] }).2.peers[0]?).map (fun c => (c.choked, c.interested, c.sent.map (·.typ))) =
    some (true, false, [UNCHOKE, INTERESTED, CHOKE, NOT_INTERESTED]) := by kernel_rfl

end Drip.P2P

namespace Drip.FlagConc
open Conc

/-- The calls that move the flag, and have not sent their message yet. -/
def pending (up : Bool) (ls : List Th) : Nat := (ls.map fun t => if t.sending = some up then 1 else 0).sum

theorem sum_set {α : Type} (f : α → Nat) : ∀ (ls : List α) (i : Nat) (l l' : α), ls[i]? = some l → ((ls.set i l').map f).sum + f l = (ls.map f).sum + f l'
  | [], _, _, _, h => by cases h
  | x :: xs, 0, l, l', h => by cases h; simp; omega
  | x :: xs, i + 1, l, l', h => by
    have := sum_set f xs i l l' h
    simp only [List.set_cons_succ, List.map_cons, List.sum_cons]; omega

/-- C64: interleaving of an `Interest` with a `NotInterest`: the last message does not agree with the flag. (`Unchoke`, `Choke` likewise.) -/
theorem C64_interleaved_refuted : ¬ ∀ (ls ls' : List Th) (s : Shared), (∀ t ∈ ls, t.sending = none) → Reach Act (⟨false, []⟩, ls) (s, ls') → (∀ t ∈ ls', t.calls = [] ∧ t.sending = none) →
    Spec.Alternates true false s.sent ∧ (s.flag = true ↔ s.sent.getLast? = some true) := by
  intro h
  have hr : Reach Act (⟨false, []⟩, [⟨[true], none⟩, ⟨[false], none⟩]) (⟨false, [false, true]⟩, [⟨[], none⟩, ⟨[], none⟩]) := by
    refine .head (.mk 0 rfl (.swap (by decide))) (.head (.mk 1 rfl (.swap (by decide))) (.head (.mk 1 rfl .send) (.head (.mk 0 rfl .send) .refl)))
  exact absurd (h _ _ _ (by simp) hr (by simp)).1.1 (by decide)

/-- C64 for any number of goroutines: when all calls have returned, the number of messages of the two kinds agrees with the flag: as many UNCHOKE
(INTERESTED) as CHOKE (NOT_INTERESTED) messages, and one more if the flag says so. In particular no message is lost or sent twice. -/
theorem C64_balanced_partial (ls ls' : List Th) (s : Shared) (h0 : ∀ t ∈ ls, t.sending = none) (hr : Reach Act (⟨false, []⟩, ls) (s, ls'))
    (hd : ∀ t ∈ ls', t.calls = [] ∧ t.sending = none) : s.sent.count true = s.sent.count false + s.flag.toNat := by
  have none_sum : ∀ (up : Bool) (ls : List Th), (∀ t ∈ ls, t.sending = none) → pending up ls = 0 := by
    intro up ls h
    induction ls with
    | nil => rfl
    | cons t ts ih =>
      have h1 := ih fun t ht => h t (List.mem_cons_of_mem _ ht)
      have h2 := h t (List.mem_cons_self ..)
      unfold pending at h1 ⊢
      rw [List.map_cons, List.sum_cons, h1, h2]
      simp
  have key : ∀ c : Shared × List Th, Reach Act (⟨false, []⟩, ls) c → c.1.sent.count true + pending true c.2 = c.1.sent.count false + pending false c.2 + c.1.flag.toNat := by
    intro c hc
    induction hc with
    | refl => rw [none_sum _ _ h0, none_sum _ _ h0]; rfl
    | tail _ hs ih =>
      cases hs with
      | @mk s0 s1 l0 l' ls0 i hi ha =>
        have h1 := sum_set (fun t : Th => if t.sending = some true then 1 else 0) _ i _ l' hi
        have h2 := sum_set (fun t : Th => if t.sending = some false then 1 else 0) _ i _ l' hi
        unfold pending at ih ⊢
        cases ha with
        | @swap f l cs up hf => cases f <;> cases up <;> simp at h1 h2 ih hf ⊢ <;> omega
        | same hf => simp at h1 h2 ih ⊢; omega
        | @send f l cs up => cases up <;> simp at h1 h2 ih ⊢ <;> omega
  have := key _ hr
  simp only [none_sum _ _ fun t ht => (hd t ht).2] at this
  omega

/-- Two goroutines, three calls. -/
example : Reach Act (⟨false, []⟩, [⟨[true, true], none⟩, ⟨[false], none⟩]) (⟨true, [false, true, true]⟩, [⟨[], none⟩, ⟨[], none⟩]) := by
  refine .head (.mk 0 rfl (.swap (by decide))) (.head (.mk 1 rfl (.swap (by decide))) (.head (.mk 1 rfl .send) (.head (.mk 0 rfl .send) (.head (.mk 0 rfl (.swap (by decide))) (.head (.mk 0 rfl .send) .refl)))))

end Drip.FlagConc
