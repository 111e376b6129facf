import Verif.Lemmas.P2PHas
import Verif.Lemmas.P2PLock
/-
`indexToPeers`: which peers have a piece.
-/

namespace Drip.P2P
open PeerWire Metainfo
open Storage (Fate World Op runOp getBlock putBlock resetPiece)

variable {cfg : Cfg} {may : May} {r : Ref}

/-- The peers recorded for a piece. -/
def tab (s : State) (i : Nat) : List Ref := (mget s.indexToPeers (i : Int)).getD []

/-- What is recorded stays, and new pieces of peers are recorded. -/
structure Noted (s s' : State) : Prop where
  keeps : ∀ i x, x ∈ tab s i → x ∈ tab s' i
  gains : ∀ (x : Ref) (c' : Conn) (j : Nat), s'.peers[x]? = some c' → Bitfield.bit c'.bitfield j = true → x ∈ tab s' j ∨ ∃ c, s.peers[x]? = some c ∧ Bitfield.bit c.bitfield j = true

theorem noted_pre : Pre Noted :=
  ⟨fun _ => ⟨fun _ _ h => h, fun _ c _ hc h => .inr ⟨c, hc, h⟩⟩, fun h1 h2 => ⟨fun i x h => h2.keeps i x (h1.keeps i x h), fun x c j hc h => by
    rcases h2.gains x c j hc h with h | ⟨d, hd, h⟩
    · exact .inl h
    · exact (h1.gains x d j hd h).imp_left (h2.keeps j x)⟩⟩

theorem tab_record (s : State) (i : Nat) (j : Nat) (x : Ref) :
    tab { s with indexToPeers := mput s.indexToPeers i (sadd ((mget s.indexToPeers i).getD []) x) } j = if j = i then sadd (tab s i) x else tab s j := by
  unfold tab
  simp only [mget_mput]
  by_cases h : j = i
  · subst h; rw [if_pos rfl, if_pos rfl]; rfl
  · rw [if_neg (by omega), if_neg h]

theorem Small.noted {s s' : State} (h : Small cfg may s s') (hp : ∀ x i, ¬ may.pieces x i) (hd : ∀ x, ¬ may.drop x) : Noted s s' := by
  have put : ∀ {y : Ref} {a b : Conn} {x : Ref} {c : Conn} {j : Nat}, s.peers[y]? = some a → (∀ j, Bitfield.bit b.bitfield j = true → Bitfield.bit a.bitfield j = true) →
      (s.peers.set y b)[x]? = some c → Bitfield.bit c.bitfield j = true → ∃ c, s.peers[x]? = some c ∧ Bitfield.bit c.bitfield j = true := by
    intro y a b x c j h1 h2 hc hb
    rcases set_cases hc with ⟨rfl, rfl⟩ | ⟨_, h⟩
    · exact ⟨a, h1, h2 j hb⟩
    · exact ⟨c, h, hb⟩
  cases h with
  | new id ip port _ =>
    refine ⟨fun _ _ h => h, fun x c j hc hb => .inr ?_⟩
    rw [List.getElem?_append] at hc
    split at hc
    · exact ⟨c, hc, hb⟩
    · rw [List.getElem?_singleton] at hc
      split at hc
      · injection hc with hc; subst hc
        rw [show (newConn cfg id ip port).bitfield = Bitfield.new _ from rfl, bit_zeros] at hb; cases hb
      · cases hc
  | upd y a b h1 h2 =>
    exact ⟨fun _ _ h => h, fun x c j hc hb => .inr (put h1 (fun j h => (h2.grows.gains j h).resolve_right (hp y j)) hc hb)⟩
  | upload y a q d f h0 h1 h2 => exact ⟨fun _ _ h => h, fun x c j hc hb => .inr (put (b := a.gave q d) h1 (fun _ h => h) hc hb)⟩
  | join y a ms ph _ h1 => exact ⟨fun _ _ h => h, fun x c j hc hb => .inr (put (b := a.join ms ph) h1 (fun _ h => h) hc hb)⟩
  | record y a i h1 h2 h3 => exact absurd h3 (hp y i)
  | unindex y a h1 => exact absurd h1 (hd y)
  | _ => exact ⟨fun _ _ h => h, fun _ c _ hc h => .inr ⟨c, hc, h⟩⟩

theorem Smalls.noted {s s' : State} (h : Smalls cfg may s s') (hp : ∀ x i, ¬ may.pieces x i) (hd : ∀ x, ¬ may.drop x) : Noted s s' := by
  induction h with
  | refl => exact noted_pre.refl s
  | tail _ h ih => exact noted_pre.trans ih (h.noted hp hd)

theorem handleHave_noted (cfg : Cfg) (ok : Bool) (i : Nat) {s : State} (h : (handleHave ok r i s).1 ≠ .stuck) : Noted s (handleHave ok r i s).2 := by
  revert h
  unfold handleHave
  rw [bind_apply, getConn_apply]
  cases hc : s.peers[r]? with
  | none => exact fun _ => noted_pre.refl s
  | some c =>
  simp only []
  rw [bind_apply]
  cases hb : Bitfield.add c.bitfield i with
  | panic => exact fun _ => noted_pre.refl s
  | err e => exact fun _ => noted_pre.refl s
  | ok bf =>
    obtain ⟨_, h2, h3, h4⟩ := add_spec hb
    rw [show (Act.lift (Res.ok bf) s) = (Outcome.ok bf, s) from rfl]
    simp only []
    rw [bind_apply, setConn_apply]
    simp only []
    generalize hs' : ({ s with peers := s.peers.modify r fun c => { c with bitfield := bf } } : State) = s'
    have hp' : s'.peers = s.peers.set r { c with bitfield := bf } := by rw [← hs', modify_some hc]
    have ht' : s'.indexToPeers = s.indexToPeers := by rw [← hs']
    rw [bind_apply]
    unfold recordIndex
    rw [locked_apply]
    by_cases hl : s'.locked = true
    · rw [if_pos hl]; intro h; exact absurd rfl h
    rw [if_neg hl, modify_apply]
    simp only []
    intro _
    generalize hs2 : ({ s' with indexToPeers := mput s'.indexToPeers i (sadd ((mget s'.indexToPeers i).getD []) r), locked := false } : State) = s2
    have hn : Noted s s2 := by
      have e : ∀ j, tab s2 j = if j = i then sadd (tab s i) r else tab s j := by
        intro j
        have h1 := tab_record s i j r
        rw [← h1, ← hs2]
        unfold tab
        simp only [ht']
      refine ⟨fun j x hx => ?_, fun x d j hd hb => ?_⟩
      · rw [e]
        split
        · subst j; exact mem_sadd.2 (.inr hx)
        · exact hx
      · rw [← hs2] at hd
        simp only [hp'] at hd
        rcases set_cases hd with ⟨rfl, rfl⟩ | ⟨_, hd⟩
        · rcases h4 j hb with h | h
          · exact .inr ⟨c, hc, h⟩
          · left; subst h; rw [e, if_pos rfl]; exact mem_sadd.2 (.inl rfl)
        · exact .inr ⟨d, hd, hb⟩
    refine noted_pre.trans hn ?_
    have hno : ∀ {s s' : State}, Smalls cfg { send := fun _ _ => True, queue := fun _ => True : May } s s' → Noted s s' := fun h => h.noted (fun _ _ h => h) (fun _ h => h)
    refine Pres.bind noted_pre (Pres.torrentBitfield noted_pre) (fun _ => Pres.bind noted_pre (Pres.lift noted_pre _) fun _ => Pres.ite ?_ (Pres.pure noted_pre _)) s2
    exact Pres.bind noted_pre (fun s => hno (pres_QueuePeer (cfg := cfg) trivial s)) fun _ s => hno (pres_interest (cfg := cfg) ok trivial s)

theorem handleItems_noted (cfg : Cfg) (ok : Bool) : ∀ (is : List Nat) {s : State}, (handleItems ok r is s).1 ≠ .stuck → Noted s (handleItems ok r is s).2
  | [], s, _ => noted_pre.refl s
  | i :: is, s, h => by
    revert h
    unfold handleItems
    rw [bind_apply]
    have h1 := fun h => handleHave_noted cfg ok i (s := s) (r := r) h
    generalize handleHave ok r i s = x at h1
    obtain ⟨o, s'⟩ := x
    cases o with
    | ok a => exact fun h => noted_pre.trans (h1 (by simp)) (handleItems_noted cfg ok is h)
    | stuck => exact fun h => absurd rfl h
    | _ => exact fun _ => h1 (by simp)

theorem handleMessage_noted (fates : List Fate) (ok : Bool) (m : Message) (hi : 0 ≤ m.index) {s : State} (h : (handleMessage fates ok cfg r m s).1 ≠ .stuck) :
    Noted s (handleMessage fates ok cfg r m s).2 := by
  by_cases t4 : m.typ = HAVE
  · revert h
    unfold handleMessage
    rw [t4, if_neg (by decide), if_neg (by decide), if_neg (by decide), if_neg (by decide), if_pos rfl]
    unfold Message.getIndex
    rw [if_pos (by simp [t4]), bind_apply]
    intro h
    obtain ⟨i, e⟩ : ∃ i : Nat, m.index = i := ⟨m.index.toNat, by omega⟩
    revert h
    show (handleHave ok r m.index s).1 ≠ .stuck → Noted s (handleHave ok r m.index s).2
    rw [e]
    exact handleHave_noted cfg ok i
  by_cases t5 : m.typ = BITFIELD
  · revert h
    unfold handleMessage
    rw [t5, if_neg (by decide), if_neg (by decide), if_neg (by decide), if_neg (by decide), if_neg (by decide), if_pos rfl]
    unfold Message.getBitfield
    rw [if_pos (by simp [t5]), bind_apply]
    exact handleItems_noted cfg ok _
  · have := pres_handleMessage (cfg := cfg) (r := r) (may := { send := fun _ _ => True, queue := fun _ => True, upload := fun _ _ => True, remote := fun _ => True, cancels := fun _ => True, put := fun _ _ _ => True }) fates ok m hi
      trivial trivial (fun _ => trivial) (fun _ => trivial) (fun _ => trivial) (fun i h => h.elim (fun h => t4 h.1) fun h => t5 h.1) (fun _ => trivial) s
    exact this.noted (fun _ _ h => h) (fun _ h => h)

/-! ### Over a history -/

/-- The goroutine of the connection has served it and has not ended. -/
def Up (c : Conn) : Prop := Served c ∨ c.phase = .hung

/-- `indexToPeers` is right. -/
structure TabInv (s : State) : Prop where
  nodup : ∀ i, (tab s i).Nodup
  up : ∀ i x, x ∈ tab s i → ∃ c, s.peers[x]? = some c ∧ Up c
  full : s.alive = true → ∀ (x : Ref) (c : Conn) (i : Nat), s.peers[x]? = some c → c.phase ≠ .ended → c.phase ≠ .hung → Bitfield.bit c.bitfield i = true → x ∈ tab s i

theorem Change.over {s : State} {c c' : Conn} (h : Change cfg may s r c c') : (c.phase = .ended → c'.phase = .ended) ∧ (c.phase = .hung → c'.phase = .hung) := by
  cases h with
  | phase ph h1 h2 h3 =>
    refine ⟨fun he => ?_, fun he => ?_⟩ <;> (simp only; cases ph with
      | serving p => cases p with
        | none => obtain ⟨_, h⟩ := h3; rw [he] at h; cases h
        | some _ => exact h3.elim
      | fresh => exact h3.elim
      | checked => rw [show c.phase = _ from h3] at he; cases he
      | shaken => rw [show c.phase = _ from h3.1] at he; cases he
      | leaving => obtain ⟨_, h⟩ := h3; rw [he] at h; cases h
      | ended => first | rfl | exact absurd he h3.1
      | hung => first | rfl | exact absurd he h3)
  | receive m rd rd' h1 h2 => exact ⟨fun he => (by rw [h2] at he; cases he), fun he => (by rw [h2] at he; cases he)⟩
  | _ => exact ⟨fun h => h, fun h => h⟩

theorem Small.over {s s' : State} (h : Small cfg may s s') {x : Ref} {c : Conn} (hc : s.peers[x]? = some c) :
    ∃ c', s'.peers[x]? = some c' ∧ (c.phase = .ended → c'.phase = .ended) ∧ (c.phase = .hung → c'.phase = .hung) := by
  cases h with
  | new id ip port _ => exact ⟨c, by rw [List.getElem?_append_left (List.getElem?_eq_some_iff.1 hc).1]; exact hc, fun h => h, fun h => h⟩
  | upd y a b h1 h2 =>
    rcases set_get (c' := b) h1 hc with ⟨e1, e, h⟩ | ⟨_, h⟩
    · subst e e1; exact ⟨b, h, h2.over⟩
    · exact ⟨c, h, fun h => h, fun h => h⟩
  | upload y a q d f h0 h1 h2 =>
    rcases set_get (c' := a.gave q d) h1 hc with ⟨e1, e, h⟩ | ⟨_, h⟩
    · subst e e1; exact ⟨_, h, fun h => h, fun h => h⟩
    · exact ⟨c, h, fun h => h, fun h => h⟩
  | join y a ms ph hp h1 h2 h3 h4 h5 =>
    rcases set_get (c' := a.join ms ph) h1 hc with ⟨e1, e, h⟩ | ⟨_, h⟩
    · subst e e1; exact ⟨_, h, fun he => (by rw [h2] at he; cases he), fun he => (by rw [h2] at he; cases he)⟩
    · exact ⟨c, h, fun h => h, fun h => h⟩
  | _ => exact ⟨c, hc, fun h => h, fun h => h⟩

theorem Smalls.over {s s' : State} (h : Smalls cfg may s s') {x : Ref} {c : Conn} (hc : s.peers[x]? = some c) :
    ∃ c', s'.peers[x]? = some c' ∧ (c.phase = .ended → c'.phase = .ended) ∧ (c.phase = .hung → c'.phase = .hung) := by
  induction h with
  | refl => exact ⟨c, hc, fun h => h, fun h => h⟩
  | tail _ h ih =>
    obtain ⟨d, hd, h1, h2⟩ := ih
    obtain ⟨e, he, h3, h4⟩ := h.over hd
    exact ⟨e, he, fun h => h3 (h1 h), fun h => h4 (h2 h)⟩

theorem Small.tabNodup {s s' : State} (h : Small cfg may s s') (hs : ∀ i, (tab s i).Nodup) : ∀ i, (tab s' i).Nodup := by
  intro i
  cases h with
  | record y a n h1 h2 h3 =>
    rw [tab_record]
    split
    · exact sadd_nodup (hs n) y
    · exact hs i
  | unindex y a h1 =>
    unfold tab
    simp only [mget_forgetIndexes]
    have := hs i
    unfold tab at this
    cases hm : mget s.indexToPeers (i : Int) with
    | none => exact List.nodup_nil
    | some ps =>
      rw [hm] at this
      simp only [Option.map_some, Option.getD_some]
      split
      · exact sdel_nodup this y
      · exact this
  | _ => exact hs i

theorem Smalls.tabNodup {s s' : State} (h : Smalls cfg may s s') (hs : ∀ i, (tab s i).Nodup) : ∀ i, (tab s' i).Nodup := by
  induction h with
  | refl => exact hs
  | tail _ h ih => exact h.tabNodup ih

/-- Who is recorded was recorded before or has just announced the piece. -/
theorem Small.tabFrom {s s' : State} (h : Small cfg may s s') {i : Nat} {x : Ref} (hx : x ∈ tab s' i) : x ∈ tab s i ∨ may.pieces x i := by
  cases h with
  | record y a n h1 h2 h3 =>
    rw [tab_record] at hx
    split at hx
    · rename_i e; subst e
      rcases mem_sadd.1 hx with h | h
      · subst h; exact .inr h3
      · exact .inl h
    · exact .inl hx
  | unindex y a h1 =>
    left
    unfold tab at hx ⊢
    simp only [mget_forgetIndexes] at hx
    cases hm : mget s.indexToPeers (i : Int) with
    | none => rw [hm] at hx; cases hx
    | some ps =>
      rw [hm] at hx
      simp only [Option.map_some, Option.getD_some] at hx ⊢
      split at hx
      · exact (mem_sdel.1 hx).1
      · exact hx
  | _ => exact .inl hx

theorem Smalls.tabFrom {s s' : State} (h : Smalls cfg may s s') {i : Nat} {x : Ref} (hx : x ∈ tab s' i) : x ∈ tab s i ∨ may.pieces x i := by
  induction h with
  | refl => exact .inl hx
  | tail _ h ih => exact (h.tabFrom hx).elim ih .inr

theorem Small.tabKeeps {s s' : State} (h : Small cfg may s s') (hd : ∀ x, ¬ may.drop x) {i : Nat} {x : Ref} (hx : x ∈ tab s i) : x ∈ tab s' i := by
  cases h with
  | record y a n h1 h2 h3 =>
    rw [tab_record]
    split
    · rename_i e; subst e; exact mem_sadd.2 (.inr hx)
    · exact hx
  | unindex y a h1 => exact absurd h1 (hd y)
  | _ => exact hx

theorem Smalls.tabKeeps {s s' : State} (h : Smalls cfg may s s') (hd : ∀ x, ¬ may.drop x) {i : Nat} {x : Ref} (hx : x ∈ tab s i) : x ∈ tab s' i := by
  induction h with
  | refl => exact hx
  | tail _ h ih => exact h.tabKeeps hd ih

theorem up_step {s : State} (hi : Inv cfg s) (hal : s.alive = true) (e : Event × Luck) {x : Ref} {c : Conn} (hc : s.peers[x]? = some c) (hu : Up c) (hl : e.1 ≠ .leave x) :
    ∃ c', (step cfg s e).peers[x]? = some c' ∧ Up c' := by
  obtain ⟨e, l⟩ := e
  have hsm := step_small (cfg := cfg) (e, l) hi.pendOK
  have hn : ∀ ph, (∀ p, ph ≠ .serving p) → ph ≠ .leaving → ph ≠ .hung → at_ s x ph = false := by
    intro ph h1 h2 h3
    cases h : at_ s x ph with
    | false => rfl
    | true =>
      obtain ⟨d, hd, he⟩ := at_iff.1 h
      rw [hc] at hd; injection hd with hd; subst hd
      rcases hu with (⟨p, hu⟩ | hu) | hu
      · exact absurd (he.symm.trans hu) (h1 p)
      · exact absurd (he.symm.trans hu) h2
      · exact absurd (he.symm.trans hu) h3
  have same : act cfg l s e = none → ∃ c', (step cfg s (e, l)).peers[x]? = some c' ∧ Up c' := by
    intro h
    refine ⟨c, ?_, hu⟩
    unfold step
    rw [if_neg (by rw [hal]; simp)]
    simp only [h, hc]
  by_cases hph : (mayOf cfg s e).phase x
  · rcases hph with h | ⟨rd, h⟩ | h | ⟨rd, h⟩ | h | h | h
    · subst h
      exact same (by simp only [act, hn .fresh (by simp) (by simp) (by simp), Bool.false_eq_true, if_false])
    · subst h
      exact same (by simp only [act, hn .checked (by simp) (by simp) (by simp), Bool.false_eq_true, if_false])
    · subst h
      exact same (by simp only [act, hn .shaken (by simp) (by simp) (by simp), Bool.false_eq_true, if_false])
    · subst h
      by_cases h1 : c.phase = .serving none ∧ c.closed = false
      · unfold step
        rw [if_neg (by rw [hal]; simp)]
        simp only [act, hc, if_pos h1]
        cases Message.decode rd with
        | ok p => exact ⟨_, modify_self hc _, .inl (.inl ⟨_, rfl⟩)⟩
        | err er => exact ⟨_, modify_self hc _, .inl (.inr rfl)⟩
        | panic => exact ⟨c, hc, hu⟩
      · exact same (by simp only [act, hc, if_neg h1])
    · subst h
      by_cases h1 : ∃ m, c.phase = .serving (some m)
      · obtain ⟨m, h1⟩ := h1
        obtain ⟨c', o, _, _, _, _, h2⟩ := handle_conn hi hal hc h1 l
        refine ⟨_, h2, ?_⟩
        cases o with
        | ok a => exact .inl (.inl ⟨_, rfl⟩)
        | err e => exact .inl (.inr rfl)
        | _ => exact .inr rfl
      · refine same ?_
        simp only [act, hc, Option.map_some]
        split
        · rename_i m h; injection h with h; exact absurd ⟨m, h⟩ h1
        · rfl
    · subst h
      cases h1 : at_ s x (.serving none) with
      | true =>
        unfold step
        rw [if_neg (by rw [hal]; simp)]
        simp only [act, h1, if_true]
        exact ⟨_, next_peers .leaving .leaving (.ok (), s) hc, .inl (.inr rfl)⟩
      | false => exact same (by simp only [act, h1, Bool.false_eq_true, if_false])
    · exact absurd h hl
  · obtain ⟨c', h1, h2⟩ := hsm.frame (mayOf_good hi e) hc
    refine ⟨c', h1, ?_⟩
    unfold Up Served
    rw [(h2.phase hph).1]
    exact hu

theorem TabInv.step {s : State} (hi : Inv cfg s) (ht : TabInv s) (e : Event × Luck) (hq : e.1 ≠ .stop ∧ ∀ k, e.1 ≠ .finish k .checksum) : TabInv (P2P.step cfg s e) := by
  cases hal : s.alive with
  | false => rw [alive_step e hal]; exact ht
  | true =>
  have hsm := step_small (cfg := cfg) e hi.pendOK
  by_cases hl : ∃ y, e.1 = .leave y
  · obtain ⟨r, hl⟩ := hl
    obtain ⟨e, l⟩ := e
    simp only at hl; subst hl
    suffices h : (∀ i x, x ∈ tab (P2P.step cfg s (.leave r, l)) i → ∃ c, (P2P.step cfg s (.leave r, l)).peers[x]? = some c ∧ Up c) ∧ ((P2P.step cfg s (.leave r, l)).alive = true → ∀ (x : Ref) (c : Conn) (i : Nat), (P2P.step cfg s (.leave r, l)).peers[x]? = some c → c.phase ≠ .ended → c.phase ≠ .hung → Bitfield.bit c.bitfield i = true → x ∈ tab (P2P.step cfg s (.leave r, l)) i) from ⟨hsm.tabNodup ht.nodup, h.1, h.2⟩
    unfold P2P.step
    rw [if_neg (by rw [hal]; simp)]
    cases h1 : at_ s r .leaving with
    | false =>
      simp only [act, h1, Bool.false_eq_true, if_false]
      exact ⟨ht.up, ht.full⟩
    | true =>
      simp only [act, h1, if_true]
      obtain ⟨c, hc, hph⟩ := at_iff.1 h1
      cases hlk : s.locked with
      | true =>
        have : Disconnect r s = (.stuck, s) := by unfold Disconnect; rw [locked_apply, if_pos hlk]
        rw [this]
        unfold P2P.next
        simp only [modify_some hc]
        refine ⟨fun i x hx => ?_, fun _ x d i hd h2 h3 hb => ?_⟩
        · obtain ⟨d, hd, hu⟩ := ht.up i x hx
          rcases set_get (c' := { c with phase := .hung }) hc hd with ⟨_, _, h⟩ | ⟨_, h⟩
          · exact ⟨_, h, .inr rfl⟩
          · exact ⟨_, h, hu⟩
        · rcases set_cases hd with ⟨rfl, rfl⟩ | ⟨_, hd⟩
          · exact absurd rfl h3
          · exact ht.full hal x d i hd h2 h3 hb
      | false =>
        rw [Disconnect_apply hlk hc]
        unfold P2P.next
        simp only [modify_some (List.getElem?_set_self (List.getElem?_eq_some_iff.1 hc).1), List.set_set]
        have htab : ∀ (i : Nat) (x : Ref), x ∈ ((mget (forgetIndexes r s.indexToPeers (Bitfield.items c.bitfield)) (i : Int)).getD []) ↔ x ∈ tab s i ∧ x ≠ r := by
          intro i x
          rw [mget_forgetIndexes]
          unfold tab
          cases hm : mget s.indexToPeers (i : Int) with
          | none => simp
          | some ps =>
            simp only [Option.map_some, Option.getD_some]
            split
            · exact mem_sdel
            · rename_i hne
              refine ⟨fun h => ⟨h, fun hx => ?_⟩, fun h => h.1⟩
              subst hx
              obtain ⟨n, d, h2, h3, h4⟩ := hi.holders i ps x hm h
              rw [hc] at h3; injection h3 with h3; subst h3
              exact hne ⟨n, mem_items.2 h4, h2.symm⟩
        refine ⟨fun i x hx => ?_, fun _ x d i hd h2 h3 hb => ?_⟩
        · obtain ⟨hx, hne⟩ := (htab i x).1 hx
          obtain ⟨d, hd, hu⟩ := ht.up i x hx
          exact ⟨d, by rw [List.getElem?_set_ne (fun h => hne h.symm)]; exact hd, hu⟩
        · rcases set_cases hd with ⟨rfl, rfl⟩ | ⟨hne, hd⟩
          · exact absurd rfl h2
          · exact (htab i x).2 ⟨ht.full hal x d i hd h2 h3 hb, hne⟩
  · have hd : ∀ x, ¬ (mayOf cfg s e.1).drop x := by
      rintro x (h | ⟨k, i, h, _⟩ | ⟨h, _⟩)
      · exact hl ⟨x, h⟩
      · exact hq.2 k h
      · exact hq.1 h
    refine ⟨hsm.tabNodup ht.nodup, fun i x hx => ?_, fun hal' x c' i hc' h2 h3 hb => ?_⟩
    · have : ∃ c, s.peers[x]? = some c ∧ Up c := by
        rcases hsm.tabFrom hx with h | ⟨_, c, m, hc, hp, _⟩
        · exact ht.up i x h
        · exact ⟨c, hc, .inl (.inl ⟨_, hp⟩)⟩
      obtain ⟨c, hc, hu⟩ := this
      exact up_step hi hal e hc hu fun h => hl ⟨x, h⟩
    · cases hc : s.peers[x]? with
      | none =>
        have h0 := hsm.noPieces hc hc' (by rintro i ⟨_, c, _, h, _⟩; rw [hc] at h; cases h)
        rw [h0 i] at hb; cases hb
      | some c =>
        obtain ⟨d, hd1, hd2, hd3⟩ := hsm.over hc
        rw [hc'] at hd1; injection hd1 with hd1; subst hd1
        have old : Bitfield.bit c.bitfield i = true → x ∈ tab (P2P.step cfg s e) i := fun h =>
          hsm.tabKeeps hd (ht.full hal x c i hc (fun h => h2 (hd2 h)) (fun h => h3 (hd3 h)) h)
        obtain ⟨d, hd1, hg⟩ := hsm.grows hc
        rw [hc'] at hd1; injection hd1 with hd1; subst hd1
        rcases hg.gains i hb with h | ⟨he, d, m, hd', hp, _⟩
        · exact old h
        · rw [hc] at hd'; injection hd' with hd'; subst hd'
          obtain ⟨e, l⟩ := e
          simp only at he; subst he
          obtain ⟨c2, o, ho, h4, _, _, h5⟩ := handle_conn hi hal hc hp l
          rw [hc'] at h5; injection h5 with h5
          have hst : (handleMessage l.fates (l.ok x) cfg x m s).1 ≠ .stuck := by
            rw [← ho]
            rintro rfl
            exact h3 (by rw [h5]; rfl)
          have hn := handleMessage_noted (cfg := cfg) l.fates (l.ok x) m (hi.pendOK x c m hc hp).1 hst
          obtain ⟨b, hbb⟩ := handle_step (cfg := cfg) hal hc hp l
          rcases hn.gains x c2 i h4 (by rw [h5] at hb; exact hb) with h | ⟨d, hd', h⟩
          · rw [hbb]; exact h
          · rw [hc] at hd'; injection hd' with hd'; subst hd'
            exact old h

theorem tab_run (w : World) (es : List (Event × Luck)) (hq : Quiet es) : TabInv (run cfg (init w) es) := by
  refine (run_rec (cfg := cfg) (P := fun es s => Quiet es → Inv cfg s ∧ TabInv s) (init w) (fun _ => ⟨.init w, fun _ => List.nodup_nil, (fun i x h => by cases h), (fun _ x c i h => by cases h)⟩)
    (fun es e ih hq => ?_) es hq).2
  obtain ⟨hi, hs⟩ := ih fun x hx => hq x (List.mem_append_left _ hx)
  exact ⟨hi.step e, hs.step hi e (hq e (List.mem_append_right _ (List.mem_singleton_self _)))⟩

/-! ### A goroutine is blocked only if the lock is held -/

/-- When the action blocks, the lock is held. -/
def Holds {α : Type} (p : Act α) : Prop := ∀ s, (p s).1 = .stuck → (p s).2.locked = true

theorem Holds.of {α : Type} {p : Act α} (h : ∀ s, (p s).1 ≠ .stuck) : Holds p := fun s hs => absurd hs (h s)
theorem Holds.pure {α : Type} (a : α) : Holds (pure a : Act α) := .of fun s => by simp
theorem Holds.fail {α : Type} (e : Err) : Holds (Act.fail e : Act α) := .of fun s => by simp
theorem Holds.get : Holds Act.get := .of fun s => by simp
theorem Holds.modify (f : State → State) : Holds (Act.modify f) := .of fun s => by simp
theorem Holds.setConn (f : Conn → Conn) : Holds (setConn r f) := .of fun s => by simp
theorem Holds.getConn (r : Ref) : Holds (getConn r) := .of fun s => by rw [getConn_apply]; cases s.peers[r]? <;> simp
theorem Holds.torrentBitfield : Holds torrentBitfield := .of fun s => by unfold P2P.torrentBitfield; split <;> simp
theorem Holds.lift {α : Type} (x : Res α) : Holds (Act.lift x) := .of fun s => by cases x <;> simp [Act.lift, Act.pure, Act.panic]
theorem store_ne {α : Type} (fates : List Fate) (p : Op α) (s : State) : (Act.store fates p s).1 ≠ .stuck := by unfold Act.store; split <;> simp
theorem Holds.store {α : Type} (fates : List Fate) (p : Op α) : Holds (Act.store fates p) := .of (store_ne fates p)
theorem Holds.ite {α : Type} {c : Prop} [Decidable c] {p q : Act α} (hp : Holds p) (hq : Holds q) : Holds (if c then p else q) := by split <;> assumption
theorem Holds.bind {α β : Type} {p : Act α} {k : α → Act β} (hp : Holds p) (hk : ∀ a, Holds (k a)) : Holds (p >>= k) := by
  intro s
  rw [bind_apply]
  have := hp s
  generalize p s = x at this
  obtain ⟨o, s'⟩ := x
  cases o with
  | ok a => exact hk a s'
  | stuck => exact fun _ => this rfl
  | _ => intro h; cases h
theorem Holds.lock : Holds Act.lock := fun s => by
  unfold Act.lock
  cases h : s.locked with
  | true => exact fun _ => h
  | false => intro h; cases h
theorem Holds.locked {α : Type} {p : Act α} (h : ∀ s, s.locked = true → (p s).1 = .stuck → (p s).2.locked = true) : Holds (Act.locked p) := by
  intro s
  rw [locked_apply]
  split
  · rename_i hl; exact fun _ => hl
  · have := h { s with locked := true } rfl
    generalize p { s with locked := true } = x at this
    obtain ⟨o, s'⟩ := x
    cases o with
    | stuck => exact this
    | _ => intro h; cases h

theorem Holds.send (ok : Bool) (m : Message) : Holds (send ok r m) :=
  .bind (.getConn r) fun _ => .ite (.fail _) (.ite (.setConn _) (.fail _))
theorem Holds.interest (ok : Bool) : Holds (interest ok r) :=
  .bind (.getConn r) fun _ => .ite (.bind (.setConn _) fun _ => .send ok _) (.pure _)
theorem Holds.QueuePeer : Holds (QueuePeer r) := by
  refine .locked fun s hl => ?_
  unfold P2P.queuePeer
  rw [bind_apply, getConn_apply]
  cases hc : s.peers[r]? with
  | none => intro h; cases h
  | some c =>
    simp only []
    split
    · intro h; cases h
    · rw [bind_apply, get_apply]
      simp only []
      split
      · intro h; cases h
      · rw [bind_apply, modify_apply]
        simp only []
        split
        · exact fun _ => hl
        · intro h; cases h
theorem Holds.handleHave (ok : Bool) (i : Int) : Holds (handleHave ok r i) :=
  .bind (.getConn r) fun _ => .bind (.lift _) fun _ => .bind (.setConn _) fun _ => .bind (.locked fun s _ h => by cases h) fun _ =>
    .bind .torrentBitfield fun _ => .bind (.lift _) fun _ => .ite (.bind .QueuePeer fun _ => .interest ok) (.pure _)
theorem Holds.handleItems (ok : Bool) : ∀ is : List Nat, Holds (handleItems ok r is)
  | [] => .pure _
  | i :: is => .bind (.handleHave ok i) fun _ => Holds.handleItems ok is
theorem Holds.handleMessage (fates : List Fate) (ok : Bool) (m : Message) : Holds (handleMessage fates ok cfg r m) := by
  unfold P2P.handleMessage
  refine .ite (.setConn _) (.ite (.bind (.setConn _) fun _ => .QueuePeer) (.ite (.setConn _) (.ite (.setConn _) (.ite ?_ (.ite ?_ (.ite ?_ (.ite ?_ (.ite ?_ (.pure _)))))))))
  · exact .bind (.lift _) fun _ => .handleHave ok _
  · exact .bind (.lift _) fun _ => .handleItems ok _
  · refine .bind (.lift _) fun _ => .bind (.lift _) fun _ => .bind (.lift _) fun _ => ?_
    unfold handleRequest
    exact .bind (.getConn r) fun _ => .ite (.fail _) (.ite (.setConn _) (.bind (.store _ _) fun _ => .bind (.send ok _) fun _ => .bind (.setConn _) fun _ => .modify _))
  · exact .bind (.lift _) fun _ => .bind (.lift _) fun _ => .bind (.lift _) fun _ => .setConn _
  · refine .bind (.lift _) fun _ => .bind (.lift _) fun _ => .bind (.lift _) fun d => .of fun s => ?_
    unfold handlePiece
    split
    · simp [bind_apply, Act.bind]
    · split <;> simp
    · simp
    · simp
    · rename_i h
      have := congrArg (fun x => x.1) h
      exact absurd this (store_ne _ _ _)
theorem Holds.handshake (ok : Bool) (rd : Rd) : Holds (handshake ok cfg r rd) := by
  refine .bind (.getConn r) fun _ => .ite (.fail _) (.bind (.lift _) fun x => ?_)
  obtain ⟨phs, rd'⟩ := x
  exact .bind (.setConn _) fun _ => .ite (.fail _) (.ite (.fail _) (.bind (.setConn _) fun _ => .ite (.fail _) (.pure _)))
theorem Holds.connectCheck : Holds (connectCheck r) := by
  unfold P2P.connectCheck
  refine .bind .lock fun _ => .bind .get fun s => .bind (.getConn r) fun c => .ite (.fail _) ?_
  cases mget s.knownIDIPs c.addr with
  | none => exact .modify _
  | some idip => exact .ite (.fail _) (.modify _)
theorem Holds.inside {α : Type} {p : Act α} (h : Holds p) : Holds (Act.locked p) := .locked fun s _ hs => h s hs
theorem Holds.connectRegister (ok : Bool) : Holds (connectRegister ok r) := by
  unfold P2P.connectRegister
  exact .inside (.bind .get fun _ => .bind (.getConn r) fun _ => .ite (.fail _) (.bind (.modify _) fun _ => .ite (.fail _)
    (.bind (.modify _) fun _ => .bind (.setConn _) fun _ => .bind .torrentBitfield fun _ => .send ok _)))
theorem Holds.Disconnect : Holds (Disconnect r) :=
  .inside (.bind (.getConn r) fun _ => .bind (.modify _) fun _ => .setConn _)

/-- Goroutines of connections are blocked only if the lock is held. -/
def HungLocked (s : State) : Prop := s.alive = true → ∀ (x : Ref) (c : Conn), s.peers[x]? = some c → c.phase = .hung → s.locked = true

theorem hung_next {x : Outcome Unit × State} {p : Act Unit} {s : State} (hp : Holds p) (hx : x = p s) {o : Outcome Unit} {s' : State} {ok err : Phase} (hok : ok ≠ .hung) (herr : err ≠ .hung)
    (h : some (next r ok err x) = some (o, s')) (ho : o ≠ .panic ∧ o ≠ .crash) {c : Conn} (hc : s'.peers[r]? = some c) (hh : c.phase = .hung) : s'.locked = true := by
  injection h with h
  unfold P2P.next at h
  injection h with h1 h2
  rw [← h2] at hc ⊢
  simp only at hc ⊢
  have : x.1 = .stuck := by
    cases hd : x.2.peers[r]? with
    | none => rw [modify_none hd, hd] at hc; cases hc
    | some d =>
      rw [modify_self hd] at hc
      injection hc with hc; subst hc
      simp only at hh
      rw [h1] at hh ⊢
      cases o with
      | ok a => exact absurd hh hok
      | err e => exact absurd hh herr
      | panic => exact absurd rfl ho.1
      | crash => exact absurd rfl ho.2
      | stuck => rfl
  rw [hx] at this ⊢
  exact hp s this

theorem HungLocked.step {s : State} (hi : Inv cfg s) (hs : HungLocked s) (e : Event × Luck) : HungLocked (P2P.step cfg s e) := by
  intro hal' x c' hc' hh
  rcases step_alive (cfg := cfg) s e with h | ⟨hal, o, s', hact, h⟩
  · rw [h] at hal' hc' ⊢; exact hs hal' x c' hc' hh
  have hsm := step_small (cfg := cfg) e hi.pendOK
  obtain ⟨e, l⟩ := e
  rcases h with ⟨_, h⟩ | ⟨ho, h⟩
  · rw [h] at hal'; cases hal'
  rw [h] at hc' hsm ⊢
  have hfz := frozen_act hact
  cases hc : s.peers[x]? with
  | none =>
    have := (fresh_step hi hal (e, l) hc (by rw [h]; exact hc')).1
    rw [this] at hh; cases hh
  | some c =>
    by_cases hph : c.phase = .hung
    · exact (hfz.keep (hs hal x c hc hph)).1
    by_cases hmp : (mayOf cfg s e).phase x
    · rcases hmp with h | ⟨rd, h⟩ | h | ⟨rd, h⟩ | h | h | h <;> subst h <;> simp only [act] at hact
      · split at hact
        · exact hung_next .connectCheck rfl (by simp) (by simp) hact ho hc' hh
        · cases hact
      · split at hact
        · exact hung_next (.handshake _ _) rfl (by simp) (by simp) hact ho hc' hh
        · cases hact
      · split at hact
        · exact hung_next (.connectRegister _) rfl (by simp) (by simp) hact ho hc' hh
        · cases hact
      · rw [hc] at hact
        simp only at hact
        split at hact
        · split at hact
          · injection hact with hact; injection hact with h1 h2
            rw [← h2] at hc'
            simp only [modify_self hc] at hc'
            injection hc' with hc'; subst hc'; cases hh
          · exact hung_next (p := fun s => (.err _, s)) (.of fun s => by simp) rfl (by simp) (by simp) hact ho hc' hh
          · injection hact with hact; injection hact with h1 h2; exact absurd h1.symm ho.1
        · cases hact
      · split at hact
        · exact hung_next (.handleMessage _ _ _) rfl (by simp) (by simp) hact ho hc' hh
        · cases hact
      · split at hact
        · exact hung_next (p := fun s => (.ok (), s)) (.of fun s => by simp) rfl (by simp) (by simp) hact ho hc' hh
        · cases hact
      · split at hact
        · exact hung_next .Disconnect rfl (by simp) (by simp) hact ho hc' hh
        · cases hact
    · obtain ⟨d, h1, h2⟩ := hsm.frame (mayOf_good hi e) hc
      rw [hc'] at h1; injection h1 with h1; subst h1
      rw [(h2.phase hmp).1] at hh; exact absurd hh hph

theorem hung_run (w : World) (es : List (Event × Luck)) : HungLocked (run cfg (init w) es) :=
  (run_rec (cfg := cfg) (P := fun _ s => Inv cfg s ∧ HungLocked s) (init w) ⟨.init w, fun _ x c h => by cases h⟩ (fun _ e ih => ⟨ih.1.step e, ih.2.step ih.1 e⟩) es).2

/-! ### How many -/

/-- The connections that are open (their goroutine has not ended) and whose peer has the piece. -/
def holders (s : State) (i : Nat) : List Ref :=
  (List.range s.peers.length).filter fun x => match s.peers[x]? with
    | some c => decide (c.phase ≠ .ended) && Bitfield.bit c.bitfield i
    | none => false

theorem mem_holders {s : State} {i : Nat} {x : Ref} : x ∈ holders s i ↔ ∃ c, s.peers[x]? = some c ∧ c.phase ≠ .ended ∧ Bitfield.bit c.bitfield i = true := by
  unfold holders
  rw [List.mem_filter, List.mem_range]
  cases h : s.peers[x]? with
  | none => simp
  | some c =>
    have := (List.getElem?_eq_some_iff.1 h).1
    simp [this]

theorem available_run (w : World) (es : List (Event × Luck)) (hq : Quiet es) (ha : (run cfg (init w) es).alive = true) (hl : (run cfg (init w) es).locked = false) (i : Nat) :
    available (run cfg (init w) es).indexToPeers i = (holders (run cfg (init w) es) i).length := by
  have hi := inv_run (cfg := cfg) w es
  have ht := tab_run (cfg := cfg) w es hq
  have hh := hung_run (cfg := cfg) w es ha
  generalize run cfg (init w) es = s at *
  refine List.Perm.length_eq ((List.perm_ext_iff_of_nodup (ht.nodup i) (List.Nodup.sublist List.filter_sublist List.nodup_range)).2 fun x => ?_)
  show x ∈ tab s i ↔ x ∈ holders s i
  rw [mem_holders]
  constructor
  · intro hx
    obtain ⟨c, hc, hu⟩ := ht.up i x hx
    refine ⟨c, hc, fun he => ?_, ?_⟩
    · rcases hu with (⟨p, hu⟩ | hu) | hu <;> (rw [he] at hu; cases hu)
    · unfold tab at hx
      cases hm : mget s.indexToPeers (i : Int) with
      | none => rw [hm] at hx; cases hx
      | some ps =>
        rw [hm] at hx
        obtain ⟨n, d, h2, h3, h4⟩ := hi.holders i ps x hm hx
        rw [hc] at h3; injection h3 with h3; subst h3
        have : i = n := by omega
        subst this; exact h4
  · rintro ⟨c, hc, h1, h2⟩
    exact ht.full ha x c i hc h1 (fun h => by rw [hh x c hc h] at hl; cases hl) h2

end Drip.P2P
