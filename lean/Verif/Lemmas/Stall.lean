import Verif.Model.Stall
/-
The discipline that the goroutines of Stall.lean keep: who holds what while doing which operation.
-/

namespace Drip.Stall
open Op

/-- The lock that protects a variable: that of the server (`none`) or that of a connection; for some there is none. -/
def guard : Var → Option (Option Ref)
  | .inflight => none
  | .bits _ => none
  | .have => none
  | .requests r => some (some r)
  | .canceled r => some (some r)
  | _ => some none

/-- The variable may be used by somebody who holds `p2p.mu` (`m`) and the lock of a connection (`p`). -/
def May (v : Var) (m : Bool) (p : Option Ref) : Prop :=
  match guard v with
  | none => True
  | some none => m = true
  | some (some r) => p = some r

/-- The operations left to a goroutine, when it holds `p2p.mu` (`m`) and the lock of a connection (`p`): `p2p.mu` first; under the lock of a
connection only writes to it; connections are closed under `p2p.mu`; at the end nothing is
held, except that `p2p.mu` may be if `x`. -/
def Ok (x : Prop) : Bool → Option Ref → List Op → Prop
  | m, p, [] => (m = true → x) ∧ p = none
  | m, p, .lock :: l => m = false ∧ p = none ∧ Ok x true none l
  | m, p, .unlock :: l => m = true ∧ p = none ∧ Ok x false none l
  | m, p, .lockPeer r :: l => p = none ∧ Ok x m (some r) l
  | m, p, .unlockPeer r :: l => p = some r ∧ Ok x m none l
  | m, p, .write r :: l => (p = none ∨ p = some r) ∧ Ok x m p l
  | m, p, .close _ :: l => m = true ∧ p = none ∧ Ok x m none l
  | m, p, .queue :: l => p = none ∧ Ok x m none l
  | m, p, .pause :: l => p = none ∧ Ok x m none l
  | m, p, .rd v :: l => May v m p ∧ Ok x m p l
  | m, p, .wr v :: l => May v m p ∧ Ok x m p l

/-- The code can be put before anything. -/
def Fits (m m' : Bool) (A : Code) : Prop := ∀ x a rest, A a → Ok x m' none rest → Ok x m none (a ++ rest)

theorem Fits.just {m m' : Bool} {l : List Op} (h : ∀ x rest, Ok x m' none rest → Ok x m none (l ++ rest)) : Fits m m' (just l) := by
  rintro x a rest rfl; exact h x rest

theorem Fits.seq {m m' m'' : Bool} {A B : Code} (h1 : Fits m m' A) (h2 : Fits m' m'' B) : Fits m m'' (A ;; B) := by
  rintro x _ rest ⟨a, b, ha, hb, rfl⟩ h
  rw [List.append_assoc]
  exact h1 x _ _ ha (h2 x _ _ hb h)

theorem Fits.alt {m m' : Bool} {A B : Code} (h1 : Fits m m' A) (h2 : Fits m m' B) : Fits m m' (A <||> B) := by
  rintro x a rest (h | h)
  · exact h1 x _ _ h
  · exact h2 x _ _ h

theorem Fits.opt {m : Bool} {A : Code} (h : Fits m m A) : Fits m m (opt A) :=
  Fits.alt (Fits.just fun _ _ => id) h

theorem Fits.many {m : Bool} {A : Code} (h : Fits m m A) : Fits m m (many A) := by
  intro x a rest ha hr
  induction ha with
  | nil => exact hr
  | cons h1 _ ih => rw [List.append_assoc]; exact h x _ _ h1 ih

theorem fits_send (m : Bool) (r : Ref) : Fits m m (send r) :=
  Fits.alt (Fits.just fun _ _ hr => ⟨rfl, .inr rfl, rfl, hr⟩) (Fits.just fun _ _ hr => ⟨rfl, rfl, hr⟩)

/-- Closes a goal about a list of operations. -/
macro "fits" : tactic => `(tactic| (intro _ _ h; simp [Ok, May, guard, h]))

theorem fits_lock : Fits false true (just [lock]) := Fits.just (by fits)
theorem fits_unlock : Fits true false (just [unlock]) := Fits.just (by fits)
theorem fits_pause (m : Bool) : Fits m m (just [pause]) := Fits.just (by fits)
theorem fits_nil (m : Bool) : Fits m m (just []) := Fits.just (by fits)

theorem fits_QueuePeer : Fits false false QueuePeer :=
  fits_lock.seq (((fits_nil _).alt ((Fits.just (by fits)).alt (Fits.just (by fits)))).seq fits_unlock)

theorem fits_handleHave (r : Ref) : Fits false false (handleHave r) :=
  (Fits.just (by fits)).seq (Fits.opt (fits_QueuePeer.seq (Fits.opt (fits_send _ r))))

theorem fits_handleMessage (r : Ref) : Fits false false (handleMessage r) :=
  (fits_nil _).alt (fits_QueuePeer.alt ((Fits.many (fits_handleHave r)).alt (((Fits.just (by fits)).seq (Fits.opt (fits_send _ r))).alt
    ((Fits.just (by fits)).alt (Fits.just (by fits))))))

theorem fits_receive (r : Ref) : Fits false false (receive r) := (fits_pause _).seq (Fits.opt (Fits.just (by fits)))

theorem fits_disconnect (r : Ref) : Fits true true (disconnect r) := (Fits.just (by fits)).seq (Fits.opt (Fits.just (by fits)))

theorem fits_Disconnect (r : Ref) : Fits false false (Disconnect r) := fits_lock.seq ((fits_disconnect r).seq fits_unlock)

theorem fits_connectRest (r : Ref) : Fits false false (connectRest r) :=
  (fits_pause _).alt ((Fits.just (by fits)).alt
    ((Fits.just (m' := true) (by fits)).seq ((Fits.just (by fits)).alt ((Fits.just (m' := true) (by fits)).seq ((fits_send _ r).seq fits_unlock)))))

theorem fits_serve (r : Ref) : Fits false false (serve False r) :=
  Fits.alt (fun _ _ _ h => absurd h.1 id) ((Fits.just (m' := true) (by fits)).seq ((Fits.opt (Fits.just (by fits))).seq (fits_unlock.seq ((fits_connectRest r).seq
    (Fits.opt ((Fits.many ((fits_receive r).seq (fits_handleMessage r))).seq ((Fits.opt (fits_receive r)).seq (fits_Disconnect r))))))))

theorem fits_code (ro : Role) : Fits false false (code False ro) := by
  cases ro with
  | peer r => exact (Fits.opt (Fits.just (by fits))).seq ((fits_nil _).alt (fits_serve r))
  | select r =>
    exact fits_lock.seq (((Fits.just (m' := true) (by fits)).alt ((Fits.just (m' := true) (by fits)).seq (((Fits.just (by fits)).seq (Fits.opt (fits_send _ r))).alt
      ((Fits.just (by fits)).alt (Fits.just (by fits)))))).seq fits_unlock)
  | download r =>
    refine (fits_pause _).seq ((Fits.opt (Fits.alt ((Fits.just (by fits)).seq (Fits.many ?_)) ?_)).seq (Fits.just (by fits)))
    · rintro x a rest ⟨q, hq⟩ h
      exact fits_send _ q x a rest hq h
    · exact (Fits.just (m' := true) (by fits)).seq ((fits_disconnect r).seq fits_unlock)
  | block r => exact (fits_nil _).alt ((Fits.just (m' := false) (by fits)).seq ((fits_send _ r).seq ((Fits.opt (fits_pause _)).seq (Fits.just (by fits)))))
  | unchoke r => exact Fits.opt (fits_send _ r)
  | timer => exact (fits_pause _).seq (Fits.opt (Fits.just (by fits)))
  | announce =>
    exact (fits_pause _).seq (Fits.many ((Fits.just (by fits)).alt ((Fits.just (by fits)).alt ((Fits.just (by fits)).alt (Fits.just (by fits))))))
  | unchokeAll => exact Fits.just (by fits)
  | stop =>
    refine (Fits.just (by fits)).alt ((Fits.just (m' := true) (by fits)).seq ((Fits.many ?_).seq fits_unlock))
    rintro x a rest ⟨q, hq⟩ h
    exact fits_disconnect q x a rest hq h

theorem code_ok {x : Prop} {ro : Role} {p : List Op} (h : code x ro p) : Ok x false none p := by
  have hend : Ok x false none [] := ⟨by simp, rfl⟩
  have hf : code False ro p → Ok x false none p := fun h => by simpa using fits_code ro x p [] h hend
  by_cases hr : ∃ r, ro = .peer r
  · obtain ⟨r, rfl⟩ := hr
    obtain ⟨a, b, ha, hb, rfl⟩ := h
    refine (Fits.opt (Fits.just (by fits)) : Fits false false (opt (just [lock, rd Var.blocked, unlock, pause]))) x a b ha ?_
    rcases hb with hb | hb
    · cases hb; exact hend
    · rcases hb with ⟨hx, rfl | rfl⟩ | hb
      · simp [Ok, May, guard, hx]
      · simp [Ok, May, guard, hx]
      · simpa using fits_serve r x b [] (.inr hb) hend
  · apply hf
    cases ro <;> first | exact h | exact absurd ⟨_, rfl⟩ hr

/-! ### Which connections a goroutine uses -/

/-- Operations that can wait for a connection. -/
def Op.on : Op → Option Ref
  | .lockPeer r => some r
  | .unlockPeer r => some r
  | .write r => some r
  | _ => none

/-- Only operations on these connections. -/
def Within (P : Ref → Prop) (A : Code) : Prop := ∀ a, A a → ∀ op ∈ a, ∀ r, op.on = some r → P r

theorem Within.just {P : Ref → Prop} {l : List Op} (h : ∀ op ∈ l, ∀ r, op.on = some r → P r) : Within P (just l) := by
  rintro a rfl; exact h

theorem Within.seq {P : Ref → Prop} {A B : Code} (h1 : Within P A) (h2 : Within P B) : Within P (A ;; B) := by
  rintro _ ⟨a, b, ha, hb, rfl⟩ op h
  rcases List.mem_append.mp h with h | h
  · exact h1 _ ha _ h
  · exact h2 _ hb _ h

theorem Within.alt {P : Ref → Prop} {A B : Code} (h1 : Within P A) (h2 : Within P B) : Within P (A <||> B) := by
  rintro a (h | h)
  · exact h1 _ h
  · exact h2 _ h

theorem Within.opt {P : Ref → Prop} {A : Code} (h : Within P A) : Within P (opt A) :=
  Within.alt (Within.just (by simp)) h

theorem Within.many {P : Ref → Prop} {A : Code} (h : Within P A) : Within P (many A) := by
  intro a ha
  induction ha with
  | nil => simp
  | cons h1 _ ih =>
    intro op hm
    rcases List.mem_append.mp hm with hm | hm
    · exact h _ h1 _ hm
    · exact ih _ hm

/-- The connection of a goroutine. -/
def Role.conn : Role → Option Ref
  | .peer r => some r
  | .select r => some r
  | .download r => some r
  | .block r => some r
  | .unchoke r => some r
  | _ => none

/-- Closes a goal about the connections of a list of operations. -/
macro "within" : tactic => `(tactic| simp [Op.on])

theorem within_send (r : Ref) : Within (· = r) (send r) := Within.alt (Within.just (by within)) (Within.just (by within))

theorem within_QueuePeer (P : Ref → Prop) : Within P QueuePeer :=
  (Within.just (by within)).seq (((Within.just (by within)).alt ((Within.just (by within)).alt (Within.just (by within)))).seq (Within.just (by within)))

theorem within_handleHave (r : Ref) : Within (· = r) (handleHave r) :=
  (Within.just (by within)).seq (Within.opt ((within_QueuePeer _).seq (Within.opt (within_send r))))

theorem within_handleMessage (r : Ref) : Within (· = r) (handleMessage r) :=
  (Within.just (by within)).alt ((within_QueuePeer _).alt ((Within.many (within_handleHave r)).alt
    (((Within.just (by within)).seq (Within.opt (within_send r))).alt ((Within.just (by within)).alt (Within.just (by within))))))

theorem within_receive (r : Ref) : Within (· = r) (receive r) := (Within.just (by within)).seq (Within.opt (Within.just (by within)))

theorem within_disconnect (P : Ref → Prop) (r : Ref) : Within P (disconnect r) := (Within.just (by within)).seq (Within.opt (Within.just (by within)))

theorem within_Disconnect (P : Ref → Prop) (r : Ref) : Within P (Disconnect r) :=
  (Within.just (by within)).seq ((within_disconnect P r).seq (Within.just (by within)))

theorem within_serve (x : Prop) (r : Ref) : Within (· = r) (serve x r) := by
  refine Within.alt ?_ ((Within.just (by within)).seq ((Within.opt (Within.just (by within))).seq ((Within.just (by within)).seq (Within.seq ?_
    (Within.opt ((Within.many ((within_receive r).seq (within_handleMessage r))).seq ((Within.opt (within_receive r)).seq (within_Disconnect _ r))))))))
  · rintro a ⟨_, rfl | rfl⟩ <;> within
  · exact (Within.just (by within)).alt ((Within.just (by within)).alt ((Within.just (by within)).seq
      ((Within.just (by within)).alt ((Within.just (by within)).seq ((within_send r).seq (Within.just (by within)))))))

/-- A goroutine uses its own connection; only telling others that a piece is complete uses other connections. -/
theorem within_code (x : Prop) (ro : Role) (h : ∀ q, ro ≠ .download q) : Within (fun r => ro.conn = some r) (code x ro) := by
  have e : ∀ {r : Ref} {A : Code}, Within (· = r) A → Within (fun q => some r = some q) A := fun hA a ha op hm q hq => by rw [hA a ha op hm q hq]
  cases ro with
  | peer r => exact e ((Within.opt (Within.just (by within))).seq ((Within.just (by within)).alt (within_serve x r)))
  | select r =>
    exact e ((Within.just (by within)).seq (((Within.just (by within)).alt ((Within.just (by within)).seq (((Within.just (by within)).seq (Within.opt (within_send r))).alt
      ((Within.just (by within)).alt (Within.just (by within)))))).seq (Within.just (by within))))
  | download r => exact absurd rfl (h r)
  | block r =>
    exact e ((Within.just (by within)).alt ((Within.just (by within)).seq ((within_send r).seq ((Within.opt (Within.just (by within))).seq (Within.just (by within))))))
  | unchoke r => exact e (Within.opt (within_send r))
  | timer => exact (Within.just (by within)).seq (Within.opt (Within.just (by within)))
  | announce =>
    exact (Within.just (by within)).seq (Within.many ((Within.just (by within)).alt ((Within.just (by within)).alt ((Within.just (by within)).alt (Within.just (by within))))))
  | unchokeAll => exact Within.just (by within)
  | stop =>
    refine (Within.just (by within)).alt ((Within.just (by within)).seq ((Within.many ?_).seq (Within.just (by within))))
    rintro a ⟨q, hq⟩; exact within_disconnect _ q a hq

/-! ### The invariant -/

/-- Every goroutine keeps the discipline. -/
structure Inv (x : Prop) (s : St) : Prop where
  ok : ∀ (k : Nat) (th : Th), s.ths[k]? = some th → ∃ p, (∀ r, s.pm r = some k ↔ p = some r) ∧ Ok x (decide (s.mu = some k)) p th.prog
  conn : ∀ (k : Nat) (th : Th), s.ths[k]? = some th → (∀ q, th.role ≠ .download q) → ∀ op ∈ th.prog, ∀ r, op.on = some r → th.role.conn = some r
  mu : ∀ k, s.mu = some k → k < s.ths.length
  pm : ∀ r k, s.pm r = some k → k < s.ths.length

theorem upd_same {α : Type} (f : Ref → α) (r : Ref) (a : α) : upd f r a r = a := if_pos rfl
theorem upd_ne {α : Type} (f : Ref → α) {r q : Ref} (a : α) (h : q ≠ r) : upd f r a q = f q := if_neg h

theorem Inv.run {x : Prop} {s s' : St} (hi : Inv x s) (h : Run s s') : Inv x s' := by
  obtain ⟨hk, he⟩ := h
  rename_i s1 k ro op rest
  have hlen : k < s.ths.length := by
    rcases Nat.lt_or_ge k s.ths.length with h | h
    · exact h
    · rw [List.getElem?_eq_none h] at hk; cases hk
  obtain ⟨p, hp, hok⟩ := hi.ok k _ hk
  simp only at hok
  have hset : ∀ (j : Nat) (th : Th), (s.ths.set k ⟨ro, rest⟩)[j]? = some th → (j = k ∧ th = ⟨ro, rest⟩) ∨ (j ≠ k ∧ s.ths[j]? = some th) := by
    intro j th h
    by_cases hj : k = j
    · subst hj; rw [List.getElem?_set_self hlen] at h; exact .inl ⟨rfl, by simpa using h.symm⟩
    · rw [List.getElem?_set_ne hj] at h; exact .inr ⟨fun e => hj e.symm, h⟩
  have hconn : ∀ (j : Nat) (th : Th), (s.ths.set k ⟨ro, rest⟩)[j]? = some th → (∀ q, th.role ≠ .download q) → ∀ op ∈ th.prog, ∀ r, op.on = some r → th.role.conn = some r := by
    intro j th h hd o ho
    rcases hset j th h with ⟨rfl, rfl⟩ | ⟨_, h⟩
    · exact hi.conn _ _ hk hd o (List.mem_cons_of_mem _ ho)
    · exact hi.conn _ _ h hd o ho
  -- the locks of the others do not change, and ours are `p'`
  have key : ∀ (s1 : St) (p' : Option Ref), (∀ r, s1.pm r = some k ↔ p' = some r) → Ok x (decide (s1.mu = some k)) p' rest →
      (∀ j, j ≠ k → (s1.mu = some j ↔ s.mu = some j) ∧ ∀ r, s1.pm r = some j ↔ s.pm r = some j) →
      Inv x { s1 with ths := s.ths.set k ⟨ro, rest⟩ } := by
    intro s1 p' h1 h2 h3
    refine ⟨fun j th h => ?_, hconn, fun j h => ?_, fun r j h => ?_⟩
    · rcases hset j th h with ⟨rfl, rfl⟩ | ⟨hj, h⟩
      · exact ⟨p', h1, h2⟩
      · obtain ⟨q, hq, ho⟩ := hi.ok j th h
        refine ⟨q, fun r => by rw [← hq r]; exact (h3 j hj).2 r, ?_⟩
        have : (decide (s1.mu = some j)) = decide (s.mu = some j) := by simp [(h3 j hj).1]
        simp only [this]; exact ho
    · simp only [List.length_set]
      by_cases hj : j = k
      · rw [hj]; exact hlen
      · exact hi.mu j ((h3 j hj).1.mp h)
    · simp only [List.length_set]
      by_cases hj : j = k
      · rw [hj]; exact hlen
      · exact hi.pm r j (((h3 j hj).2 r).mp h)
  cases he with
  | lock hm =>
    obtain ⟨_, rfl, ho⟩ := hok
    exact key { s with mu := some k } none hp (by simpa using ho) fun j hj => ⟨by simp [hm, Ne.symm hj], fun _ => Iff.rfl⟩
  | unlock hm =>
    obtain ⟨_, rfl, ho⟩ := hok
    exact key { s with mu := none } none hp (by simpa using ho) fun j hj => ⟨by simp [hm, Ne.symm hj], fun _ => Iff.rfl⟩
  | @lockPeer _ r hm =>
    obtain ⟨rfl, ho⟩ := hok
    refine key { s with pm := upd s.pm r (some k) } (some r) (fun q => ?_) ho fun j hj => ⟨Iff.rfl, fun q => ?_⟩
    · by_cases hq : q = r
      · subst hq; simp [upd_same]
      · simp only [upd_ne _ _ hq]; rw [hp q]
        exact ⟨fun h => (by cases h), fun h => absurd (Option.some.inj h).symm hq⟩
    · by_cases hq : q = r
      · subst hq; simp [upd_same, hm, Ne.symm hj]
      · simp only [upd_ne _ _ hq]
  | @unlockPeer _ r hm =>
    obtain ⟨rfl, ho⟩ := hok
    refine key { s with pm := upd s.pm r none } none (fun q => ?_) ho fun j hj => ⟨Iff.rfl, fun q => ?_⟩
    · by_cases hq : q = r
      · subst hq; simp [upd_same]
      · simp only [upd_ne _ _ hq]; rw [hp q]
        exact ⟨fun h => absurd (Option.some.inj h).symm hq, fun h => (by cases h)⟩
    · by_cases hq : q = r
      · subst hq; simp [upd_same, hm, Ne.symm hj]
      · simp only [upd_ne _ _ hq]
  | write _ => exact key s p hp hok.2 fun j hj => ⟨Iff.rfl, fun _ => Iff.rfl⟩
  | @close _ r =>
    obtain ⟨_, rfl, ho⟩ := hok
    exact key { s with closed := upd s.closed r true } none hp ho fun j hj => ⟨Iff.rfl, fun _ => Iff.rfl⟩
  | queue _ => obtain ⟨rfl, ho⟩ := hok; exact key s none hp ho fun j hj => ⟨Iff.rfl, fun _ => Iff.rfl⟩
  | pause => obtain ⟨rfl, ho⟩ := hok; exact key s none hp ho fun j hj => ⟨Iff.rfl, fun _ => Iff.rfl⟩
  | rd => exact key s p hp hok.2 fun j hj => ⟨Iff.rfl, fun _ => Iff.rfl⟩
  | wr => exact key s p hp hok.2 fun j hj => ⟨Iff.rfl, fun _ => Iff.rfl⟩

theorem Inv.step {x : Prop} {s s' : St} (hi : Inv x s) (h : Step x s s') : Inv x s' := by
  cases h with
  | run h => exact hi.run h
  | stall r b => exact ⟨hi.ok, hi.conn, hi.mu, hi.pm⟩
  | quit => exact ⟨hi.ok, hi.conn, hi.mu, hi.pm⟩
  | @start ro p hc =>
    have hget : ∀ (j : Nat) (th : Th), (s.ths ++ [⟨ro, p⟩])[j]? = some th → (j = s.ths.length ∧ th = ⟨ro, p⟩) ∨ (j < s.ths.length ∧ s.ths[j]? = some th) := by
      intro j th h
      rcases Nat.lt_trichotomy j s.ths.length with hj | hj | hj
      · rw [List.getElem?_append_left hj] at h; exact .inr ⟨hj, h⟩
      · subst hj; rw [List.getElem?_concat_length] at h; exact .inl ⟨rfl, by simpa using h.symm⟩
      · rw [List.getElem?_eq_none (by simp; omega)] at h; cases h
    refine ⟨fun j th h => ?_, fun j th h => ?_, fun j h => ?_, fun r j h => ?_⟩
    · rcases hget j th h with ⟨rfl, rfl⟩ | ⟨_, h⟩
      · have h1 : s.mu ≠ some s.ths.length := fun e => Nat.lt_irrefl _ (hi.mu _ e)
        refine ⟨none, fun r => ⟨fun e => absurd (hi.pm _ _ e) (Nat.lt_irrefl _), fun e => by cases e⟩, ?_⟩
        simpa [h1] using code_ok hc
      · exact hi.ok j th h
    · rcases hget j th h with ⟨rfl, rfl⟩ | ⟨_, h⟩
      · intro hd; exact within_code x ro hd p hc
      · exact hi.conn j th h
    · have := hi.mu j h; simp; omega
    · have := hi.pm r j h; simp; omega

theorem inv_reach {x : Prop} {s : St} (h : Reach x s) : Inv x s := by
  induction h with
  | refl => exact ⟨by simp, by simp, by simp, by simp⟩
  | tail _ h ih => exact ih.step h

/-! ### Runs given by a list of goroutines -/

/-- The next operation of goroutine `k`. -/
def exec (k : Nat) (s : St) : Op → Option St
  | .lock => if s.mu = none then some { s with mu := some k } else none
  | .unlock => if s.mu = some k then some { s with mu := none } else none
  | .lockPeer r => if s.pm r = none then some { s with pm := upd s.pm r (some k) } else none
  | .unlockPeer r => if s.pm r = some k then some { s with pm := upd s.pm r none } else none
  | .write r => if s.stalled r = false ∨ s.closed r = true then some s else none
  | .close r => some { s with closed := upd s.closed r true }
  | .queue => if s.receiving = true then some s else none
  | _ => some s

theorem exec_sound {k : Nat} {s s' : St} {op : Op} (h : exec k s op = some s') : Exec k op s s' := by
  cases op <;> simp only [exec, Option.ite_none_right_eq_some, Option.some.injEq] at h
  · obtain ⟨h, rfl⟩ := h; exact .lock h
  · obtain ⟨h, rfl⟩ := h; exact .unlock h
  · obtain ⟨h, rfl⟩ := h; exact .lockPeer h
  · obtain ⟨h, rfl⟩ := h; exact .unlockPeer h
  · obtain ⟨h, rfl⟩ := h; exact .write h
  · subst h; exact .close
  · obtain ⟨h, rfl⟩ := h; exact .queue h
  · subst h; exact .pause
  · subst h; exact .rd
  · subst h; exact .wr

/-- One operation of goroutine `k`. -/
def run1 (s : St) (k : Nat) : Option St :=
  match s.ths[k]? with
  | some ⟨ro, op :: rest⟩ => (exec k s op).map fun s' => { s' with ths := s.ths.set k ⟨ro, rest⟩ }
  | _ => none

theorem run1_sound {k : Nat} {s s' : St} (h : run1 s k = some s') : Run s s' := by
  unfold run1 at h
  split at h
  · rename_i ro op rest hk
    obtain ⟨s1, h1, rfl⟩ := Option.map_eq_some_iff.mp h
    exact .mk hk (exec_sound h1)
  · cases h

/-- Operations of these goroutines, one after the other. -/
def runs (s : St) (ks : List Nat) : Option St := ks.foldlM run1 s

theorem runs_sound {x : Prop} {ks : List Nat} : ∀ {s s' : St}, runs s ks = some s' → Relation.ReflTransGen (Step x) s s' := by
  induction ks with
  | nil => intro s s' h; cases h; exact .refl
  | cons k ks ih =>
    intro s s' h
    simp only [runs, List.foldlM_cons] at h
    obtain ⟨s1, h1, h2⟩ := Option.bind_eq_some_iff.mp h
    exact .head (.run (run1_sound h1)) (ih h2)

end Drip.Stall
