import Verif.Lemmas.Stall
/-
C117: peers that do not read what they are sent.
-/

namespace Drip.Stall
open Op

/-- How many operations are still to be done. -/
def total (s : St) : Nat := (s.ths.map fun t => t.prog.length).sum

theorem sum_set {l : List Th} {k : Nat} {ro : Role} {op : Op} {rest : List Op} (h : l[k]? = some ⟨ro, op :: rest⟩) :
    ((l.set k ⟨ro, rest⟩).map fun t => t.prog.length).sum < (l.map fun t => t.prog.length).sum := by
  induction l generalizing k with
  | nil => simp at h
  | cons a l ih =>
    cases k with
    | zero => simp at h; subst h; simp
    | succ k => simp at h; simpa using ih h

theorem total_run {s s' : St} (h : Run s s') : total s' < total s := by
  obtain ⟨hk, _⟩ := h
  exact sum_set hk

/-- Every connection is read, or closed, or one of these. -/
def Reading (B : Ref → Prop) (s : St) : Prop := ∀ r, ¬ B r → s.stalled r = false ∨ s.closed r = true

/-- A connection that is not in `B` and whose lock is held: its holder can go on. -/
theorem holder_runs {B : Ref → Prop} {s : St} (hi : Inv False s) (hread : Reading B s) {r : Ref} {k : Nat} (hB : ¬ B r) (h : s.pm r = some k) :
    ∃ ro op rest s1, s.ths[k]? = some ⟨ro, op :: rest⟩ ∧ Exec k op s s1 ∧ op ≠ .lock := by
  have hk := hi.pm r k h
  obtain ⟨p, hp, hok⟩ := hi.ok k s.ths[k] (List.getElem?_eq_getElem hk)
  have hpr := (hp r).mp h
  subst hpr
  rcases he : s.ths[k] with ⟨ro, prog⟩
  have hget : s.ths[k]? = some ⟨ro, prog⟩ := by rw [List.getElem?_eq_getElem hk, he]
  rw [he] at hok
  match prog, hok with
  | [], hok => cases hok.2
  | .lock :: _, hok => cases hok.2.1
  | .unlock :: _, hok => cases hok.2.1
  | .lockPeer _ :: _, hok => cases hok.1
  | .unlockPeer q :: _, hok => cases hok.1; exact ⟨_, _, _, _, hget, .unlockPeer h, by simp⟩
  | .write q :: _, hok =>
    rcases hok.1 with e | e <;> cases e
    exact ⟨_, _, _, _, hget, .write (hread _ hB), by simp⟩
  | .close _ :: _, hok => cases hok.2.1
  | .queue :: _, hok => cases hok.1
  | .pause :: _, hok => cases hok.1
  | .rd _ :: _, _ => exact ⟨_, _, _, _, hget, .rd, by simp⟩
  | .wr _ :: _, _ => exact ⟨_, _, _, _, hget, .wr, by simp⟩

/-- If no lock of a connection outside `B` is held, a goroutine can go on unless it waits for `p2p.mu` or for a connection in `B`. -/
theorem free_runs {B : Ref → Prop} {s : St} (hi : Inv False s) (hread : Reading B s) (hrec : s.receiving = true) (hfree : ∀ r, ¬ B r → s.pm r = none)
    {k : Nat} {ro : Role} {op : Op} {rest : List Op} (h : s.ths[k]? = some ⟨ro, op :: rest⟩) (hon : ∀ r, op.on = some r → ¬ B r)
    (hmu : s.mu = none ∨ s.mu = some k) : ∃ s1, Exec k op s s1 := by
  obtain ⟨p, hp, hok⟩ := hi.ok k _ h
  cases op with
  | lock =>
    have : s.mu = none := by
      rcases hmu with e | e
      · exact e
      · simpa [e] using hok.1
    exact ⟨_, .lock this⟩
  | unlock => exact ⟨_, .unlock (by simpa using hok.1)⟩
  | lockPeer r => exact ⟨_, .lockPeer (hfree r (hon r rfl))⟩
  | unlockPeer r => exact ⟨_, .unlockPeer ((hp r).mpr hok.1)⟩
  | write r => exact ⟨_, .write (hread r (hon r rfl))⟩
  | close r => exact ⟨_, .close⟩
  | queue => exact ⟨_, .queue hrec⟩
  | pause => exact ⟨_, .pause⟩
  | rd v => exact ⟨_, .rd⟩
  | wr v => exact ⟨_, .wr⟩

/-- **C117**, partial: as long as every peer reads what it is sent (or its connection is closed) and the queue is served, the goroutines never
block each other for ever. Missing: a peer that does not read (`C117_registered_refuted`, `C117_have_refuted`; `C117_others_partial`), and the
connections that `Connect` refuses at once, after which the lock is not released (C105). -/
theorem C117_progress_partial {s : St} (h : Reach False s) (hread : ∀ r, s.stalled r = false ∨ s.closed r = true) (hrec : s.receiving = true) :
    (∃ th ∈ s.ths, th.prog ≠ []) → ∃ s', Run s s' := by
  rintro ⟨th, hm, hne⟩
  have hi := inv_reach h
  obtain ⟨k, hk, he⟩ := List.getElem_of_mem hm
  by_cases hl : ∃ r j, s.pm r = some j
  · obtain ⟨r, j, hj⟩ := hl
    obtain ⟨_, _, _, _, h1, h2, _⟩ := holder_runs (B := fun _ => False) hi (fun r _ => hread r) id hj
    exact ⟨_, .mk h1 h2⟩
  · have hfree : ∀ r, ¬ False → s.pm r = none := fun r _ => by
      rcases hp : s.pm r with _ | j
      · rfl
      · exact absurd ⟨r, j, hp⟩ hl
    rcases hmu : s.mu with _ | j
    · rcases th with ⟨ro, _ | ⟨op, rest⟩⟩
      · exact absurd rfl hne
      · have hget : s.ths[k]? = some ⟨ro, op :: rest⟩ := by rw [List.getElem?_eq_getElem hk, he]
        obtain ⟨_, h2⟩ := free_runs hi (fun r _ => hread r) hrec hfree hget (fun _ _ => id) (.inl hmu)
        exact ⟨_, .mk hget h2⟩
    · have hj := hi.mu j hmu
      rcases he' : s.ths[j] with ⟨ro, _ | ⟨op, rest⟩⟩
      · obtain ⟨p, -, hok⟩ := hi.ok j _ (List.getElem?_eq_getElem hj)
        rw [he'] at hok
        simp [Ok, hmu] at hok
      · have hget : s.ths[j]? = some ⟨ro, op :: rest⟩ := by rw [List.getElem?_eq_getElem hj, he']
        obtain ⟨_, h2⟩ := free_runs hi (fun r _ => hread r) hrec hfree hget (fun _ _ => id) (.inr hmu)
        exact ⟨_, .mk hget h2⟩

/-- **C117**, partial: … and they cannot go on for ever either, unless new goroutines are started: each ends. -/
theorem C117_ends : WellFounded fun s' s : St => Run s s' :=
  Subrelation.wf (fun h => total_run h) (InvImage.wf total Nat.lt_wfRel.wf)

/-- The goroutine has nothing to do with these connections. -/
def Elsewhere (B : Ref → Prop) (th : Th) : Prop :=
  ∀ r, B r → th.role ≠ .peer r ∧ th.role ≠ .select r ∧ th.role ≠ .block r ∧ th.role ≠ .unchoke r ∧ th.role ≠ .download r ∧
    ((∃ q, th.role = .download q) → lockPeer r ∉ th.prog ∧ write r ∉ th.prog ∧ unlockPeer r ∉ th.prog)

/-- What is done until `p2p.mu` is released. -/
def critical (p : List Op) : List Op := p.takeWhile (· ≠ unlock)

/-- Nobody holds `p2p.mu` while using these connections. -/
def Clear (B : Ref → Prop) (s : St) : Prop :=
  ∀ k th, s.mu = some k → s.ths[k]? = some th → ∀ r, B r → lockPeer r ∉ critical th.prog ∧ write r ∉ critical th.prog ∧ unlockPeer r ∉ critical th.prog

theorem Elsewhere.on {x : Prop} {B : Ref → Prop} {s : St} (hi : Inv x s) {k : Nat} {th : Th} (hk : s.ths[k]? = some th) (he : Elsewhere B th) :
    ∀ op ∈ th.prog, ∀ r, op.on = some r → ¬ B r := by
  intro op hm r ho hB
  by_cases hd : ∃ q, th.role = .download q
  · obtain ⟨-, -, -, -, -, h⟩ := he r hB
    obtain ⟨h1, h2, h3⟩ := h hd
    cases op <;> simp only [Op.on, Option.some.injEq, reduceCtorEq] at ho <;> subst ho
    · exact h1 hm
    · exact h3 hm
    · exact h2 hm
  · obtain ⟨h1, h2, h3, h4, h5, -⟩ := he r hB
    have := hi.conn k th hk (fun q e => hd ⟨q, e⟩) op hm r ho
    rcases hr : th.role with q | q | q | q | q | _ | _ | _ | _ <;> simp only [hr, Role.conn, Option.some.injEq, reduceCtorEq] at this
    · exact h1 (by rw [hr, this])
    · exact h2 (by rw [hr, this])
    · exact h5 (by rw [hr, this])
    · exact h3 (by rw [hr, this])
    · exact h4 (by rw [hr, this])

theorem run_ths {s s' : St} (h : Run s s') {k : Nat} {th : Th} (hk : s.ths[k]? = some th) :
    ∃ th', s'.ths[k]? = some th' ∧ th'.role = th.role ∧ ∀ op ∈ th'.prog, op ∈ th.prog := by
  obtain ⟨hj, hx⟩ := h
  rename_i s1 j ro op rest
  have hlen : j < s.ths.length := by
    rcases Nat.lt_or_ge j s.ths.length with h | h
    · exact h
    · rw [List.getElem?_eq_none h] at hj; cases hj
  by_cases e : j = k
  · subst e
    rw [hk] at hj; cases hj
    exact ⟨⟨ro, rest⟩, by simp [hlen], rfl, fun o ho => List.mem_cons_of_mem _ ho⟩
  · exact ⟨th, by simp [List.getElem?_set_ne e, hk], rfl, fun _ => id⟩

theorem run_reading {B : Ref → Prop} {s s' : St} (h : Run s s') (hr : Reading B s) (hrec : s.receiving = true) : Reading B s' ∧ s'.receiving = true := by
  obtain ⟨_, he⟩ := h
  cases he <;> try exact ⟨hr, hrec⟩
  refine ⟨fun r hB => ?_, hrec⟩
  rcases hr r hB with h | h
  · exact .inl h
  · refine .inr ?_
    simp only [upd]; split
    · rfl
    · exact h

theorem elsewhere_run {B : Ref → Prop} {th th' : Th} (he : Elsewhere B th) (hr : th'.role = th.role) (hp : ∀ op ∈ th'.prog, op ∈ th.prog) :
    Elsewhere B th' := by
  intro r hB
  obtain ⟨h1, h2, h3, h4, h5, h6⟩ := he r hB
  rw [hr]
  exact ⟨h1, h2, h3, h4, h5, fun hd => ⟨fun h => (h6 hd).1 (hp _ h), fun h => (h6 hd).2.1 (hp _ h), fun h => (h6 hd).2.2 (hp _ h)⟩⟩

theorem clear_run {B : Ref → Prop} {s s1 : St} {k : Nat} {ro : Role} {op : Op} {rest : List Op} (hk : s.ths[k]? = some ⟨ro, op :: rest⟩) (he : Exec k op s s1)
    (hc : Clear B s) (hl : op = .lock → ∀ o ∈ rest, ∀ r, o.on = some r → ¬ B r) : Clear B { s1 with ths := s.ths.set k ⟨ro, rest⟩ } := by
  have hlen : k < s.ths.length := by
    rcases Nat.lt_or_ge k s.ths.length with h | h
    · exact h
    · rw [List.getElem?_eq_none h] at hk; cases hk
  intro j th hmu hj r hB
  simp only at hmu hj
  by_cases e : k = j
  · subst e
    rw [List.getElem?_set_self hlen] at hj
    cases hj
    have same : op ≠ .unlock → s.mu = some k → lockPeer r ∉ critical rest ∧ write r ∉ critical rest ∧ unlockPeer r ∉ critical rest := by
      intro h1 h2
      have := hc k _ h2 hk r hB
      simp only [critical, List.takeWhile_cons, decide_eq_true_eq, h1, ne_eq, not_false_iff, if_true, List.mem_cons, not_or] at this
      exact ⟨this.1.2, this.2.1.2, this.2.2.2⟩
    cases he with
    | lock _ =>
      have := hl rfl
      have sub : ∀ o, o ∈ critical rest → o ∈ rest := fun o ho => (List.takeWhile_sublist _).subset ho
      exact ⟨fun h => this _ (sub _ h) r rfl hB, fun h => this _ (sub _ h) r rfl hB, fun h => this _ (sub _ h) r rfl hB⟩
    | unlock _ => cases hmu
    | lockPeer _ => exact same (by simp) hmu
    | unlockPeer _ => exact same (by simp) hmu
    | write _ => exact same (by simp) hmu
    | close => exact same (by simp) hmu
    | queue _ => exact same (by simp) hmu
    | pause => exact same (by simp) hmu
    | rd => exact same (by simp) hmu
    | wr => exact same (by simp) hmu
  · rw [List.getElem?_set_ne e] at hj
    have : s.mu = some j := by
      cases he <;> first | exact hmu | (cases hmu; exact absurd rfl e) | cases hmu
    exact hc j th this hj r hB

/-- Some goroutine can go on such that afterwards `p2p.mu` is still not held by one that uses the connections `B`. -/
theorem next_run {B : Ref → Prop} {s : St} (hi : Inv False s) (hread : Reading B s) (hrec : s.receiving = true) (hc : Clear B s) {k : Nat} {th : Th}
    (hk : s.ths[k]? = some th) (hne : th.prog ≠ []) (he : Elsewhere B th) : ∃ s', Run s s' ∧ Clear B s' := by
  by_cases hl : ∃ r j, ¬ B r ∧ s.pm r = some j
  · obtain ⟨r, j, hB, hj⟩ := hl
    obtain ⟨_, _, _, _, h1, h2, h3⟩ := holder_runs hi hread hB hj
    exact ⟨_, .mk h1 h2, clear_run h1 h2 hc fun e => absurd e h3⟩
  · have hfree : ∀ r, ¬ B r → s.pm r = none := fun r hB => by
      rcases hp : s.pm r with _ | j
      · rfl
      · exact absurd ⟨r, j, hB, hp⟩ hl
    rcases hmu : s.mu with _ | j
    · have hon := he.on hi hk
      rcases th with ⟨ro, _ | ⟨op, rest⟩⟩
      · exact absurd rfl hne
      · obtain ⟨_, h2⟩ := free_runs hi hread hrec hfree hk (hon op List.mem_cons_self) (.inl hmu)
        exact ⟨_, .mk hk h2, clear_run hk h2 hc fun _ o ho => hon o (List.mem_cons_of_mem _ ho)⟩
    · have hj := hi.mu j hmu
      rcases he' : s.ths[j] with ⟨ro, _ | ⟨op, rest⟩⟩
      · obtain ⟨p, -, hok⟩ := hi.ok j _ (List.getElem?_eq_getElem hj)
        rw [he'] at hok
        simp [Ok, hmu] at hok
      · have hget : s.ths[j]? = some ⟨ro, op :: rest⟩ := by rw [List.getElem?_eq_getElem hj, he']
        obtain ⟨p, -, hok⟩ := hi.ok j _ hget
        have hm : decide (s.mu = some j) = true := by simp [hmu]
        rw [hm] at hok
        have hlock : op ≠ .lock := by rintro rfl; cases hok.1
        have hon : ∀ r, op.on = some r → ¬ B r := by
          intro r ho hB
          have := hc j _ hmu hget r hB
          cases op <;> simp only [Op.on, Option.some.injEq, reduceCtorEq] at ho <;> subst ho <;> simp [critical] at this
        obtain ⟨_, h2⟩ := free_runs hi hread hrec hfree hget hon (.inr hmu)
        exact ⟨_, .mk hget h2, clear_run hget h2 hc fun e => absurd e hlock⟩

theorem others_finish {B : Ref → Prop} {I : Nat → Prop} : ∀ (n : Nat) {s : St}, total s ≤ n → Inv False s → Reading B s → s.receiving = true → Clear B s →
    (∀ k th, I k → s.ths[k]? = some th → Elsewhere B th) →
    ∃ s', Relation.ReflTransGen Run s s' ∧ ∀ k th, I k → s.ths[k]? = some th → s'.ths[k]? = some ⟨th.role, []⟩ := by
  intro n
  induction n with
  | zero =>
    intro s hn hi hread hrec hc hI
    by_cases hall : ∃ k th, I k ∧ s.ths[k]? = some th ∧ th.prog ≠ []
    · obtain ⟨k, th, hk, hget, hne⟩ := hall
      obtain ⟨s', h, _⟩ := next_run hi hread hrec hc hget hne (hI k th hk hget)
      exact absurd (total_run h) (by omega)
    · refine ⟨s, .refl, fun k th hk hget => ?_⟩
      rcases th with ⟨ro, prog⟩
      have : prog = [] := Classical.byContradiction fun h => hall ⟨k, _, hk, hget, h⟩
      rw [hget, this]
  | succ n ih =>
    intro s hn hi hread hrec hc hI
    by_cases hall : ∃ k th, I k ∧ s.ths[k]? = some th ∧ th.prog ≠ []
    · obtain ⟨k, th, hk, hget, hne⟩ := hall
      obtain ⟨s1, h, hc1⟩ := next_run hi hread hrec hc hget hne (hI k th hk hget)
      obtain ⟨hr1, hrec1⟩ := run_reading h hread hrec
      have hlen : s1.ths.length = s.ths.length := by
        obtain ⟨_, he⟩ := h
        simp
      have hback : ∀ (j : Nat) (th1 : Th), s1.ths[j]? = some th1 → ∃ th0, s.ths[j]? = some th0 ∧ th1.role = th0.role ∧ ∀ op ∈ th1.prog, op ∈ th0.prog := by
        intro j th1 h1
        have hj : j < s.ths.length := by
          rcases Nat.lt_or_ge j s.ths.length with h | h
          · exact h
          · rw [List.getElem?_eq_none (by omega)] at h1; cases h1
        obtain ⟨th', h2, h3, h4⟩ := run_ths h (List.getElem?_eq_getElem hj)
        rw [h1] at h2; cases h2
        exact ⟨_, List.getElem?_eq_getElem hj, h3, h4⟩
      obtain ⟨s', h2, h3⟩ := ih (by have := total_run h; omega) (hi.run h) hr1 hrec1 hc1 fun j th1 hj h1 => by
        obtain ⟨th0, h0, hro, hp⟩ := hback j th1 h1
        exact elsewhere_run (hI j th0 hj h0) hro hp
      refine ⟨s', .head h h2, fun j th0 hj h0 => ?_⟩
      obtain ⟨th1, h1, hro, -⟩ := run_ths h h0
      rw [h3 j th1 hj h1, hro]
    · refine ⟨s, .refl, fun k th hk hget => ?_⟩
      rcases th with ⟨ro, prog⟩
      have : prog = [] := Classical.byContradiction fun h => hall ⟨k, _, hk, hget, h⟩
      rw [hget, this]

/-- **C117**, partial: however many peers (`B`) do not read what they are sent, if no goroutine holds `p2p.mu` while it uses their connections, then
all goroutines that have nothing to do with them can go on until they have finished. (What a download that does not write to them does
besides, see `C117_have_refuted`.) -/
theorem C117_others_partial {B : Ref → Prop} {s : St} (h : Reach False s) (hread : Reading B s) (hrec : s.receiving = true) (hc : Clear B s) :
    ∃ s', Relation.ReflTransGen Run s s' ∧ ∀ (k : Nat) (th : Th), s.ths[k]? = some th → Elsewhere B th → s'.ths[k]? = some ⟨th.role, []⟩ := by
  obtain ⟨s', h1, h2⟩ := others_finish (I := fun k => ∀ th, s.ths[k]? = some th → Elsewhere B th) (total s) (Nat.le_refl _) (inv_reach h) hread hrec hc
    fun k th hI hk => hI th hk
  exact ⟨s', h1, fun k th hk he => h2 k th (fun th' hk' => by rw [hk] at hk'; cases hk'; exact he) hk⟩

/-! ### Examples of goroutines -/

/-- Registration (server.go:270-306). -/
def registers (r : Ref) : List Op :=
  [lock, rd .active, rd .idips, unlock, pause, lock, rd .active, wr .addrs, wr .idips, wr .active, rd .have, lockPeer r, write r, unlockPeer r, unlock]

/-- The end (server.go:308-313). -/
def leaves (r : Ref) : List Op := [lock, rd (.bits r), wr .index, wr .idips, wr .addrs, wr .active, close r, unlock]

theorem opt_some {A : Code} {a : List Op} (h : A a) : opt A a := .inr h
theorem opt_none {A : Code} : opt A [] := .inl rfl
theorem seq_mk {A B : Code} {a b : List Op} (ha : A a) (hb : B b) : (A ;; B) (a ++ b) := ⟨a, b, ha, hb, rfl⟩
theorem many_one {A : Code} {a : List Op} (ha : A a) : many A a := by simpa using many.cons ha many.nil

/-- An accepted connection, one message, and the end. -/
theorem peer_code {r : Ref} {a b : List Op} (ha : receive r a) (hb : handleMessage r b) :
    code False (.peer r) (registers r ++ ((a ++ b) ++ ([pause] ++ leaves r))) := by
  refine ⟨[], _, opt_none, .inr (.inr ⟨[lock, rd .active, rd .idips], _, rfl, ⟨[], _, opt_none, ⟨[unlock], _, rfl, ⟨[pause, lock, rd .active, wr .addrs, wr .idips, wr .active, rd .have, lockPeer r, write r, unlockPeer r, unlock], _, ?_, ?_, rfl⟩, rfl⟩, rfl⟩, rfl⟩), rfl⟩
  · exact .inr (.inr ⟨_, _, rfl, .inr ⟨_, _, rfl, ⟨_, _, .inl rfl, rfl, rfl⟩, rfl⟩, rfl⟩)
  · refine opt_some (seq_mk (many_one (seq_mk ha hb)) (seq_mk (opt_some ?_) ?_))
    · exact ⟨[pause], [], rfl, opt_none, rfl⟩
    · exact ⟨[lock], _, rfl, ⟨_, [unlock], ⟨_, _, rfl, opt_some rfl, rfl⟩, rfl, rfl⟩, rfl⟩

/-- A HAVE for a piece that we have. -/
def has (q : Ref) : List Op := [wr (.bits q), lock, wr .index, unlock, rd .have]

theorem has_code (q : Ref) : handleMessage q (has q) := .inr (.inr (.inl (many_one ⟨_, [], rfl, opt_none, rfl⟩)))

/-- A REQUEST that is served. -/
def asks (r : Ref) : List Op := [lockPeer r, wr (.canceled r), unlockPeer r, lockPeer r, write r, unlockPeer r]

theorem asks_code (r : Ref) : handleMessage r (asks r) := .inr (.inr (.inr (.inl ⟨_, _, rfl, opt_some (.inl rfl), rfl⟩)))

theorem pause_receive (r : Ref) : receive r [pause] := ⟨_, [], rfl, opt_none, rfl⟩

/-- A download of a piece from `q`, of which one other peer `r` is told. -/
def tells (r : Ref) : List Op := [pause, lock, rd .active, unlock, lockPeer r, write r, unlockPeer r, queue, wr .inflight]

theorem tells_code (q r : Ref) : code False (.download q) (tells r) :=
  ⟨[pause], _, rfl, ⟨_, _, opt_some (.inl ⟨_, _, rfl, many_one ⟨r, .inl rfl⟩, rfl⟩), rfl, rfl⟩, rfl⟩

/-- Goroutines that have been started, and connections that are not read. -/
def started (ths : List Th) (r : Ref) : St := { ths, stalled := upd (fun _ => false) r true }

theorem started_reach {x : Prop} {ths : List Th} {r : Ref} (h : ∀ th ∈ ths, code x th.role th.prog) : Reach x (started ths r) := by
  have : ∀ (l acc : List Th), (∀ th ∈ l, code x th.role th.prog) → Relation.ReflTransGen (Step x) { ths := acc } { ths := acc ++ l } := by
    intro l
    induction l with
    | nil => intro acc _; simp; exact .refl
    | cons th l ih =>
      intro acc hl
      have h1 : Step x { ths := acc } { ths := acc ++ [th] } := .start (s := { ths := acc }) (hl th List.mem_cons_self)
      have h2 := ih (acc ++ [th]) fun t ht => hl t (List.mem_cons_of_mem _ ht)
      rw [List.append_assoc] at h2
      exact .head h1 h2
  exact .tail (this ths [] h) (.stall r true)

/-! ### A peer that does not read -/

theorem get_append {l : List Th} {k : Nat} {th t : Th} (h : l[k]? = some th) : (l ++ [t])[k]? = some th := by
  rw [List.getElem?_append_left, h]
  rcases Nat.lt_or_ge k l.length with h' | h'
  · exact h'
  · rw [List.getElem?_eq_none h'] at h; cases h

/-- Somebody holds `p2p.mu` and writes to a connection that is not read. -/
structure Held (x : Prop) (r k : Nat) (th : Th) (s : St) : Prop where
  inv : Inv x s
  mu : s.mu = some k
  at_ : s.ths[k]? = some th
  stalled : s.stalled r = true
  closed : s.closed r = false

theorem Held.step {x : Prop} {r k : Nat} {ro : Role} {rest : List Op} {s s' : St} (h : Held x r k ⟨ro, write r :: rest⟩ s) (hst : Step x s s')
    (hs : s'.stalled r = true) : Held x r k ⟨ro, write r :: rest⟩ s' ∧ ∀ (j : Nat) (rj : Role) (p : List Op), s.ths[j]? = some ⟨rj, lock :: p⟩ → s'.ths[j]? = s.ths[j]? := by
  obtain ⟨i1, i3, i4, i2, i5⟩ := h
  have i1' := i1.step hst
  cases hst with
  | start hc => exact ⟨⟨i1', i3, get_append i4, hs, i5⟩, fun j rj p hj => by rw [hj]; exact get_append hj⟩
  | stall q b => exact ⟨⟨i1', i3, i4, hs, i5⟩, fun _ _ _ _ => rfl⟩
  | quit => exact ⟨⟨i1', i3, i4, hs, i5⟩, fun _ _ _ _ => rfl⟩
  | run h =>
    obtain ⟨hj, he⟩ := h
    rename_i s1 j rj op p
    obtain ⟨o, -, hok⟩ := i1.ok j _ hj
    have hne : j ≠ k := by
      rintro rfl
      rw [i4] at hj; cases hj
      cases he with
      | write h =>
        rcases h with h | h
        · rw [i2] at h; cases h
        · rw [i5] at h; cases h
    have hm : s.mu ≠ some j := by rw [i3]; intro e; cases e; exact hne rfl
    have hmf : decide (s.mu = some j) = false := decide_eq_false hm
    rw [hmf] at hok
    have hat : (s.ths.set j ⟨rj, p⟩)[k]? = some ⟨ro, write r :: rest⟩ := by rw [List.getElem?_set_ne hne, i4]
    have hoth : op ≠ lock → ∀ (i : Nat) (ri : Role) (p' : List Op), s.ths[i]? = some ⟨ri, lock :: p'⟩ → (s.ths.set j ⟨rj, p⟩)[i]? = s.ths[i]? := by
      intro hl i ri p' hi
      rw [List.getElem?_set_ne]
      rintro rfl
      rw [hj] at hi; cases hi; exact hl rfl
    cases he with
    | lock h => rw [i3] at h; cases h
    | unlock h => exact absurd h hm
    | close => cases hok.1
    | lockPeer _ => exact ⟨⟨i1', i3, hat, hs, i5⟩, hoth (by simp)⟩
    | unlockPeer _ => exact ⟨⟨i1', i3, hat, hs, i5⟩, hoth (by simp)⟩
    | write _ => exact ⟨⟨i1', i3, hat, hs, i5⟩, hoth (by simp)⟩
    | queue _ => exact ⟨⟨i1', i3, hat, hs, i5⟩, hoth (by simp)⟩
    | pause => exact ⟨⟨i1', i3, hat, hs, i5⟩, hoth (by simp)⟩
    | rd => exact ⟨⟨i1', i3, hat, hs, i5⟩, hoth (by simp)⟩
    | wr => exact ⟨⟨i1', i3, hat, hs, i5⟩, hoth (by simp)⟩

/-- While a peer does not read the BITFIELD (or a NOT_INTERESTED) that is being sent to it, nothing that needs `p2p.mu` goes on, not even `Stop`. -/
theorem C117_lock_held {x : Prop} {s : St} (hr : Reach x s) {r k : Nat} {ro : Role} {rest : List Op} (hmu : s.mu = some k)
    (hk : s.ths[k]? = some ⟨ro, write r :: rest⟩) (hst : s.stalled r = true) (hcl : s.closed r = false) {s' : St}
    (h : Relation.ReflTransGen (fun a b => Step x a b ∧ b.stalled r = true) s s') :
    s'.mu = some k ∧ s'.closed r = false ∧ ∀ (j : Nat) (rj : Role) (p : List Op), s.ths[j]? = some ⟨rj, lock :: p⟩ → s'.ths[j]? = s.ths[j]? := by
  have : Held x r k ⟨ro, write r :: rest⟩ s' ∧ ∀ (j : Nat) (rj : Role) (p : List Op), s.ths[j]? = some ⟨rj, lock :: p⟩ → s'.ths[j]? = s.ths[j]? := by
    induction h with
    | refl => exact ⟨⟨inv_reach hr, hmu, hk, hst, hcl⟩, fun _ _ _ _ => rfl⟩
    | tail _ h ih =>
      obtain ⟨h1, h2⟩ := ih.1.step h.1 h.2
      exact ⟨h1, fun j rj p hj => by rw [h2 j rj p (by rw [ih.2 j rj p hj, hj]), ih.2 j rj p hj]⟩
  exact ⟨this.1.mu, this.1.closed, this.2⟩

/-- Peer 8 has sent a HAVE; peer 7 is being registered and does not read. A user calls `Stop`. -/
def registering : St :=
  (runs (started [⟨.peer 8, registers 8 ++ (([pause] ++ has 8) ++ ([pause] ++ leaves 8))⟩, ⟨.peer 7, registers 7 ++ (([pause] ++ has 7) ++ ([pause] ++ leaves 7))⟩, ⟨.stop, [lock, pause, rd .active, unlock]⟩] 9)
    (List.replicate 17 0 ++ List.replicate 12 1)).getD {}

theorem registering_reach : Reach False registering := by
  refine .trans (started_reach (r := 9) (ths := [⟨.peer 8, registers 8 ++ (([pause] ++ has 8) ++ ([pause] ++ leaves 8))⟩, ⟨.peer 7, registers 7 ++ (([pause] ++ has 7) ++ ([pause] ++ leaves 7))⟩, ⟨.stop, [lock, pause, rd .active, unlock]⟩]) ?_)
    (runs_sound (ks := List.replicate 17 0 ++ List.replicate 12 1) rfl)
  intro th hth
  simp only [List.mem_cons, List.not_mem_nil, or_false] at hth
  rcases hth with rfl | rfl | rfl
  · exact peer_code (pause_receive 8) (has_code 8)
  · exact peer_code (pause_receive 7) (has_code 7)
  · exact .inr ⟨[lock, pause, rd .active], _, rfl, ⟨[], _, .nil, rfl, rfl⟩, rfl⟩

/-- **C117**, refuted: the only peer that does not read is the one being registered; a message of another peer is not handled, and `Stop` does not
return, for as long as it does not read. -/
theorem C117_registered_refuted : ∃ (s : St) (r q k i : Nat) (p p' : List Op), Reach False s ∧ r ≠ q ∧ (∀ c, s.stalled c = true ↔ c = r) ∧ s.receiving = true ∧
    s.ths[k]? = some ⟨.peer q, lock :: p⟩ ∧ s.ths[i]? = some ⟨.stop, lock :: p'⟩ ∧
    ∀ s', Relation.ReflTransGen (fun a b => Step False a b ∧ b.stalled r = true) s s' → s'.ths[k]? = s.ths[k]? ∧ s'.ths[i]? = s.ths[i]? := by
  have hr : Reach False { registering with stalled := upd (upd registering.stalled 9 false) 7 true } :=
    .tail (.tail registering_reach (.stall 9 false)) (.stall 7 true)
  refine ⟨{ registering with stalled := upd (upd registering.stalled 9 false) 7 true }, 7, 8, 0, 2, _, _, hr, by decide, fun c => ?_, rfl, rfl, rfl, fun s' h => ?_⟩
  · have e : registering.stalled = upd (fun _ => false) 9 true := rfl
    simp only [e, upd]
    by_cases h7 : c = 7
    · simp [h7]
    · by_cases h9 : c = 9 <;> simp [h7, h9]
  · obtain ⟨-, -, h1⟩ := C117_lock_held hr (r := 7) (k := 1) rfl rfl rfl rfl h
    exact ⟨h1 0 _ _ rfl, h1 2 _ _ rfl⟩

/-- A connection that is not read, whose lock is held by a goroutine that writes to it, keeps the others from writing to it. -/
theorem peer_held {x : Prop} {s : St} (hi : Inv x s) {r k j : Nat} {ro rj : Role} {rest p : List Op} (hpm : s.pm r = some k)
    (hk : s.ths[k]? = some ⟨ro, write r :: rest⟩) (hj : s.ths[j]? = some ⟨rj, lockPeer r :: p⟩) (hst : s.stalled r = true) (hcl : s.closed r = false) {s' : St}
    (h : Relation.ReflTransGen (fun a b => Step x a b ∧ b.stalled r = true ∧ b.closed r = false) s s') :
    Inv x s' ∧ s'.pm r = some k ∧ s'.ths[k]? = some ⟨ro, write r :: rest⟩ ∧ s'.ths[j]? = some ⟨rj, lockPeer r :: p⟩ ∧ s'.stalled r = true ∧ s'.closed r = false := by
  induction h with
  | refl => exact ⟨hi, hpm, hk, hj, hst, hcl⟩
  | @tail b c _ h ih =>
    obtain ⟨i1, i2, i3, i4, i5, i6⟩ := ih
    obtain ⟨hs, h1, h2⟩ := h
    refine ⟨i1.step hs, ?_⟩
    cases hs with
    | start hc => exact ⟨i2, get_append i3, get_append i4, h1, h2⟩
    | stall q b => exact ⟨i2, i3, i4, h1, h2⟩
    | quit => exact ⟨i2, i3, i4, h1, h2⟩
    | run h =>
      obtain ⟨hm, he⟩ := h
      rename_i s1 m rm op pm
      have hnk : m ≠ k := by
        rintro rfl
        rw [i3] at hm; cases hm
        cases he with
        | write h =>
          rcases h with h | h
          · rw [i5] at h; cases h
          · rw [i6] at h; cases h
      have hnj : m ≠ j := by
        rintro rfl
        rw [i4] at hm; cases hm
        cases he with
        | lockPeer h => rw [i2] at h; cases h
      refine ⟨?_, by simp only [List.getElem?_set_ne hnk, i3], by simp only [List.getElem?_set_ne hnj, i4], h1, h2⟩
      cases he <;> try exact i2
      · rename_i q hq
        by_cases e : r = q
        · subst e; rw [i2] at hq; cases hq
        · simp only [upd_ne _ _ e, i2]
      · rename_i q hq
        by_cases e : r = q
        · subst e; rw [i2] at hq; cases hq; exact absurd rfl hnk
        · simp only [upd_ne _ _ e, i2]

/-- Peer 7 has asked for a block and does not read it; a piece from peer 8 is complete. -/
def telling : St :=
  (runs (started [⟨.peer 7, registers 7 ++ (([pause] ++ asks 7) ++ ([pause] ++ leaves 7))⟩, ⟨.download 8, tells 7⟩] 9)
    (List.replicate 20 0 ++ List.replicate 4 1)).getD {}

theorem telling_reach : Reach False telling := by
  refine .trans (started_reach (r := 9) (ths := [⟨.peer 7, registers 7 ++ (([pause] ++ asks 7) ++ ([pause] ++ leaves 7))⟩, ⟨.download 8, tells 7⟩]) ?_)
    (runs_sound (ks := List.replicate 20 0 ++ List.replicate 4 1) rfl)
  intro th hth
  simp only [List.mem_cons, List.not_mem_nil, or_false] at hth
  rcases hth with rfl | rfl
  · exact peer_code (pause_receive 7) (asks_code 7)
  · exact tells_code 8 7

/-- **C117**, refuted: the only peer that does not read is `r`; a download from another peer `q` that has succeeded waits, and `q` is not put into the
queue again, for as long as `r` does not read and is not closed. -/
theorem C117_have_refuted : ∃ (s : St) (r q k : Nat) (p : List Op), Reach False s ∧ r ≠ q ∧ (∀ c, s.stalled c = true ↔ c = r) ∧ s.receiving = true ∧ s.mu = none ∧
    s.ths[k]? = some ⟨.download q, p⟩ ∧ queue ∈ p ∧
    ∀ s', Relation.ReflTransGen (fun a b => Step False a b ∧ b.stalled r = true ∧ b.closed r = false) s s' → s'.ths[k]? = s.ths[k]? := by
  have hr : Reach False { telling with stalled := upd (upd telling.stalled 9 false) 7 true } :=
    .tail (.tail telling_reach (.stall 9 false)) (.stall 7 true)
  refine ⟨{ telling with stalled := upd (upd telling.stalled 9 false) 7 true }, 7, 8, 1, _, hr, by decide, fun c => ?_, rfl, rfl, rfl, by decide, fun s' h => ?_⟩
  · have e : telling.stalled = upd (fun _ => false) 9 true := rfl
    simp only [e, upd]
    by_cases h7 : c = 7
    · simp [h7]
    · by_cases h9 : c = 9 <;> simp [h7, h9]
  · obtain ⟨-, -, -, h1, -⟩ := peer_held (inv_reach hr) (r := 7) (k := 0) (j := 1) rfl rfl rfl rfl rfl h
    exact h1

/-- Both examples meet the conditions of `C117_progress_partial` when everybody reads. -/
example : Reach False { registering with stalled := upd registering.stalled 9 false } ∧
    (∀ r, (upd registering.stalled 9 false) r = false ∨ registering.closed r = true) ∧ registering.receiving = true ∧ ∃ th ∈ registering.ths, th.prog ≠ [] :=
  ⟨.tail registering_reach (.stall 9 false), fun r => .inl (by
    have e : registering.stalled = upd (fun _ => false) 9 true := rfl
    simp only [e, upd]; split <;> simp_all), rfl, _, List.mem_cons_self, by decide⟩

/-- Peer 7 does not read its block, a download from 8 tells it; the goroutine that handles the messages of 8 has nothing to do with it. -/
def besides : St :=
  (runs (started [⟨.peer 7, registers 7 ++ (([pause] ++ asks 7) ++ ([pause] ++ leaves 7))⟩, ⟨.download 8, tells 7⟩, ⟨.peer 8, registers 8 ++ (([pause] ++ has 8) ++ ([pause] ++ leaves 8))⟩] 9) (List.replicate 20 0 ++ List.replicate 4 1 ++ List.replicate 16 2)).getD {}

example : Reach False { besides with stalled := upd (upd besides.stalled 9 false) 7 true } ∧ besides.receiving = true ∧
    Reading (· = 7) { besides with stalled := upd (upd besides.stalled 9 false) 7 true } ∧ Clear (· = 7) { besides with stalled := upd (upd besides.stalled 9 false) 7 true } ∧
    Elsewhere (· = 7) ⟨.peer 8, [wr (.bits 8), lock, wr .index, unlock, rd .have, pause] ++ leaves 8⟩ ∧
    besides.ths[2]? = some ⟨.peer 8, [wr (.bits 8), lock, wr .index, unlock, rd .have, pause] ++ leaves 8⟩ ∧
    (∃ p, besides.ths[0]? = some ⟨.peer 7, write 7 :: p⟩) ∧ ∃ p, besides.ths[1]? = some ⟨.download 8, lockPeer 7 :: p⟩ := by
  refine ⟨.tail (.tail (.trans (started_reach (r := 9) (ths := [⟨.peer 7, registers 7 ++ (([pause] ++ asks 7) ++ ([pause] ++ leaves 7))⟩, ⟨.download 8, tells 7⟩, ⟨.peer 8, registers 8 ++ (([pause] ++ has 8) ++ ([pause] ++ leaves 8))⟩]) ?_)
    (runs_sound (ks := List.replicate 20 0 ++ List.replicate 4 1 ++ List.replicate 16 2) rfl)) (.stall 9 false)) (.stall 7 true), rfl, fun r hB => .inl ?_, fun k th hk => ?_, ?_, rfl, ⟨_, rfl⟩, ⟨_, rfl⟩⟩
  · intro th hth
    simp only [List.mem_cons, List.not_mem_nil, or_false] at hth
    rcases hth with rfl | rfl | rfl
    · exact peer_code (pause_receive 7) (asks_code 7)
    · exact tells_code 8 7
    · exact peer_code (pause_receive 8) (has_code 8)
  · have e : besides.stalled = upd (fun _ => false) 9 true := rfl
    simp only [e, upd, if_neg hB]; split <;> simp_all
  · have e : besides.mu = none := rfl
    simp only [e] at hk; cases hk
  · rintro r rfl; simp

/-! ### Data used by two goroutines at once -/

/-- Two goroutines are about to use a variable, and one of them writes it. -/
def Race (s : St) (v : Var) : Prop :=
  ∃ (i j : Nat) (ri rj : Role) (a b : List Op), i ≠ j ∧ s.ths[i]? = some ⟨ri, wr v :: a⟩ ∧ (s.ths[j]? = some ⟨rj, wr v :: b⟩ ∨ s.ths[j]? = some ⟨rj, rd v :: b⟩)

theorem guarded_alone {x : Prop} {s : St} (hi : Inv x s) {v : Var} (hv : guard v ≠ none) {i j : Nat} {ti tj : Th} (hti : s.ths[i]? = some ti) (htj : s.ths[j]? = some tj)
    (h1 : ti.prog.head? = some (wr v) ∨ ti.prog.head? = some (rd v)) (h2 : tj.prog.head? = some (wr v) ∨ tj.prog.head? = some (rd v)) : i = j := by
  have key : ∀ {i : Nat} {t : Th}, s.ths[i]? = some t → (t.prog.head? = some (wr v) ∨ t.prog.head? = some (rd v)) →
      (guard v = some none → s.mu = some i) ∧ ∀ r, guard v = some (some r) → s.pm r = some i := by
    intro i t ht h
    obtain ⟨p, hp, hok⟩ := hi.ok i t ht
    have hmay : May v (decide (s.mu = some i)) p := by
      rcases t with ⟨ro, _ | ⟨op, rest⟩⟩
      · rcases h with h | h <;> cases h
      · rcases h with h | h <;> cases h <;> exact hok.1
    constructor
    · intro e; simp only [May, e] at hmay; simpa using hmay
    · intro r e; simp only [May, e] at hmay; exact (hp r).mpr hmay
  rcases hg : guard v with _ | _ | r
  · exact absurd hg hv
  · have e1 := (key hti h1).1 hg
    have e2 := (key htj h2).1 hg
    rw [e1] at e2; exact Option.some.inj e2
  · have e1 := (key hti h1).2 r hg
    have e2 := (key htj h2).2 r hg
    rw [e1] at e2; exact Option.some.inj e2

/-- **C118**, partial: all maps but `inflight` are used by one goroutine at a time (if one of them writes), whatever messages come and whichever
connections are refused. Missing: `inflight` (`C118_inflight_refuted`), and the bitfields of a peer and of the torrent (`C118_bits_refuted`). -/
theorem C118_maps_partial {x : Prop} {s : St} (h : Reach x s) {v : Var} (h1 : v ≠ .inflight) (h2 : ∀ r, v ≠ .bits r) (h3 : v ≠ .have) : ¬ Race s v := by
  rintro ⟨i, j, ri, rj, a, b, hne, hi, hj⟩
  have hg : guard v ≠ none := by cases v <;> simp_all [guard]
  refine hne ?_
  rcases hj with hj | hj
  · exact guarded_alone (inv_reach h) hg hi hj (.inl rfl) (.inl rfl)
  · exact guarded_alone (inv_reach h) hg hi hj (.inl rfl) (.inr rfl)

/-- A reachable state in which several goroutines are about to use what is guarded: the map of the active peers is about to be read by one, and the
requests of peer 7 to be written by another. -/
example : Reach False ((runs (started [⟨.peer 8, registers 8 ++ (([pause] ++ has 8) ++ ([pause] ++ leaves 8))⟩, ⟨.unchokeAll, [lock, rd .active, unlock, pause]⟩] 9) [1, 1, 1, 0]).getD {}) ∧
    ((runs (started [⟨.peer 8, registers 8 ++ (([pause] ++ has 8) ++ ([pause] ++ leaves 8))⟩, ⟨.unchokeAll, [lock, rd .active, unlock, pause]⟩] 9) [1, 1, 1, 0]).getD {}).ths[0]?.map (fun t => t.prog.head?) = some (some (rd .active)) := by
  refine ⟨.trans (started_reach (r := 9) (ths := [⟨.peer 8, registers 8 ++ (([pause] ++ has 8) ++ ([pause] ++ leaves 8))⟩, ⟨.unchokeAll, [lock, rd .active, unlock, pause]⟩]) ?_)
    (runs_sound (ks := [1, 1, 1, 0]) rfl), by decide⟩
  intro th hth
  simp only [List.mem_cons, List.not_mem_nil, or_false] at hth
  rcases hth with rfl | rfl
  · exact peer_code (pause_receive 8) (has_code 8)
  · rfl

/-- **C118**, refuted: the map of the pieces in flight is written by two goroutines at once, when two downloads end. (Go may end the program with
"concurrent map writes".) -/
theorem C118_inflight_refuted : ∃ s, Reach False s ∧ s.closed = (fun _ => false) ∧ Race s .inflight := by
  refine ⟨(runs (started [⟨.download 7, [pause, queue, wr .inflight]⟩, ⟨.download 8, [pause, queue, wr .inflight]⟩] 9) [0, 0, 1, 1]).getD {},
    .trans (started_reach (r := 9) (ths := [⟨.download 7, [pause, queue, wr .inflight]⟩, ⟨.download 8, [pause, queue, wr .inflight]⟩]) ?_)
    (runs_sound (ks := [0, 0, 1, 1]) rfl), rfl, 0, 1, _, _, _, _, by decide, rfl, .inl rfl⟩
  intro th hth
  simp only [List.mem_cons, List.not_mem_nil, or_false] at hth
  rcases hth with rfl | rfl <;> exact ⟨_, _, rfl, ⟨[], _, opt_none, rfl, rfl⟩, rfl⟩

/-- **C118**, refuted: the pieces of a peer are read, to choose one, while a HAVE of that peer changes them. -/
theorem C118_bits_refuted : ∃ s r, Reach False s ∧ s.closed = (fun _ => false) ∧ Race s (.bits r) := by
  refine ⟨(runs (started [⟨.peer 8, registers 8 ++ (([pause] ++ has 8) ++ ([pause] ++ leaves 8))⟩, ⟨.select 8, [lock, rd .have, rd (.bits 8), wr .queued, unlock]⟩] 9) (List.replicate 16 0 ++ [1, 1])).getD {}, 8,
    .trans (started_reach (r := 9) (ths := [⟨.peer 8, registers 8 ++ (([pause] ++ has 8) ++ ([pause] ++ leaves 8))⟩, ⟨.select 8, [lock, rd .have, rd (.bits 8), wr .queued, unlock]⟩]) ?_)
    (runs_sound (ks := List.replicate 16 0 ++ [1, 1]) rfl), rfl, 0, 1, _, _, _, _, by decide, rfl, .inr rfl⟩
  intro th hth
  simp only [List.mem_cons, List.not_mem_nil, or_false] at hth
  rcases hth with rfl | rfl
  · exact peer_code (pause_receive 8) (has_code 8)
  · exact ⟨_, _, rfl, ⟨_, _, .inr ⟨_, _, rfl, .inl ⟨_, [], rfl, opt_none, rfl⟩, rfl⟩, rfl, rfl⟩, rfl⟩

end Drip.Stall
