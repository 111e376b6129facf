import Verif.Lemmas.P2PExchangeFair
import Verif.Lemmas.P2PFairEnd
import Verif.Props.P2PSeeding
/-
When the torrent is complete, the downloads of its pieces come to an end.
-/

namespace Drip.P2P
open PeerWire Metainfo Spec
open Storage (Fate World Mem FS resetPiece Original Done Usable TorrentResult blockOf)

variable {cfg : Cfg} {X : List Bytes} {σ : Nat → State} {ev : Nat → Option (Event × Luck)} {F : Nat → FS} {M : Nat → Mem}

/-- Where a download comes from: it was there before, it is new, or it was at an earlier stage. -/
def Stems (js : List Job) (j' : Job) : Prop := j' ∈ js ∨ j'.stage = .fresh ∨ ∃ st, ⟨j'.peer, j'.index, st⟩ ∈ js ∧ st ≠ .handed

theorem act_stems {s s' : State} (hi : Inv cfg s) {l : Luck} {e : Event} {o : Outcome Unit} (ha : act cfg l s e = some (o, s')) : ∀ j' ∈ s'.jobs, Stems s.jobs j' := by
  have hsm := act_small (cfg := cfg) l hi.pendOK ha
  have same : ∀ {t : State}, t.jobs = s.jobs → ∀ j' ∈ t.jobs, Stems s.jobs j' := fun h j' hj => .inl (h ▸ hj)
  have set' : ∀ {js : List Job} {k : Nat} {x : Ref} {i : Nat} {st st' : Stage}, s.jobs[k]? = some ⟨x, i, st⟩ → st ≠ .handed → js = s.jobs.set k ⟨x, i, st'⟩ → ∀ j' ∈ js, Stems s.jobs j' := by
    intro js k x i st st' hk hst he j' hj
    rw [he] at hj
    rcases List.mem_or_eq_of_mem_set hj with h | h
    · exact .inl h
    · exact .inr (.inr ⟨st, by rw [h]; exact List.mem_of_getElem? hk, hst⟩)
  by_cases he : (mayOf cfg s e).jobs
  · rcases he with ⟨k, he⟩ | ⟨k, he⟩ | ⟨k, res, he⟩ | ⟨k, he⟩ | ⟨k, he⟩
    all_goals subst he; simp only [act] at ha
    · cases hk : s.toRequest[k]? with
      | none => rw [hk] at ha; cases ha
      | some x =>
        rw [hk] at ha
        simp only [] at ha
        have key : ∀ y, y = requestPieceFromPeer (l.ok x) l.coins l.pdq x s → s' = s ∨ s'.jobs = y.2.jobs := by
          intro y hy
          rw [← hy] at ha
          obtain ⟨o', t⟩ := y
          cases o' <;> cases ha <;> first | exact .inl rfl | exact .inr rfl
        rcases key _ rfl with h | h
        · rw [h]; exact same rfl
        · rw [h]
          cases hl : s.locked with
          | true =>
            have hst : requestPieceFromPeer (l.ok x) l.coins l.pdq x s = (.stuck, s) := by
              unfold requestPieceFromPeer
              rw [locked_apply, if_pos hl]
            rw [hst]; exact same rfl
          | false =>
            obtain ⟨c, hc, _⟩ := hi.refs x (.inl (List.mem_of_getElem? hk))
            cases hmm : s.storage.mem with
            | none =>
              refine same ?_
              unfold requestPieceFromPeer
              rw [locked_apply, if_neg (by rw [hl]; simp), bind_apply, getConn_apply]
              simp only [hc]
              by_cases h1 : c.closed = true ∨ c.remoteChoked = true
              · rw [if_pos h1]; rfl
              · rw [if_neg h1, bind_apply]
                unfold torrentBitfield
                simp only [hmm]
            | some m =>
              rcases requestPiece_cases (r := x) (l.ok x) l.coins l.pdq hl hc hmm with ⟨_, h⟩ | ⟨_, ⟨_, _, c', h, _⟩ | ⟨i, h1, h⟩ | ⟨_, _, h⟩⟩
              · rw [h]; exact same rfl
              · rw [h]; exact same rfl
              · rw [h]
                intro j' hj'
                rcases List.mem_append.1 hj' with hj' | hj'
                · exact .inl hj'
                · rw [List.mem_singleton] at hj'
                  rw [hj']
                  exact .inr (.inl rfl)
              · rw [h]; exact same rfl
    · split at ha
      · rename_i heq
        have h2 := store_state l.fates (resetPiece ‹Nat›) s
        generalize Act.store l.fates (resetPiece ‹Nat›) s = y at ha h2
        cases ha
        exact set' heq (by simp) (by rw [h2])
      · cases ha
    · split at ha
      · rename_i x i heq
        split at ha
        · have hf := pres_finish (cfg := cfg) (may := { May.top with jobs := False }) (r := x) l.ok l.order i res (s := s) (fun _ _ _ _ => trivial) (fun _ => ⟨trivial, trivial⟩)
          obtain ⟨h1, _⟩ := hf.jobsFrame (fun h => h)
          generalize finish l.ok l.order x i res s = y at ha h1
          obtain ⟨o', t⟩ := y
          simp only at h1
          have hs : s' = s ∨ s'.jobs = t.jobs.set k ⟨x, i, .over⟩ := by
            cases o' <;> cases ha <;> first | exact .inl rfl | exact .inr rfl
          rcases hs with h | h
          · rw [h]; exact same rfl
          · rw [h]; exact set' heq (by simp) (by rw [h1])
        · cases ha
      · cases ha
    · split at ha
      · rename_i heq
        split at ha
        · cases ha; exact same rfl
        · cases ha; exact set' heq (by simp) rfl
      · cases ha
    · split at ha
      · cases ha
        exact fun j' hj => .inl (List.mem_of_mem_eraseIdx hj)
      · cases ha
  · exact same (hsm.jobsFrame he).1

theorem nodup_map_inj {α β : Type} {f : α → β} {l : List α} (h : (l.map f).Nodup) {a b : α} (ha : a ∈ l) (hb : b ∈ l) (e : f a = f b) : a = b := by
  induction l with
  | nil => cases ha
  | cons x l ih =>
    rw [List.map_cons, List.nodup_cons] at h
    rcases List.mem_cons.1 ha with rfl | ha <;> rcases List.mem_cons.1 hb with rfl | hb
    · rfl
    · exact absurd (by rw [e]; exact List.mem_map_of_mem hb) h.1
    · exact absurd (by rw [← e]; exact List.mem_map_of_mem (by assumption)) h.1
    · exact ih h.2 ha hb

/-- The moment at which the torrent is complete: after that all downloads come to an end. -/
theorem Trace.quiet (T : Trace cfg X σ ev F M) (hst : ∀ k, ∀ j' ∈ (σ (k + 1)).jobs, Stems (σ k).jobs j') (hD : Diligent X σ ev) {n : Nat} (hall : ∀ i, i < X.length → Done (M n) i) :
    ∃ n', n ≤ n' ∧ ∀ k, n' ≤ k → ∀ j ∈ (σ k).jobs, j.stage = .handed := by
  have hdone : ∀ k, n ≤ k → ∀ i, i < X.length → Done (M k) i := fun k hk i hi => T.done hk (hall i hi)
  have nofresh : ∀ k, n ≤ k → ∀ j ∈ (σ k).jobs, j.stage ≠ .fresh := fun k hk j hj h =>
    ((T.seeding k).jobs j hj).2.2.2.1 h (hdone k hk _ ((T.seeding k).jobs j hj).2.1)
  have mono : ∀ i k, n ≤ k → (∀ j ∈ (σ k).jobs, j.index = i → j.stage = .handed) → ∀ j ∈ (σ (k + 1)).jobs, j.index = i → j.stage = .handed := by
    intro i k hk h j hj hji
    rcases hst k j hj with h1 | h1 | ⟨st, h1, h2⟩
    · exact h j h1 hji
    · exact absurd h1 (nofresh (k + 1) (by omega) j hj)
    · exact absurd (h _ h1 hji) h2
  have uniq : ∀ {k : Nat} {r i : Nat} {st : Stage}, ⟨r, i, st⟩ ∈ (σ k).jobs → ∀ j ∈ (σ k).jobs, j.index = i → j = ⟨r, i, st⟩ := by
    intro k r i st h j hj hji
    exact nodup_map_inj (T.seeding k).distinct hj h hji
  have hand : ∀ {k0 r i : Nat}, n ≤ k0 → ⟨r, i, .over⟩ ∈ (σ k0).jobs → ∃ k, n ≤ k ∧ ∀ j ∈ (σ k).jobs, j.index = i → j.stage = .handed := by
    intro k0 r i hk0 hj
    obtain ⟨k, hk, h1, kk, h2, l, h3⟩ := leads (hD.hands r i) (R := fun k => ⟨r, i, .over⟩ ∈ (σ k).jobs) hj (fun _ _ => id) (by
      intro k _ hjk hno
      rcases (T.moves k).jobs _ hjk with h1 | ⟨kk, l, hkk, h1 | h1 | h1 | h1⟩
      · exact h1
      · cases h1.2
      · cases h1.2.1
      · exact absurd ⟨kk, hkk, l, h1.1⟩ hno
      · cases h1.2)
    have hs : (σ (k + 1)).jobs = (σ k).jobs.set kk ⟨r, i, .handed⟩ := by
      rw [(T.next k _ h3).1]
      unfold step
      rw [if_neg (by rw [(T.seeding k).alive]; simp)]
      simp only [act, h2]
      rw [if_neg (by rw [(T.seeding k).requesting]; simp)]
    have hm : ⟨r, i, .handed⟩ ∈ (σ (k + 1)).jobs := by
      rw [hs]; exact List.mem_set (List.getElem?_eq_some_iff.1 h2).1 _
    exact ⟨k + 1, by omega, fun j hj hji => by rw [uniq hm j hj hji]⟩
  obtain ⟨n', hn', h⟩ := all_below (n := n) (P := fun i k => ∀ j ∈ (σ k).jobs, j.index = i → j.stage = .handed) mono (by
    intro i
    by_cases hq : ∀ j ∈ (σ n).jobs, j.index = i → j.stage = .handed
    · exact ⟨n, Nat.le_refl _, hq⟩
    · obtain ⟨⟨r, i', st⟩, hj, hji, hs⟩ : ∃ j ∈ (σ n).jobs, j.index = i ∧ j.stage ≠ .handed := Classical.byContradiction fun hno =>
        hq fun j hj hji => Classical.byContradiction fun hs => hno ⟨j, hj, hji, hs⟩
      have hji : i' = i := hji
      subst hji
      cases st with
      | handed => exact absurd rfl hs
      | fresh => exact absurd rfl (nofresh n (Nat.le_refl _) _ hj)
      | over => exact hand (Nat.le_refl _) hj
      | running =>
        have hi := ((T.seeding n).jobs _ hj).2.1
        have hret : ∀ k, n ≤ k → canReturn (σ k) i' .complete = true := fun k hk => done_return (T.seeding k) (hdone k hk i' hi)
        obtain ⟨k, hk, h1, kk, h2, l, h3⟩ := leads (hD.ends r i') (R := fun k => ⟨r, i', .running⟩ ∈ (σ k).jobs) hj (fun k hk h => ⟨h, hret k hk⟩) (by
          intro k _ hjk hno
          rcases (T.moves k).jobs _ hjk with h1 | ⟨kk, l, hkk, h1 | h1 | h1 | h1⟩
          · exact h1
          · cases h1.2
          · exact absurd ⟨kk, hkk, l, h1.1⟩ hno
          · cases h1.2
          · cases h1.2)
        exact hand (k0 := k + 1) (by omega) ((T.moves k).ended kk l r i' h3 h2 (hret k hk))) X.length
  refine ⟨n', hn', fun k hk => ?_⟩
  have hall' : ∀ i, i < X.length → ∀ j ∈ (σ k).jobs, j.index = i → j.stage = .handed := by
    induction hk with
    | refl => exact h
    | @step k hk ih => exact fun i hi => mono i k (Nat.le_trans hn' hk) (ih i hi)
  exact fun j hj => hall' j.index ((T.seeding k).jobs j hj).2.1 j hj rfl

/-! ## What has happened to the client -/

theorem decent_other {e : Event} {l : Luck} (hl : ∀ f ∈ l.fates, f = .ok) (he : ∀ x rd, e ≠ .receive x rd) : Decent cfg (e, l) :=
  ⟨(fun r hr => by cases hl _ hr), fun x rd h => absurd h (he x rd)⟩

theorem decent_says {x : Ref} {rd : Rd} {w : Wire} {l : Luck} (hl : ∀ f ∈ l.fates, f = .ok) (hs : Says rd w) (hw : InRange cfg.store.info (ofWire w)) : Decent cfg (.receive x rd, l) := by
  refine ⟨fun r hr => (by cases hl _ hr), fun x' rd' h => ?_⟩
  injection h with _ h
  subst h
  obtain ⟨r', hd⟩ := says_decode hs
  rw [hd]
  refine ⟨by simp, fun m rd' h => ?_⟩
  injection h with h
  injection h with h
  rw [← h]; exact hw

theorem honest_decent (hO : Original cfg.store X) {s : State} {fs : FS} {m : Mem} (h : Seeding cfg X s fs m) {e : Event × Luck} (he : Honest X s e) : Decent cfg e := by
  obtain ⟨e, l⟩ := e
  obtain ⟨h1, h2⟩ := he
  by_cases hr : ∃ x rd, e = .receive x rd
  · obtain ⟨x, rd, rfl⟩ := hr
    obtain ⟨c, i, b, n, hc, hreq, hs⟩ := h2
    refine decent_says h1 hs ?_
    obtain ⟨j, k, y, hb, _, e1, e2, _⟩ := (h.conns x c hc).sent _ _ _ hreq
    refine ⟨fun h => ?_, fun h => ?_, fun h => ?_, fun _ => ?_⟩
    · exact absurd h (show PIECE ≠ HAVE by decide)
    · exact absurd h (show PIECE ≠ BITFIELD by decide)
    · exact absurd h (show PIECE ≠ REQUEST by decide)
    · have hlt := (List.getElem?_eq_some_iff.1 hb.1).1
      have h3 := (hO.contents.2 j y hb.1).2
      have e1 : i = j := by omega
      subst e1
      refine ⟨by show (i : Int) < _; rw [← hO.contents.1]; exact_mod_cast hlt, ?_⟩
      show (b : Int) < cfg.store.info.getPieceLength i
      rw [e2, ← h3]
      exact_mod_cast hb.2
  · exact decent_other h1 fun x rd h => hr ⟨x, rd, h⟩

/-- A client that downloads from seeders has a past in which nobody did anything indecent. -/
theorem seeded_past (hO : Original cfg.store X) (h20 : cfg.store.info.sha1.length = 20) {s : State} (h : Seeded cfg X s) :
    ∃ es, s = run cfg (init (blank cfg)) es ∧ ∀ e ∈ es, Decent cfg e := by
  induction h with
  | start => exact ⟨[], rfl, fun e he => by cases he⟩
  | join h hj ih =>
    obtain ⟨es, rfl, hd⟩ := ih
    obtain ⟨ip, id, b, port, e, hs, bf, un, l, ha, _, _, _, _, _, hbf, hb, hun, _, hl, rfl⟩ := hj
    refine ⟨_, (run_append ..).symm, fun x hx => ?_⟩
    rcases List.mem_append.1 hx with hx | hx
    · exact hd x hx
    · have he : ∀ y rd, e ≠ .receive y rd := by
        rcases ha with ⟨rfl, _⟩ | ⟨_, _, rfl, _⟩ <;> intro y rd h <;> cases h
      simp only [List.map, List.mem_cons, List.not_mem_nil, or_false] at hx
      rcases hx with rfl | rfl | rfl | rfl | rfl | rfl | rfl | rfl
      · exact decent_other hl he
      · exact decent_other hl (fun _ _ h => by cases h)
      · exact decent_other hl (fun _ _ h => by cases h)
      · exact decent_other hl (fun _ _ h => by cases h)
      · refine decent_says hl hbf ⟨fun h => ?_, fun _ i hi => ?_, fun h => ?_, fun h => ?_⟩
        · exact absurd h (show BITFIELD ≠ HAVE by decide)
        · rw [← hO.contents.1]
          have h1 : Bitfield.bit b i = true := hi
          have h2 : Bitfield.bit b i = decide (i < X.length) := by
            rw [← hb.2 i, List.getD_eq_getElem?_getD]
            unfold Bitfield.bit
            cases b[i / 8]? <;> simp
          rw [h1] at h2
          exact of_decide_eq_true h2.symm
        · exact absurd h (show BITFIELD ≠ REQUEST by decide)
        · exact absurd h (show BITFIELD ≠ PIECE by decide)
      · exact decent_other hl (fun _ _ h => by cases h)
      · refine decent_says hl hun ⟨fun h => ?_, fun h => ?_, fun h => ?_, fun h => ?_⟩
        · exact absurd h (show UNCHOKE ≠ HAVE by decide)
        · exact absurd h (show UNCHOKE ≠ BITFIELD by decide)
        · exact absurd h (show UNCHOKE ≠ REQUEST by decide)
        · exact absurd h (show UNCHOKE ≠ PIECE by decide)
      · exact decent_other hl (fun _ _ h => by cases h)
  | step h he ih =>
    obtain ⟨fs, m, h1, _⟩ := seeded_all hO h20 h
    have hde := honest_decent hO h1 he
    obtain ⟨es, rfl, hd⟩ := ih
    refine ⟨_, (run_snoc ..).symm, fun x hx => ?_⟩
    rcases List.mem_append.1 hx with hx | hx
    · exact hd x hx
    · rw [List.mem_singleton.1 hx]; exact hde

theorem execution_seeded (h : Execution cfg X σ ev) : ∀ n, Seeded cfg X (σ n)
  | 0 => h.start
  | n + 1 => by
    have ih := execution_seeded h n
    have hn := h.next n
    cases he : ev n with
    | none => rw [he] at hn; exact .join ih hn
    | some e => rw [he] at hn; rw [hn.2]; exact .step ih hn.1

theorem execution_stems (hO : Original cfg.store X) (h20 : cfg.store.info.sha1.length = 20) (h : Execution cfg X σ ev) (k : Nat) : ∀ j' ∈ (σ (k + 1)).jobs, Stems (σ k).jobs j' := by
  have hs := execution_seeded h k
  obtain ⟨fs, m, h1, h2, _⟩ := seeded_all hO h20 hs
  obtain ⟨es, hes⟩ := seeded_run hs
  have hi : Inv cfg (σ k) := by rw [hes]; exact inv_run _ _
  have hn := h.next k
  cases he : ev k with
  | none =>
    rw [he] at hn
    obtain ⟨_, _, h3, _⟩ := join_seeding hO h20 h1 h2 hn
    intro j hj
    exact .inl (by rw [← h3]; exact hj)
  | some e =>
    rw [he] at hn
    rw [hn.2]
    unfold step
    rw [if_neg (by rw [h1.alive]; simp)]
    cases ha : act cfg e.2 (σ k) e.1 with
    | none => exact fun j hj => .inl hj
    | some y =>
      obtain ⟨o, t⟩ := y
      have := act_stems hi ha
      cases o <;> exact this

/-- A client that downloads from seeders ends up as a client that has the torrent. -/
theorem quiet_all (hO : Original cfg.store X) (h20 : cfg.store.info.sha1.length = 20) (h : Execution cfg X σ ev) (hf : Fair X σ ev) (hp : ∃ n, (σ n).peers ≠ []) :
    ∃ n, ∀ k, n ≤ k → ∃ past, ∀ before ev' conn, (Seeder.mk cfg.peerID [(.start, []), (.load, [])] past before ev' conn).ready cfg.store = σ k ∧
      (Seeder.mk cfg.peerID [(.start, []), (.load, [])] past before ev' conn).Has cfg.store := by
  obtain ⟨F, M, T⟩ := trace hO h20 h
  obtain ⟨n0, hn0⟩ := hp
  have hne : ∀ k, n0 ≤ k → (σ k).peers ≠ [] := by
    intro k hk
    induction hk with
    | refl => exact hn0
    | @step k hk ih =>
      obtain ⟨c, l, hc⟩ := List.exists_cons_of_ne_nil ih
      obtain ⟨c', h1, _⟩ := (T.moves k).conns 0 c (by rw [hc]; rfl)
      intro e
      rw [e] at h1
      cases h1
  obtain ⟨n, hn, I⟩ := T.idle hO hf n0
  have hall := I.complete (hne n hn)
  obtain ⟨n', hn', hq⟩ := T.quiet (execution_stems hO h20 h) hf.toDiligent hall
  refine ⟨n', fun k hk => ?_⟩
  obtain ⟨es, hes, hde⟩ := seeded_past hO h20 (execution_seeded h k)
  refine ⟨es, fun before ev' conn => ?_⟩
  have hr : (Seeder.mk cfg.peerID [(.start, []), (.load, [])] es before ev' conn).ready cfg.store = σ k := hes.symm
  refine ⟨hr, ⟨?_, ?_⟩, ⟨?_, ?_⟩, hde⟩
  · obtain ⟨_, m, hm, _⟩ := seeded_all hO h20 (Seeded.start (cfg := cfg) (X := X))
    intro e
    have h1 : Storage.run cfg.store [(.start, []), (.load, [])] World.empty = ⟨_, some m⟩ := hm.storage
    have e : (Storage.run cfg.store [(.start, []), (.load, [])] World.empty).mem = none := e
    rw [h1] at e
    cases e
  · rw [hr]
    obtain ⟨m, t, h1, _, h2, _⟩ := finished_all hO (T.seeding k) fun i hi => T.done (Nat.le_trans hn' hk) (hall i hi)
    exact ⟨m, by rw [h1], h2⟩
  · rw [hr]; exact (T.seeding k).alive
  · rw [hr]; exact hq k hk

end Drip.P2P
