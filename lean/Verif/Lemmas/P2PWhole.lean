import Verif.Lemmas.P2PStore
import Verif.Lemmas.P2PSafe
import Verif.Lemmas.P2PSent
import Verif.Spec.Seeding
import Verif.Lemmas.StorageConc
/-
A client that has the whole torrent goes on having it, and downloads nothing.
-/

namespace Drip.Storage
open Metainfo

variable {cfg : Cfg}

theorem step_whole {w : World} {m : Mem} (e : Event) (f : List Fate) (he : e ≠ .start) (hl : e ≠ .load) (hm : w.mem = some m) (hc : m.coalesced = true) :
    (step cfg w e f).fs = w.fs ∧ ∀ m', (step cfg w e f).mem = some m' → m'.coalesced = true := by
  have key : ∀ {α : Type} {p : Op α}, wp (fun _ => True) p ⟨fun _ s => s.fs = w.fs ∧ s.mem.coalesced = true, fun _ s => s.fs = w.fs ∧ s.mem.coalesced = true, fun s => s.fs = w.fs,
      fun s => s.fs = w.fs⟩ ⟨w.fs, m⟩ → (runOp p w f).2.fs = w.fs ∧ ∀ m', (runOp p w f).2.mem = some m' → m'.coalesced = true := by
    intro α p h
    rcases runOp_of_wp hm h f (fun _ _ => trivial) with ⟨a, s, h1, h2⟩ | ⟨a, s, h1, h2⟩ | ⟨s, h1, h2⟩ | ⟨s, h1, h2⟩ <;> rw [h1]
    · exact ⟨h2.1, fun m' h => by cases h; exact h2.2⟩
    · exact ⟨h2.1, fun m' h => by cases h; exact h2.2⟩
    · exact ⟨h2, fun m' h => by cases h⟩
    · exact ⟨h2, fun m' h => by cases h⟩
  cases e with
  | start => exact absurd rfl he
  | load => exact absurd rfl hl
  | put i b d =>
    refine key (p := putBlock cfg i b d) ?_
    unfold putBlock
    refine wp_bind (wp_lift ?_)
    cases checkBlockSize cfg.info i b d.length with
    | ok _ =>
      refine wp_bind (wp_getMem ?_)
      show wp _ (if m.coalesced = true then _ else _) _ _
      rw [if_pos hc]
      exact wp_fail ⟨rfl, hc⟩
    | err _ => exact ⟨rfl, hc⟩
    | panic => rfl
  | get i b l =>
    refine key (p := getBlock cfg i b l) (wp_mono (wp_getBlock_any i b l) ?_ ?_ ?_ ?_)
    · intro a s h; rw [h.2]; exact ⟨rfl, hc⟩
    · intro a s h; rw [h]; exact ⟨rfl, hc⟩
    · intro s h; rw [h.1]
    · intro s h; rw [h]
  | reset i =>
    refine key (p := resetPiece i) ?_
    unfold resetPiece
    refine wp_bind (wp_getPiece ?_ (fun _ => rfl))
    intro j p _ _
    show wp _ (resetP j p) _ _
    unfold resetP
    refine wp_bind (wp_deliver ?_ (fun _ => rfl))
    intro _
    refine wp_bind (wp_getMem (wp_bind (wp_setMem (wp_setPiece ⟨rfl, hc⟩))))

open Spec

theorem contents_take {sha1 : Bytes → Bytes} {info : Info} {ds : List Bytes} (h : Contents sha1 info ds) : ∀ k, k < ds.length → (((ds.take k).flatten.length : Nat) : Int) = k * info.pieceLength := by
  intro k
  induction k with
  | zero => intro _; simp
  | succ k ih =>
    intro hk
    have hlt : k < ds.length := by omega
    rw [List.take_add_one, List.getElem?_eq_getElem hlt]
    have h1 := (h.2 k _ (List.getElem?_eq_getElem hlt)).2
    rw [Info.getPieceLength, if_neg (by have := h.1; omega)] at h1
    simp only [Option.toList_some, List.flatten_append, List.length_append, List.flatten_cons, List.flatten_nil, List.append_nil]
    have := ih (by omega)
    push_cast
    rw [this, h1, Int.add_mul, Int.one_mul]

/-- A block within a piece, in the content of the torrent. -/
theorem slice_contents {sha1 : Bytes → Bytes} {info : Info} {ds : List Bytes} (h : Contents sha1 info ds) {i : Nat} {d : Bytes} (hd : ds[i]? = some d) {b l : Nat} (hl : b + l ≤ d.length) :
    slice ds.flatten (i * info.pieceLength + b).toNat l = slice d b l := by
  obtain ⟨hi, he⟩ := List.getElem?_eq_some_iff.1 hd
  have ht := contents_take h i hi
  have hoff : (i * info.pieceLength + b).toNat = (ds.take i).flatten.length + b := by omega
  have hs : ds.flatten = (ds.take i).flatten ++ (d ++ (ds.drop (i + 1)).flatten) := by
    conv => lhs; rw [← List.take_append_drop i ds, List.drop_eq_getElem_cons hi, he]
    simp
  unfold slice
  rw [hoff, hs, ← List.drop_drop, List.drop_left, List.drop_append_of_le_length (by omega), List.take_append_of_le_length (by rw [List.length_drop]; omega)]

/-- A block of a torrent that is complete can be read. -/
theorem getBlock_whole (hu : Usable cfg) (es : List (Event × List Fate)) {m : Mem} (hm : (run cfg es World.empty).mem = some m) (hc : m.coalesced = true)
    (hf : cfg.info.files ≠ [] → (cfg.info.files.map (·.path)).Nodup ∧ (∀ f ∈ cfg.info.files, 0 ≤ f.length)) (hpl : 0 ≤ cfg.info.pieceLength)
    {i b l : Nat} (hi : i < cfg.info.pieces.length) (hfit : ((b + l : Nat) : Int) ≤ cfg.info.getPieceLength i) (fates : List Fate) (hok : ∀ f ∈ fates, f = .ok) :
    ∃ ds d, Contents cfg.sha1 cfg.info ds ∧ ds[i]? = some d ∧
      runOp (getBlock cfg i b l) (run cfg es World.empty) fates = (.ok (slice d b l), run cfg es World.empty) := by
  have hs := reach hu es hm
  have hrep : Reported m i := by
    refine (reported_iff hs).2 ?_
    have hlt : i < m.pieces.length := by have := hs.2.len; simp only at this; omega
    exact ⟨m.pieces[i], List.getElem?_eq_getElem hlt, (hs.2.all hc).2 _ (List.getElem_mem hlt)⟩
  have hdone : TorrentResult m none := by
    have := hs.2.errFut
    simp only [hc, if_true] at this
    exact this
  obtain ⟨r, hr⟩ := C76_available_partial hu es hm hf (fun _ => hdone) hpl i hrep (begin_ := b) (length := l) (by omega) (by omega) (by omega) fates hok
  have hoff : 0 ≤ i * cfg.info.pieceLength := Int.mul_nonneg (by omega) hpl
  have hw := wp_any (wp_getBlock (A := fun _ => True) hs i b l (fun h => ⟨(hf h).1, (hf h).2, by omega⟩)) fates
  obtain ⟨_, t, ds, _, _, hcon, hsl⟩ : 0 ≤ i * cfg.info.pieceLength + b ∧ ∃ t ds, (run cfg es World.empty).fs.target = some t ∧ Holds cfg.info ds.flatten t ∧ Contents cfg.sha1 cfg.info ds ∧
      r = slice ds.flatten (i * cfg.info.pieceLength + b).toNat (l : Int).toNat := by
    unfold runOp at hr
    rw [hm] at hr
    simp only [] at hr
    generalize getBlock cfg i b l ⟨(run cfg es World.empty).fs, m⟩ fates = x at hw hr
    obtain ⟨o, s', f'⟩ := x
    cases o with
    | ok a =>
      have ha : a = r := by injection hr with hr _; injection hr
      subst ha
      exact hw.1.2.2.2 hc
    | _ => cases hr
  have hlt : i < ds.length := by rw [hcon.1]; exact hi
  refine ⟨ds, ds[i], hcon, List.getElem?_eq_getElem hlt, ?_⟩
  rw [hr, hsl, Int.toNat_natCast, slice_contents hcon (List.getElem?_eq_getElem hlt)]
  have := (hcon.2 i _ (List.getElem?_eq_getElem hlt)).2
  omega

end Drip.Storage

namespace Drip.P2P
open PeerWire Metainfo
open Storage (Fate World Mem Usable Reported TorrentResult SInv)

variable {cfg : Cfg} {may : May}

/-- The client has the whole torrent, no download is going on, and the ones that are chosen are of what does not exist. -/
structure Whole (cfg : Cfg) (s : State) : Prop where
  mem : ∃ m, s.storage.mem = some m ∧ m.coalesced = true
  jobs : ∀ j ∈ s.jobs, j.stage = .handed ∨ (j.stage = .fresh ∧ cfg.store.info.pieces.length ≤ j.index)

theorem Whole.idle {s : State} (h : Whole cfg s) {k : Nat} {j : Job} (hk : s.jobs[k]? = some j) : j.stage ≠ .running ∧ j.stage ≠ .over := by
  rcases h.jobs j (List.mem_of_getElem? hk) with h | ⟨h, _⟩ <;> rw [h] <;> simp

/-- What remains as it is when the client has the whole torrent: the disk, and that it has it. -/
def KeepsAll (fs : Storage.FS) (s : State) : Prop := s.storage.fs = fs ∧ ∀ m, s.storage.mem = some m → m.coalesced = true

theorem Small.kept {fs : Storage.FS} {s s' : State} (h : Small cfg may s s') (hm : KeepsAll fs s) : KeepsAll fs s' := by
  have grow : ∀ (e : Storage.Event) (f : List Fate), e ≠ .start → e ≠ .load → s.storage.mem ≠ none →
      (Storage.step cfg.store s.storage e f).fs = fs ∧ ∀ m, (Storage.step cfg.store s.storage e f).mem = some m → m.coalesced = true := by
    intro e f h1 h2 h3
    cases hmm : s.storage.mem with
    | none => exact absurd hmm h3
    | some m =>
      have := Storage.step_whole (cfg := cfg.store) e f h1 h2 hmm (hm.2 m hmm)
      exact ⟨this.1.trans hm.1, this.2⟩
  cases h with
  | storage e f h1 h2 h3 h4 => exact grow e f h1 h4 h2
  | upload x c q d f h0 h1 h2 h3 h4 h5 => exact grow (.get q.index q.begin q.length) f (by simp) (by simp) h5
  | _ => exact hm

theorem Smalls.kept {fs : Storage.FS} {s s' : State} (h : Smalls cfg may s s') (hm : KeepsAll fs s) : KeepsAll fs s' := by
  induction h with
  | refl => exact hm
  | tail _ h ih => exact h.kept ih

/-- A piece that a complete storage does not have does not exist. -/
theorem spare {s : State} (hu : Usable cfg.store) (hst : StoreInv cfg s) {m : Mem} (hm : s.storage.mem = some m) (hc : m.coalesced = true) {i : Nat} (hi : Bitfield.bit m.bitfield i = false) :
    cfg.store.info.pieces.length ≤ i := by
  obtain ⟨es, he⟩ := hst.hist
  have hs := Storage.reach hu es (m := m) (by rw [← he]; exact hm)
  refine Classical.byContradiction fun hn => ?_
  have hlt : i < m.pieces.length := by rw [hs.2.len]; omega
  have := (hs.2.bf i).2 ⟨m.pieces[i], List.getElem?_eq_getElem hlt, (hs.2.all hc).2 _ (List.getElem_mem hlt)⟩
  rw [hi] at this; cases this

theorem Whole.step {s : State} (hu : Usable cfg.store) (hi : Inv cfg s) (hst : StoreInv cfg s) (h : Whole cfg s) (e : Event × Luck) (hal : (P2P.step cfg s e).alive = true) : Whole cfg (P2P.step cfg s e) := by
  obtain ⟨m, hm, hc⟩ := h.mem
  rcases step_alive (cfg := cfg) s e with hs | ⟨ha, o, s', hact, hs⟩
  · rw [hs]; exact h
  obtain ⟨hne, hs⟩ : (o ≠ .panic ∧ o ≠ .crash) ∧ P2P.step cfg s e = s' := by
    rcases hs with ⟨_, hs⟩ | hs
    · rw [hs] at hal; cases hal
    · exact hs
  have hsm := step_small (cfg := cfg) e hi.pendOK
  rw [hs] at hsm ⊢
  have hmem : ∃ m, s'.storage.mem = some m ∧ m.coalesced = true := by
    cases hmm : s'.storage.mem with
    | none =>
      rcases mem_act (by rw [hm]; simp) hact with (h1 | h1) | h1
      · exact absurd h1 hne.1
      · exact absurd h1 hne.2
      · exact absurd hmm h1
    | some m' => exact ⟨m', rfl, (hsm.kept (fs := s.storage.fs) ⟨rfl, fun m'' h'' => by rw [hm] at h''; cases h''; exact hc⟩).2 m' hmm⟩
  refine ⟨hmem, ?_⟩
  by_cases he : (mayOf cfg s e.1).jobs
  · obtain ⟨e, l⟩ := e
    have hfr : ∀ {k : Nat} {x : Ref} {i : Nat} {st : Stage}, s.jobs[k]? = some ⟨x, i, st⟩ → st = .handed ∨ (st = .fresh ∧ cfg.store.info.pieces.length ≤ i) :=
      fun hk => h.jobs _ (List.mem_of_getElem? hk)
    rcases he with ⟨k, he⟩ | ⟨k, he⟩ | ⟨k, res, he⟩ | ⟨k, he⟩ | ⟨k, he⟩
    all_goals simp only at he; subst he; simp only [act] at hact
    · cases hk : s.toRequest[k]? with
      | none => rw [hk] at hact; cases hact
      | some x =>
        rw [hk] at hact
        simp only [] at hact
        have hl := requestPiece_jobs (l.ok x) l.coins l.pdq x s
        have hcs : ∀ i : Nat, (requestPieceFromPeer (l.ok x) l.coins l.pdq x s).2.jobs = s.jobs ++ [{ peer := x, index := i }] → cfg.store.info.pieces.length ≤ i := by
          intro i hj
          cases hlk : s.locked with
          | true =>
            have : requestPieceFromPeer (l.ok x) l.coins l.pdq x s = (.stuck, s) := by unfold requestPieceFromPeer; rw [locked_apply, if_pos hlk]
            rw [this] at hj; simp at hj
          | false =>
            cases hcc : s.peers[x]? with
            | none =>
              exfalso
              unfold requestPieceFromPeer at hj
              rw [locked_apply, if_neg (by rw [hlk]; simp), bind_apply, getConn_apply] at hj
              simp only [hcc] at hj
              simp at hj
            | some c =>
              rcases requestPiece_cases (r := x) (l.ok x) l.coins l.pdq hlk hcc hm with ⟨_, h⟩ | ⟨_, ⟨_, _, c', h, _⟩ | ⟨i', h1, h⟩ | ⟨_, _, h⟩⟩
              · rw [h] at hj; simp at hj
              · rw [h] at hj; simp at hj
              · rw [h] at hj
                simp only [List.append_cancel_left_eq] at hj
                cases hj
                have hw := mem_wanted.1 ((sortPieces_perm _ _ _ _).mem_iff.mp (firstFree_some h1).1)
                exact spare hu hst hm hc hw.2
              · rw [h] at hj; simp at hj
        generalize requestPieceFromPeer (l.ok x) l.coins l.pdq x s = y at hact hl hcs
        obtain ⟨o', t⟩ := y
        have hs : s' = s ∨ s'.jobs = t.jobs := by
          cases o' <;> cases hact <;> first | exact .inl rfl | exact .inr rfl
        rcases hs with rfl | e1
        · exact h.jobs
        rw [e1]
        rcases hl with ⟨h1, _⟩ | ⟨i, _, h1, _⟩
        · rw [h1]; exact h.jobs
        · have := hcs i h1
          rw [h1]
          intro j hj
          rcases List.mem_append.1 hj with hj | hj
          · exact h.jobs j hj
          · rw [List.mem_singleton] at hj; subst hj; exact .inr ⟨rfl, this⟩
    all_goals
      cases hk : s.jobs[k]? with
      | none => rw [hk] at hact; cases hact
      | some j =>
        obtain ⟨x, i, st⟩ := j
        rcases hfr hk with hst' | ⟨hst', hn⟩
        · subst hst'
          rw [hk] at hact
          first
          | cases hact; done
          | cases hact
            exact fun j hj => h.jobs j (List.mem_of_mem_eraseIdx hj)
        subst hst'
        rw [hk] at hact
        first
        | cases hact; done
        | exfalso
          simp only [] at hact
          obtain ⟨es, hes⟩ := hst.hist
          have hS := Storage.reach hu es (m := m) (by rw [← hes]; exact hm)
          have hp : Act.store l.fates (Storage.resetPiece (i : Int)) s = (.panic, { s with storage := { s.storage with mem := none } }) := by
            have hr : Storage.runOp (Storage.resetPiece (i : Int)) s.storage l.fates = (.panic, { s.storage with mem := none }) := by
              unfold Storage.runOp
              rw [hm]
              simp only []
              rw [StorageConc.resetPiece_none (by have := hS.2.len; simp only at this ⊢; omega)]
            unfold Act.store
            rw [hr]
          rw [hp] at hact
          cases hact
          exact hne.1 rfl
  · rw [(hsm.jobsFrame he).1]; exact h.jobs

open Spec in
theorem allBits {s : State} (hu : Usable cfg.store) (hst : StoreInv cfg s) {m : Mem} (hm : s.storage.mem = some m) (hc : m.coalesced = true) : AllBits cfg.store.info.pieces.length m.bitfield := by
  obtain ⟨es, he⟩ := hst.hist
  have hs := Storage.reach hu es (m := m) (by rw [← he]; exact hm)
  have hbit : ∀ i, Bitfield.bit m.bitfield i = decide (i < cfg.store.info.pieces.length) := by
    intro i
    cases hb : Bitfield.bit m.bitfield i with
    | true =>
      obtain ⟨p, hp, _⟩ := (hs.2.bf i).1 hb
      have := (List.getElem?_eq_some_iff.1 hp).1
      rw [hs.2.len] at this
      simp [this]
    | false => have := spare hu hst hm hc hb; simp; omega
  refine ⟨?_, fun i => ?_⟩
  · have h1 := Bitfield.new_length cfg.store.info.pieces.length
    have h2 := hs.2.bfLen
    simp only at h2
    omega
  · rw [← hbit i]
    unfold Bitfield.bit
    rw [List.getD_eq_getElem?_getD]
    cases m.bitfield[i / 8]? with
    | none => simp
    | some x => rfl

/-- What a client that has the whole torrent has sent, on the connections from number `n` on. -/
structure Sends (cfg : Cfg) (n : Nat) (s : State) : Prop where
  bits : ∀ (x : Ref) (c : Conn) (msg : Message), n ≤ x → s.peers[x]? = some c → msg ∈ c.sent → msg.typ = BITFIELD → Spec.AllBits cfg.store.info.pieces.length msg.bitfield
  only : ∀ (x : Ref) (c : Conn) (msg : Message), n ≤ x → s.peers[x]? = some c → msg ∈ c.sent →
    msg.typ = BITFIELD ∨ msg.typ = UNCHOKE ∨ msg.typ = PIECE ∨ msg.typ = INTERESTED ∨ msg.typ = NOT_INTERESTED

theorem bitfield_bitfieldMsg (b : Bytes) : (bitfieldMsg b).bitfield = b := rfl

theorem Smalls.bits {s s' : State} (hu : Usable cfg.store) (hf : FilesOK cfg.store.info) (hs : StoreInv cfg s) (hi : Inv cfg s) (hg : Good may s) (hb : Backed may s) (h : Smalls cfg may s s')
    (hk : KeepsAll fs s) {x : Ref} {c c' : Conn} (hc : s.peers[x]? = some c) (hc' : s'.peers[x]? = some c') :
    ∀ msg ∈ c'.sent, msg ∈ c.sent ∨ may.send x msg ∨ msg.typ = PIECE ∨ msg.typ = BITFIELD ∧ Spec.AllBits cfg.store.info.pieces.length msg.bitfield := by
  induction h generalizing c' with
  | refl => intro msg hm; rw [hc] at hc'; cases hc'; exact .inl hm
  | @tail b t hsb h ih =>
    obtain ⟨d, hd, _⟩ := Smalls.said hsb hc
    have ih := ih hd
    have one : ∀ a : Conn, (∀ msg ∈ a.sent, msg ∈ d.sent ∨ may.send x msg ∨ msg.typ = PIECE ∨ msg.typ = BITFIELD ∧ Spec.AllBits cfg.store.info.pieces.length msg.bitfield) → t.peers[x]? = some a →
        ∀ msg ∈ c'.sent, msg ∈ c.sent ∨ may.send x msg ∨ msg.typ = PIECE ∨ msg.typ = BITFIELD ∧ Spec.AllBits cfg.store.info.pieces.length msg.bitfield := by
      intro a ha he msg hm
      rw [he] at hc'; cases hc'
      rcases ha msg hm with h | h
      · exact ih msg h
      · exact .inr h
    have same : t.peers[x]? = some d → ∀ msg ∈ c'.sent, msg ∈ c.sent ∨ may.send x msg ∨ msg.typ = PIECE ∨ msg.typ = BITFIELD ∧ Spec.AllBits cfg.store.info.pieces.length msg.bitfield :=
      one d fun msg h => .inl h
    cases h with
    | new id ip port _ => exact same (by rw [List.getElem?_append_left (List.getElem?_eq_some_iff.1 hd).1]; exact hd)
    | upd y a b' h1 h2 =>
      rcases set_get (c' := b') h1 hd with ⟨e1, e, h⟩ | ⟨_, h⟩
      · subst e e1
        refine one _ ?_ h
        cases h2 with
        | send m h1 h2 h3 =>
          intro msg hm
          rcases List.mem_append.1 hm with hm | hm
          · exact .inl hm
          · rw [List.mem_singleton] at hm; subst hm; exact .inr (.inl h1)
        | _ => exact fun msg h => .inl h
      · exact same h
    | upload y a q dd f h0 h1 h2 =>
      rcases set_get (c' := a.gave q dd) h1 hd with ⟨e1, e, h⟩ | ⟨_, h⟩
      · subst e e1
        refine one _ (fun msg hm => ?_) h
        rcases List.mem_append.1 hm with hm | hm
        · exact .inl hm
        · rw [List.mem_singleton] at hm; subst hm; exact .inr (.inr (.inl rfl))
      · exact same h
    | join y a ms ph hp h1 h2 h3 h4 h5 =>
      rcases set_get (c' := a.join ms ph) h1 hd with ⟨e1, e, h⟩ | ⟨_, h⟩
      · subst e e1
        refine one _ (fun msg hm => ?_) h
        rcases List.mem_append.1 hm with hm | hm
        · exact .inl hm
        · rcases h5 with ⟨rfl, _⟩ | ⟨_, _, m, hmm, rfl⟩
          · cases hm
          · rw [List.mem_singleton] at hm; subst hm
            exact .inr (.inr (.inr ⟨rfl, allBits hu (hs.smalls hu hf hi hg hb hsb) hmm ((Smalls.kept hsb hk).2 m hmm)⟩))
      · exact same h
    | _ => exact same hd

theorem Sends.step {s : State} (hu : Usable cfg.store) (hf : FilesOK cfg.store.info) (hi : Inv cfg s) (hst : StoreInv cfg s) (h : Whole cfg s) {n : Nat} (hs : Sends cfg n s) (e : Event × Luck) :
    Sends cfg n (P2P.step cfg s e) := by
  cases hal : s.alive with
  | false => rw [alive_step _ hal]; exact hs
  | true =>
  have hk : KeepsAll s.storage.fs s := ⟨rfl, fun m hm => by obtain ⟨m', h1, h2⟩ := h.mem; rw [hm] at h1; cases h1; exact h2⟩
  suffices key : ∀ (x : Ref) (c' : Conn) (msg : Message), (P2P.step cfg s e).peers[x]? = some c' → msg ∈ c'.sent → (∃ c, s.peers[x]? = some c ∧ msg ∈ c.sent) ∨
      (msg.typ = UNCHOKE ∨ msg.typ = PIECE ∨ msg.typ = INTERESTED ∨ msg.typ = NOT_INTERESTED) ∨ (msg.typ = BITFIELD ∧ Spec.AllBits cfg.store.info.pieces.length msg.bitfield) by
    constructor
    · intro x c' msg hx hc' hm ht
      rcases key x c' msg hc' hm with ⟨c, h1, h2⟩ | h1 | h1
      · exact hs.bits x c msg hx h1 h2 ht
      · rw [ht] at h1; exact absurd h1 (by decide)
      · exact h1.2
    · intro x c' msg hx hc' hm
      rcases key x c' msg hc' hm with ⟨c, h1, h2⟩ | h1 | h1
      · exact hs.only x c msg hx h1 h2
      · exact .inr h1
      · exact .inl h1.1
  intro x c' msg hc' hm
  cases hc : s.peers[x]? with
  | none => rw [(fresh_step hi hal e hc hc').2.2.1] at hm; cases hm
  | some c =>
    rcases (step_small (cfg := cfg) e hi.pendOK).bits hu hf hst hi (mayOf_good hi e.1) (mayOf_backed hu hst hi e.1) hk hc hc' msg hm with h1 | h1 | h1 | h1
    · exact .inl ⟨c, rfl, h1⟩
    · right; left
      rcases h1 with ⟨_, rfl, _⟩ | ⟨_, rfl, _⟩ | ⟨k, _, _, rfl⟩ | ⟨k, q, i, _, hj, _⟩ | ⟨k, y, i, _, hj, _⟩
      · exact .inr (.inr (.inl rfl))
      · exact .inl rfl
      · exact .inr (.inr (.inr rfl))
      · exact absurd rfl (h.idle hj).1
      · exact absurd rfl (h.idle hj).1
    · exact .inr (.inl (.inr (.inl h1)))
    · exact .inr (.inr h1)

/-- A REQUEST is handled: the block is there, and can be sent. -/
theorem handle_request {s : State} {r : Ref} {c : Conn} {m : Message} (ha : s.alive = true) (hc : s.peers[r]? = some c) (hp : c.phase = .serving (some m)) (ht : m.typ = REQUEST) (hu : c.choked = false)
    (hcan : ⟨m.index, m.begin, m.length⟩ ∉ c.canceled) (hcl : c.closed = false) {l : Luck} (hok : l.ok r = true) {d : Bytes}
    (hd : Storage.runOp (Storage.getBlock cfg.store m.index m.begin m.length) s.storage l.fates = (.ok d, s.storage)) :
    P2P.step cfg s (.handle r, l) = { s with peers := s.peers.set r { c.gave m d with phase := .serving none }, uploaded := s.uploaded + d.length } := by
  have hm : handleMessage l.fates (l.ok r) cfg r m = handleRequest l.fates (l.ok r) cfg r m.index m.begin m.length := by
    unfold handleMessage
    rw [if_neg (by rw [ht]; decide), if_neg (by rw [ht]; decide), if_neg (by rw [ht]; decide), if_neg (by rw [ht]; decide), if_neg (by rw [ht]; decide),
      if_neg (by rw [ht]; decide), if_pos ht]
    unfold Message.getIndex Message.getBegin Message.getLength
    rw [if_pos (.inr (.inl ht)), if_pos (.inl ht), if_pos (.inl ht)]
    rfl
  have hcu : ¬ c.choked = true := by rw [hu]; simp
  have hh : handleRequest l.fates (l.ok r) cfg r m.index m.begin m.length s = (.ok (), { s with peers := s.peers.set r (c.gave m d), uploaded := s.uploaded + d.length }) := by
    unfold handleRequest
    rw [bind_apply, getConn_some hc]
    simp only []
    rw [if_neg hcu, if_neg hcan, bind_apply]
    have hst : Act.store l.fates (Storage.getBlock cfg.store m.index m.begin m.length) s = (.ok d, s) := by
      unfold Act.store; rw [hd]
    rw [hst]
    simp only []
    have hn : ¬ ((pieceMsg m.index m.begin d).typ = REQUEST ∧ c.remoteChoked = true) := by
      rintro ⟨h, _⟩; exact absurd h (by show PIECE ≠ REQUEST; decide)
    rw [bind_apply]
    unfold send
    rw [bind_apply, getConn_some hc]
    simp only [hn, if_false, hok, hcl, Bool.not_false, and_self, if_true, setConn_apply, bind_apply, modify_apply]
    rw [modify_some hc, modify_some (List.getElem?_set_self (List.getElem?_eq_some_iff.1 hc).1), List.set_set]
    rfl
  unfold P2P.step
  rw [if_neg (by rw [ha]; simp)]
  simp only [act, hc, Option.map_some, hp, hm, hh, next]
  rw [modify_some (List.getElem?_set_self (List.getElem?_eq_some_iff.1 hc).1), List.set_set]

/-- In every history of a client that has the whole torrent: after `es1` it does. -/
theorem kept_run (w : World) (es1 : List (Event × Luck)) {m1 : Mem} (hm1 : (run cfg (init w) es1).storage.mem = some m1) (hd : m1.coalesced = true) (es : List (Event × Luck)) :
    KeepsAll (run cfg (init w) es1).storage.fs (run cfg (run cfg (init w) es1) es) := by
  refine run_rec (cfg := cfg) (P := fun _ s => KeepsAll (run cfg (init w) es1).storage.fs s) _ ⟨rfl, fun m hm => ?_⟩ (fun es e ih => ?_) es
  · rw [hm1] at hm; cases hm; exact hd
  · refine (step_small (cfg := cfg) e ?_).kept ih
    rw [← run_append]
    exact (inv_run (cfg := cfg) _ _).pendOK

theorem whole_run (hu : Usable cfg.store) (hf : FilesOK cfg.store.info) (es0 : List (Storage.Event × List Fate)) (es1 : List (Event × Luck)) {m1 : Mem}
    (hm1 : (run cfg (init (Storage.run cfg.store es0 World.empty)) es1).storage.mem = some m1) (hd : m1.coalesced = true)
    (hj : ∀ j ∈ (run cfg (init (Storage.run cfg.store es0 World.empty)) es1).jobs, j.stage = .handed) (es : List (Event × Luck))
    (hal : (run cfg (run cfg (init (Storage.run cfg.store es0 World.empty)) es1) es).alive = true) :
    Whole cfg (run cfg (run cfg (init (Storage.run cfg.store es0 World.empty)) es1) es) ∧
      Sends cfg (run cfg (init (Storage.run cfg.store es0 World.empty)) es1).peers.length (run cfg (run cfg (init (Storage.run cfg.store es0 World.empty)) es1) es) := by
  refine run_rec (cfg := cfg) (P := fun _ s => s.alive = true → Whole cfg s ∧ Sends cfg (run cfg (init (Storage.run cfg.store es0 World.empty)) es1).peers.length s) _ (fun _ => ?_)
    (fun es e ih hal => ?_) es hal
  · refine ⟨⟨⟨m1, hm1, hd⟩, fun j h => .inl (hj j h)⟩, ⟨fun x c msg hx hc => ?_, fun x c msg hx hc => ?_⟩⟩ <;>
      exact absurd (List.getElem?_eq_some_iff.1 hc).1 (by omega)
  · have hi := inv_run (cfg := cfg) (Storage.run cfg.store es0 World.empty) (es1 ++ es)
    have hst := store_run' (cfg := cfg) hu hf es0 (es1 ++ es)
    rw [run_append] at hi hst
    generalize run cfg (run cfg (init (Storage.run cfg.store es0 World.empty)) es1) es = s at *
    have ha : s.alive = true := by
      cases h : s.alive with
      | true => rfl
      | false => rw [alive_step _ h, h] at hal; cases hal
    obtain ⟨h1, h2⟩ := ih ha
    exact ⟨h1.step hu hi hst e hal, h2.step hu hf hi hst h1 e⟩

end Drip.P2P
