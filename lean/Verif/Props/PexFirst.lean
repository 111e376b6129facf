import Verif.Props.Pex
import Verif.Spec.FirstSince
/-
C57 and C82, exactly: which peers are listed, with which id and which text of their address.
-/

namespace Drip.Pex
open Spec Tracker Bencode Multi

variable {iter : Table → Table} {errText : Bytes → Bytes}

section
variable {known : List Bytes} {hash : Bytes} {e : Place}

theorem forgotten_cons {x : Int × Event} {h : List (Int × Event)} :
    Forgotten known hash e (x :: h) ↔ Swept known hash e x h ∨ (Forgotten known hash e h ∧ ∀ b, ¬ AnnouncesPlace known hash e x b) := by
  constructor
  · rintro ⟨l, r, h1, h2, h3⟩
    cases l with
    | nil =>
      simp only [List.nil_append] at h1
      rcases h3 with h3 | ⟨y, r', h3, h4⟩
      · rw [h3] at h1; cases h1
      · rw [h3] at h1; cases h1; exact .inl h4
    | cons y l =>
      cases h1
      exact .inr ⟨⟨l, r, rfl, fun x hx => h2 x (List.mem_cons_of_mem _ hx), h3⟩, h2 x (List.mem_cons_self ..)⟩
  · rintro (h1 | ⟨⟨l, r, rfl, h2, h3⟩, h4⟩)
    · exact ⟨[], x :: h, rfl, (by simp), .inr ⟨x, h, rfl, h1⟩⟩
    · refine ⟨x :: l, r, rfl, ?_, h3⟩
      intro y hy
      rcases List.mem_cons.mp hy with rfl | hy
      · exact h4
      · exact h2 y hy

theorem firstSince_cons {x : Int × Event} {h : List (Int × Event)} {b : Announce} :
    FirstSince known hash e (x :: h) b ↔ (AnnouncesPlace known hash e x b ∧ Forgotten known hash e h) ∨ (FirstSince known hash e h b ∧ ¬ Swept known hash e x h) := by
  constructor
  · rintro ⟨l, y, r, h1, h2, h3, h4⟩
    cases l with
    | nil => cases h1; exact .inl ⟨h2, h3⟩
    | cons z l =>
      cases h1
      exact .inr ⟨⟨l, y, r, rfl, h2, h3, fun l1 w l2 hl => h4 (x :: l1) w l2 (by rw [hl]; rfl)⟩, h4 [] x l rfl⟩
  · rintro (⟨h1, h2⟩ | ⟨⟨l, y, r, rfl, h2, h3, h4⟩, h5⟩)
    · exact ⟨[], x, h, rfl, h1, h2, fun l1 y l2 hl => by simp at hl⟩
    · refine ⟨x :: l, y, r, rfl, h2, h3, fun l1 w l2 hl => ?_⟩
      cases l1 with
      | nil => cases hl; exact h5
      | cons z l1 => cases hl; exact h4 l1 w l2 rfl

theorem swept_iff {x : Int × Event} {h : List (Int × Event)} : Swept known hash e x h ↔ x.2 = .cleanup ∧ ¬ Live x.1 (past known h) hash e :=
  ⟨fun ⟨h1, h2⟩ => ⟨h1, h2 _ (pastOf_iff.mpr rfl)⟩, fun ⟨h1, h2⟩ => ⟨h1, fun p hp => by rw [pastOf_iff.mp hp]; exact h2⟩⟩

theorem announcesPlace_iff {t : Int} {remote query : Bytes} {b : Announce} :
    AnnouncesPlace known hash e (t, .request remote query) b ↔ ∃ c, understood known remote query = some (b, c) ∧ b.hash = hash ∧ b.place = e := by
  constructor
  · rintro ⟨r, q, c, h1, h2, h3⟩
    cases h1
    exact ⟨c, (announces_iff _ _ _ _ _).mpr h2, h3⟩
  · rintro ⟨c, h2, h3⟩
    exact ⟨_, _, c, rfl, (announces_iff _ _ _ _ _).mp h2, h3⟩

end

/-- What is listed of an announce. -/
def shown (b : Announce) : Tracker.Peer := ⟨b.id, b.text, b.port⟩

theorem lookup_assign_self {α : Type} {m : List (Bytes × α)} {k : Bytes} {v : α} (hn : (m.map (·.1)).Nodup) : (assign m k v).lookup k = some v :=
  lookup_of_mem (assign_nodup hn) (mem_assign.mpr (.inl rfl))

/-- The entry of a place is that of the first announce since it was forgotten. -/
def Remembers (known : List Bytes) (hash : Bytes) (h : List (Int × Event)) (table : Table) : Prop :=
  ∀ e : Place, e.1.length = 16 →
    match table.lookup (key e) with
    | none => Forgotten known hash e h
    | some q => ∃ b, FirstSince known hash e h b ∧ q.tp = shown b

theorem Remembers.other {known : List Bytes} {hash : Bytes} {h : List (Int × Event)} {table : Table} (hr : Remembers known hash h table) (x : Int × Event)
    (hx : x.2 ≠ .cleanup) (hn : ∀ e b, ¬ AnnouncesPlace known hash e x b) : Remembers known hash (x :: h) table := by
  intro e he
  have := hr e he
  have hs : ¬ Swept known hash e x h := fun hs => hx hs.1
  cases hl : table.lookup (key e) with
  | none => rw [hl] at this; exact forgotten_cons.mpr (.inr ⟨this, hn e⟩)
  | some q =>
    rw [hl] at this
    obtain ⟨b, h1, h2⟩ := this
    exact ⟨b, firstSince_cons.mpr (.inr ⟨h1, hs⟩), h2⟩

theorem Remembers.announce {known : List Bytes} {h : List (Int × Event)} {table : Table} {now : Int} {remote query : Bytes} {a : Announce} {c : Bool}
    (hr : Remembers known a.hash h table) (hd : (table.map (·.1)).Nodup) (ha : Good a) (hu : understood known remote query = some (a, c)) :
    Remembers known a.hash ((now, .request remote query) :: h) (assign table (key a.place) (newEntry now a table)) := by
  intro e he
  have hs : ¬ Swept known a.hash e (now, .request remote query) h := fun hs => by cases hs.1
  by_cases hp : e = a.place
  · subst hp
    rw [lookup_assign_self hd]
    have := hr _ he
    show ∃ b, _
    cases hl : table.lookup (key a.place) with
    | none =>
      rw [hl] at this
      exact ⟨a, firstSince_cons.mpr (.inl ⟨announcesPlace_iff.mpr ⟨c, hu, rfl, rfl⟩, this⟩), by simp [newEntry, hl, shown]⟩
    | some q =>
      rw [hl] at this
      obtain ⟨b, h1, h2⟩ := this
      exact ⟨b, firstSince_cons.mpr (.inr ⟨h1, hs⟩), by simpa [newEntry, hl] using h2⟩
  · have hk : key e ≠ key a.place := fun hk => hp (key_inj he (place_length ha) hk)
    rw [lookup_assign_ne hk]
    have hn : ∀ b, ¬ AnnouncesPlace known a.hash e (now, .request remote query) b := by
      intro b hb
      obtain ⟨c', h1, -, h3⟩ := announcesPlace_iff.mp hb
      rw [hu] at h1
      cases h1
      exact hp h3.symm
    have := hr e he
    cases hl : table.lookup (key e) with
    | none => rw [hl] at this; exact forgotten_cons.mpr (.inr ⟨this, hn⟩)
    | some q =>
      rw [hl] at this
      obtain ⟨b, h1, h2⟩ := this
      exact ⟨b, firstSince_cons.mpr (.inr ⟨h1, hs⟩), h2⟩

theorem Remembers.cleanup {known : List Bytes} {hash : Bytes} {h : List (Int × Event)} {table : Table} {now u : Int}
    (hr : Remembers known hash h table) (ha : Agrees u (past known h) hash table) (hg : Goods (past known h)) :
    Remembers known hash ((now, .cleanup) :: h) (table.filter fun x => !gone now x.2) := by
  intro e he
  have hd : ((table.filter fun x => !gone now x.2).map (·.1)).Nodup := ha.nodup.sublist (List.Sublist.map _ List.filter_sublist)
  have hn : ∀ b, ¬ AnnouncesPlace known hash e (now, .cleanup) b := by
    rintro b ⟨r, q, c, h1, -⟩
    cases h1
  have := hr e he
  cases hl : table.lookup (key e) with
  | none =>
    rw [hl] at this
    have : (table.filter fun x => !gone now x.2).lookup (key e) = none := by
      refine lookup_none.mpr fun hm => lookup_none.mp hl ?_
      obtain ⟨x, hx, hk⟩ := List.mem_map.mp hm
      exact List.mem_map.mpr ⟨x, (List.mem_filter.mp hx).1, hk⟩
    rw [this]
    exact forgotten_cons.mpr (.inr ⟨by assumption, hn⟩)
  | some q =>
    rw [hl] at this
    obtain ⟨b, h1, h2⟩ := this
    have hm := mem_of_lookup hl
    obtain ⟨b0, t, k1, k2, k3, k4, k5⟩ := ha.entry _ hm
    have e0 : e = b0.place := key_inj he (place_length (hg _ _ k1)) k3
    have hlive := gone_live (now := now) k5
    rw [← e0] at hlive
    cases hgn : gone now q with
    | false =>
      have : (table.filter fun x => !gone now x.2).lookup (key e) = some q := lookup_of_mem hd (List.mem_filter.mpr ⟨hm, by simp [hgn]⟩)
      rw [this]
      exact ⟨b, firstSince_cons.mpr (.inr ⟨h1, fun hs => (swept_iff.mp hs).2 (hlive.mp hgn)⟩), h2⟩
    | true =>
      have : (table.filter fun x => !gone now x.2).lookup (key e) = none := by
        refine lookup_none.mpr fun hx => ?_
        obtain ⟨⟨k, q'⟩, hx, hk⟩ := List.mem_map.mp hx
        obtain ⟨hx1, hx2⟩ := List.mem_filter.mp hx
        simp only at hk
        subst hk
        have := (lookup_of_mem ha.nodup hx1).symm.trans hl
        cases this
        simp [hgn] at hx2
      rw [this]
      exact forgotten_cons.mpr (.inl (swept_iff.mpr ⟨rfl, fun hlv => by rw [hlive.mpr hlv] at hgn; cases hgn⟩))

theorem run_remembers {t : HTTP} (hf : Fresh t) (h : List (Int × Event)) (now : Int) (hc : Clock now (h.map (·.1))) :
    ∀ x ∈ run iter errText t h, Remembers (t.map (·.1)) x.1 h x.2 := by
  induction h generalizing now with
  | nil =>
    intro x hx e he
    rw [hf.2 x hx]
    exact ⟨[], [], rfl, (by simp), .inl rfl⟩
  | cons y h ih =>
    obtain ⟨u, y⟩ := y
    obtain ⟨h1, h2⟩ := hc
    have ih := ih u h2
    have hinv := run_inv (iter := iter) (errText := errText) hf h u h2
    cases y with
    | cleanup =>
      intro x hx
      change x ∈ Pex.cleanup u (run iter errText t h) at hx
      simp only [Pex.cleanup, List.mem_map] at hx
      obtain ⟨y, hy, rfl⟩ := hx
      exact (ih y hy).cleanup (hinv.tables y hy) hinv.goods
    | request remote query =>
      intro x hx
      change x ∈ (serve iter errText u remote query (run iter errText t h)).2 at hx
      cases hu : understood (t.map (·.1)) remote query with
      | none =>
        have hu' := hu
        rw [← hinv.keys] at hu'
        rw [(serve_not_understood hu').1] at hx
        refine (ih x hx).other _ (by simp) ?_
        intro e b hb
        obtain ⟨c, h3, -⟩ := announcesPlace_iff.mp hb
        rw [hu] at h3
        cases h3
      | some ac =>
        obtain ⟨a, c⟩ := ac
        obtain ⟨hga, hk⟩ := understood_good hu
        have hu' := hu
        rw [← hinv.keys] at hu'
        obtain ⟨table, h3, h4⟩ := serve_understood (iter := iter) (errText := errText) (now := u) hu'
        rw [h4] at hx
        rcases mem_assign.mp hx with rfl | ⟨hx, hne⟩
        · have hm := mem_of_lookup h3
          exact (ih _ hm).announce (hinv.tables _ hm).nodup hga hu
        · refine (ih x hx).other _ (by simp) ?_
          intro e b hb
          obtain ⟨c', h5, h6, -⟩ := announcesPlace_iff.mp hb
          rw [hu] at h5
          cases h5
          exact hne h6.symm

theorem forgotten_congr {k k' : List Bytes} (h : ∀ x, x ∈ k ↔ x ∈ k') {hash : Bytes} {e : Place} {es : List (Int × Event)} {b : Announce} (hb : FirstSince k hash e es b) :
    FirstSince k' hash e es b := by
  have ha : ∀ x b, AnnouncesPlace k hash e x b ↔ AnnouncesPlace k' hash e x b := by
    rintro ⟨t, x⟩ b
    cases x with
    | cleanup => exact ⟨fun ⟨_, _, _, h, _⟩ => (by cases h), fun ⟨_, _, _, h, _⟩ => (by cases h)⟩
    | request r q => rw [announcesPlace_iff, announcesPlace_iff, understood_congr h]
  have hs : ∀ x es, Swept k hash e x es ↔ Swept k' hash e x es := fun x es => by rw [swept_iff, swept_iff, past_congr h]
  obtain ⟨l, x, r, h1, h2, ⟨l', r', h3, h4, h5⟩, h6⟩ := hb
  refine ⟨l, x, r, h1, (ha _ _).mp h2, ⟨l', r', h3, fun y hy b hb => h4 y hy b ((ha _ _).mpr hb), ?_⟩, fun l1 y l2 hl hsw => h6 l1 y l2 hl ((hs _ _).mpr hsw)⟩
  rcases h5 with h5 | ⟨y, r2, h5, h7⟩
  · exact .inl h5
  · exact .inr ⟨y, r2, h5, (hs _ _).mp h7⟩

theorem firstSince_unique {known : List Bytes} {hash : Bytes} {e : Place} {h : List (Int × Event)} {b : Announce} (hb : FirstSince known hash e h b) :
    (¬ Forgotten known hash e h) ∧ (∀ b', FirstSince known hash e h b' → b' = b) ∧ b.hash = hash ∧ b.place = e := by
  induction h generalizing b with
  | nil => obtain ⟨l, x, r, h1, -⟩ := hb; simp at h1
  | cons x h ih =>
    have hu : ∀ b b', AnnouncesPlace known hash e x b → AnnouncesPlace known hash e x b' → b' = b := by
      obtain ⟨t, x⟩ := x
      intro b b' h1 h2
      cases x with
      | cleanup => obtain ⟨_, _, _, h3, _⟩ := h1; cases h3
      | request r q =>
        obtain ⟨c, h3, -⟩ := announcesPlace_iff.mp h1
        obtain ⟨c', h4, -⟩ := announcesPlace_iff.mp h2
        rw [h3] at h4
        cases h4
        rfl
    have hns : ∀ b, AnnouncesPlace known hash e x b → ¬ Swept known hash e x h := by
      rintro b ⟨_, _, _, h3, _⟩ ⟨h4, _⟩
      rw [h3] at h4
      cases h4
    rw [forgotten_cons]
    rcases firstSince_cons.mp hb with ⟨h1, h2⟩ | ⟨h1, h2⟩
    · refine ⟨?_, ?_, ?_⟩
      · rintro (h3 | ⟨-, h3⟩)
        · exact hns b h1 h3
        · exact h3 b h1
      · intro b' hb'
        rcases firstSince_cons.mp hb' with ⟨h3, -⟩ | ⟨h3, -⟩
        · exact hu b b' h1 h3
        · exact absurd h2 (ih h3).1
      · obtain ⟨_, _, _, _, _, h5, h6⟩ := h1
        exact ⟨h5, h6⟩
    · obtain ⟨i1, i2, i3⟩ := ih h1
      refine ⟨?_, ?_, i3⟩
      · rintro (h3 | ⟨h3, -⟩)
        · exact h2 h3
        · exact i1 h3
      · intro b' hb'
        rcases firstSince_cons.mp hb' with ⟨-, h3⟩ | ⟨h3, -⟩
        · exact absurd h3 i1
        · exact i2 b' h3

/-- The answer, exactly. -/
theorem serve_told (hi : ∀ l, (iter l).Perm l) (infos : List Metainfo.Info) (h : List (Int × Event)) (p : Past) (hp : PastOf (hashes infos) h p) (now : Int)
    (hc : Clock now (h.map (·.1))) (remote query : Bytes) (a : Announce) (c : Bool) (hu : Announces (hashes infos) remote query a c) :
    let reply := (serve iter errText now remote query (after iter errText infos h)).1
    ∃ ps, reply = answer c ps ∧ ps.length ≤ h.length + 1 ∧ (ps.Pairwise fun q q' => ∀ e, ListedAt q e → ¬ ListedAt q' e) ∧
      ∀ q, q ∈ ps ↔ ∃ b, FirstSince (hashes infos) a.hash b.place ((now, .request remote query) :: h) b ∧ q = ⟨b.id, b.text, b.port⟩ ∧
        Live now ((now, some a) :: p) a.hash b.place ∧ (b.place = a.place → ¬ Canonical b.text) := by
  obtain rfl := pastOf_iff.mp hp
  rw [← announces_iff] at hu
  intro reply
  obtain ⟨hf, hk⟩ := newHTTP_fresh infos
  have hc' : Clock now (((now, Event.request remote query) :: h).map (·.1)) := ⟨Int.le_refl _, hc⟩
  have hinv := run_inv (iter := iter) (errText := errText) hf h now hc
  have hinv' := run_inv (iter := iter) (errText := errText) hf _ now hc'
  have hrem := run_remembers (iter := iter) (errText := errText) hf _ now hc'
  have hu' : understood ((after iter errText infos h).map (·.1)) remote query = some (a, c) := by
    unfold after
    rw [hinv.keys, understood_congr hk]
    exact hu
  obtain ⟨hga, _⟩ := understood_good hu
  obtain ⟨table, h1, h2⟩ := serve_understood (iter := iter) (errText := errText) (now := now) hu'
  have hm : (a.hash, assign table (key a.place) (newEntry now a table)) ∈ run iter errText (newHTTP infos) ((now, Event.request remote query) :: h) := by
    change _ ∈ (serve iter errText now remote query (after iter errText infos h)).2
    rw [h2]
    exact mem_assign.mpr (.inl rfl)
  have hag := hinv'.tables _ hm
  have hre := hrem _ hm
  have hpast : past ((newHTTP infos).map (·.1)) ((now, Event.request remote query) :: h) = (now, some a) :: past (hashes infos) h := by
    rw [past_congr hk]
    show (now, (understood (hashes infos) remote query).map (·.1)) :: _ = _
    rw [hu]
    rfl
  have hgs := hinv'.goods
  rw [hpast] at hag hgs
  have hr : reply = answer c (listing now (key a.place) (iter (assign table (key a.place) (newEntry now a table)))) := by
    show (serve iter errText now remote query (after iter errText infos h)).1 = _
    rw [h2]
  rw [hr]
  have hll := listing_lists hi hgs hga hag
  refine ⟨_, rfl, ?_, hll.once, fun q => ?_⟩
  · have := hll.short
    rw [List.length_cons, past_length] at this
    exact this
  rw [mem_listing]
  have htext : ∀ b : Announce, Good b → (addrText b.text b.port ≠ key a.place ↔ (b.place = a.place → ¬ Canonical b.text)) := by
    intro b hb
    have hpb := (Net.parseIP_iff _ _).mpr hb.1
    constructor
    · intro h3 e hcan
      apply h3
      rw [← e]
      unfold Canonical at hcan
      rw [← Net.canonText_self] at hcan
      unfold Net.canonText at hcan
      rw [hpb] at hcan
      simp only [Option.map_some, Option.some.injEq] at hcan
      simp only [key, Announce.place, hcan]
    · intro h3 hadd
      obtain ⟨j1, j2⟩ := addrText_inj hadd
      have hpl : b.place = a.place := by
        rw [j1, Net.parseIP_string (place_length hga)] at hpb
        exact Prod.ext (Option.some.inj hpb).symm j2
      refine h3 hpl ?_
      unfold Canonical
      rw [← Net.canonText_self]
      unfold Net.canonText
      rw [hpb, j1]
      simp only [Option.map_some, Option.some.injEq]
      rw [show b.ip = a.place.1 from congrArg Prod.fst hpl]
  constructor
  · rintro ⟨x, hx, rfl, h3, h4⟩
    have hx := (hi _).mem_iff.mp hx
    obtain ⟨b0, t, k1, k2, k3, k4, k5⟩ := hag.entry x hx
    have hl := lookup_of_mem hag.nodup (show (key b0.place, x.2) ∈ _ by rw [← k3]; exact hx)
    have := hre b0.place (place_length (hgs _ _ k1))
    simp only at hl this
    rw [hl] at this
    obtain ⟨b, j1, j2⟩ := this
    have j3 := forgotten_congr hk j1
    obtain ⟨-, -, -, j4⟩ := firstSince_unique j3
    have hgb : Good b := by
      obtain ⟨_, _, _, _, ⟨_, _, _, _, hb, _⟩, _⟩ := j3
      rw [← announces_iff] at hb
      exact (understood_good hb).1
    refine ⟨b, by rw [j4]; exact j3, j2, ?_, ?_⟩
    · rw [j4]
      exact (gone_live k5).mp h3
    · rw [j2] at h4
      exact (htext b hgb).mp h4
  · rintro ⟨b, h3, rfl, h4, h5⟩
    have hgb : Good b := by
      obtain ⟨_, _, _, _, ⟨_, _, _, _, hb, _⟩, _⟩ := h3
      rw [← announces_iff] at hb
      exact (understood_good hb).1
    have h6 := forgotten_congr (fun x => (hk x).symm) h3
    obtain ⟨k1, k2, -, -⟩ := firstSince_unique h6
    have := hre b.place (place_length hgb)
    simp only at this
    cases hl : (assign table (key a.place) (newEntry now a table)).lookup (key b.place) with
    | none => rw [hl] at this; exact absurd this k1
    | some x =>
      rw [hl] at this
      obtain ⟨b', j1, j2⟩ := this
      rw [k2 b' j1] at j2
      have hx := mem_of_lookup hl
      obtain ⟨b0, t, m1, m2, m3, m4, m5⟩ := hag.entry _ hx
      have e0 : b.place = b0.place := key_inj (place_length hgb) (place_length (hgs _ _ m1)) m3
      refine ⟨_, (hi _).mem_iff.mpr hx, j2, ?_, (htext b hgb).mpr h5⟩
      refine (gone_live m5).mpr ?_
      rw [← e0]
      exact h4

/-- **C57** and **C82**, exactly: for every history the response to a valid announce lists the places that have announced the torrent within the last minute and have not stopped, each once, with the id and the text of
the address of its first announce since it was forgotten: since a cleanup at which it was not alive, or ever. The requester is among them if and only if its text in that announce is not the canonical one. -/
theorem C82_exactly_partial (hi : ∀ l, (iter l).Perm l) (infos : List Metainfo.Info) (h : List (Int × Event)) (p : Past) (hp : PastOf (hashes infos) h p) (now : Int)
    (hc : Clock now (h.map (·.1))) (remote query : Bytes) (a : Announce) (c : Bool) (hu : Announces (hashes infos) remote query a c) :
    let reply := (serve iter errText now remote query (after iter errText infos h)).1
    ∃ ps, Answered c ps reply.status reply.body ∧ (ps.Pairwise fun q q' => ∀ e, ListedAt q e → ¬ ListedAt q' e) ∧
      ∀ q, q ∈ ps ↔ ∃ b, FirstSince (hashes infos) a.hash b.place ((now, .request remote query) :: h) b ∧ q = ⟨b.id, b.text, b.port⟩ ∧
        Live now ((now, some a) :: p) a.hash b.place ∧ (b.place = a.place → ¬ Canonical b.text) := by
  intro reply
  obtain ⟨ps, h1, -, h2, h3⟩ := serve_told (iter := iter) (errText := errText) hi infos h p hp now hc remote query a c hu
  have h1 : reply = answer c ps := h1
  rw [h1]
  exact ⟨ps, answered c ps, h2, h3⟩

def Ex.as (id : Bytes) : Bytes := b!"info_hash=aaaaaaaaaaaaaaaaaaaa&peer_id=" ++ id ++ b!"&port=5&uploaded=0&downloaded=0&left=4"

def Ex.again : List (Int × Event) := [
  (101 * Ex.second, .request b!"1.1.1.1:1" (Ex.as b!"22222222222222222222")),
  (100 * Ex.second, .cleanup),
  (20 * Ex.second, .request b!"1.1.1.1:1" (Ex.as b!"22222222222222222222")),
  (10 * Ex.second, .cleanup),
  (0, .request b!"1.1.1.1:1" (Ex.as b!"11111111111111111111"))]

/-- A client comes back with another id after 20 s: the tracker has cleaned up, but the place was alive, and it is listed with the old id. When it comes back after it was forgotten, it is listed with the new one. -/
example : let first : Announce := ⟨List.replicate 20 97, b!"11111111111111111111", b!"1.1.1.1", [0, 0, 0, 0, 0, 0, 0, 0, 0, 0, 255, 255, 1, 1, 1, 1], 5, []⟩
    FirstSince (hashes [Ex.info 97]) first.hash first.place (Ex.again.drop 2) first ∧
    FirstSince (hashes [Ex.info 97]) first.hash first.place Ex.again { first with id := b!"22222222222222222222" } ∧
    unmarshalResponse (serve (fun t => t) Ex.err (21 * Ex.second) b!"2.2.2.2:1" (Ex.as b!"33333333333333333333") (after (fun t => t) Ex.err [Ex.info 97] (Ex.again.drop 2))).1.body =
      .ok { interval := 30, peers := some ⟨false, some [⟨b!"11111111111111111111", b!"1.1.1.1", 5⟩]⟩ } ∧
    unmarshalResponse (serve (fun t => t) Ex.err (102 * Ex.second) b!"2.2.2.2:1" (Ex.as b!"33333333333333333333") (after (fun t => t) Ex.err [Ex.info 97] Ex.again)).1.body =
      .ok { interval := 30, peers := some ⟨false, some [⟨b!"22222222222222222222", b!"1.1.1.1", 5⟩]⟩ } := by
  intro first
  refine ⟨?_, ?_, by kernel_rfl, by kernel_rfl⟩
  · show FirstSince _ _ _ (_ :: _ :: _ :: []) _
    refine firstSince_cons.mpr (.inr ⟨firstSince_cons.mpr (.inr ⟨firstSince_cons.mpr (.inl ⟨announcesPlace_iff.mpr ⟨false, by kernel_rfl, by kernel_rfl, by kernel_rfl⟩, ⟨[], [], rfl, (by simp), .inl rfl⟩⟩), ?_⟩), ?_⟩)
    · intro h
      exact (swept_iff.mp h).2 ⟨0, [], by kernel_rfl, by decide, by decide⟩
    · intro h
      cases h.1
  · refine firstSince_cons.mpr (.inl ⟨announcesPlace_iff.mpr ⟨false, by kernel_rfl, by kernel_rfl, by kernel_rfl⟩, forgotten_cons.mpr (.inl (swept_iff.mpr ⟨rfl, ?_⟩))⟩)
    rintro ⟨t, ev, h1, -, h2⟩
    have : (20 * Ex.second, ([] : Bytes)) = (t, ev) := Option.some.inj ((show lastSeen first.hash first.place _ = some (20 * Ex.second, []) by kernel_rfl).symm.trans h1)
    cases this
    revert h2
    decide

end Drip.Pex
