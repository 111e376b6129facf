import Verif.Model.BlockFuture
import Verif.Spec.BlockFuture
import Verif.Lemmas.Assoc
/-
C61 and C93: the requests for blocks.
-/

namespace Drip.BlockFuture
open Conc Spec

theorem answer_append (b : Block) : ∀ (l l' : List Ev), answer b (l ++ l') = (answer b l).or (answer b l')
  | [], _ => by simp [answer]
  | e :: l, l' => by
    have := answer_append b l l'
    cases e with
    | asked => simpa [answer] using this
    | sent => simpa [answer] using this
    | got m =>
      cases m with
      | choke => simp [answer]
      | other => simpa [answer] using this
      | piece b' =>
        simp only [List.cons_append, answer]
        split <;> simp [this]

theorem answer_drop (b : Block) {l : List Ev} (l' : List Ev) {t : Nat} (h : t < l.length) :
    answer b ((l ++ l').drop (t + 1)) = (answer b (l.drop (t + 1))).or (answer b l') := by
  rw [List.drop_append_of_le_length (by omega), answer_append]

/-- The map and the futures. -/
structure MapOK (s : Shared) : Prop where
  alive : s.dead = false
  keys : Keys s.inflight
  undone : ∀ b f, (b, f) ∈ s.inflight → s.futs[f]? = some none
  apart : ∀ b b' f, (b, f) ∈ s.inflight → (b', f) ∈ s.inflight → b = b'

/-- Completing a list of requests. -/
theorem complete_all (r : Result) : ∀ (bs : List Block) (s : Shared), MapOK s →
    MapOK (bs.foldl (complete r) s) ∧ (bs.foldl (complete r) s).log = s.log ∧ (bs.foldl (complete r) s).futs.length = s.futs.length ∧
    (∀ e, e ∈ (bs.foldl (complete r) s).inflight ↔ e ∈ s.inflight ∧ e.1 ∉ bs) ∧
    (∀ b f, (b, f) ∈ s.inflight → b ∈ bs → (bs.foldl (complete r) s).futs[f]? = some (some r)) ∧
    (∀ f, (∀ b ∈ bs, (b, f) ∉ s.inflight) → (bs.foldl (complete r) s).futs[f]? = s.futs[f]?)
  | [], s, h => ⟨h, rfl, rfl, by simp, by simp, by simp⟩
  | b :: bs, s, h => by
    rw [List.foldl_cons]
    cases hg : mget s.inflight b with
    | none =>
      have hn := mget_eq_none.1 hg
      have he : complete r s b = s := by unfold complete; rw [hg]
      rw [he]
      obtain ⟨h1, h2, h3, h4, h5, h6⟩ := complete_all r bs s h
      refine ⟨h1, h2, h3, fun e => ?_, fun b' f hm hb => ?_, fun f hf => h6 f fun b' hb' => hf b' (List.mem_cons_of_mem _ hb')⟩
      · rw [h4]
        constructor
        · rintro ⟨ha, hb⟩
          refine ⟨ha, fun hc => ?_⟩
          rcases List.mem_cons.1 hc with hc | hc
          · exact hn e.2 (by rw [← hc]; exact ha)
          · exact hb hc
        · rintro ⟨ha, hb⟩
          exact ⟨ha, fun hc => hb (List.mem_cons_of_mem _ hc)⟩
      · rcases List.mem_cons.1 hb with rfl | hb
        · exact absurd hm (hn f)
        · exact h5 b' f hm hb
    | some f0 =>
      have hm := mget_mem hg
      have hu := h.undone _ _ hm
      have he : complete r s b = { s with futs := s.futs.set f0 (some r), inflight := mdel s.inflight b } := by
        unfold complete; rw [hg]; simp only [hu]
      have hlt : f0 < s.futs.length := by
        have := List.getElem?_eq_some_iff.1 hu; exact this.1
      have hne : ∀ b' f, (b', f) ∈ mdel s.inflight b → f ≠ f0 := by
        intro b' f hb' e
        subst e
        have := mem_mdel.1 hb'
        exact this.2 (h.apart _ _ _ this.1 hm)
      have hok : MapOK (complete r s b) := by
        rw [he]
        refine ⟨h.alive, h.keys.del b, fun b' f hb' => ?_, fun b' b'' f h1 h2 => h.apart b' b'' f (mem_mdel.1 h1).1 (mem_mdel.1 h2).1⟩
        show (s.futs.set f0 (some r))[f]? = some none
        rw [List.getElem?_set_ne (Ne.symm (hne _ _ hb'))]
        exact h.undone _ _ (mem_mdel.1 hb').1
      obtain ⟨h1, h2, h3, h4, h5, h6⟩ := complete_all r bs _ hok
      have hi : (complete r s b).inflight = mdel s.inflight b := by rw [he]
      have hfu : (complete r s b).futs = s.futs.set f0 (some r) := by rw [he]
      refine ⟨h1, by rw [h2, he], by rw [h3, hfu, List.length_set], fun e => ?_, fun b' f hb' hb => ?_, fun f hf => ?_⟩
      · rw [h4, hi, mem_mdel, List.mem_cons, not_or]
        constructor
        · rintro ⟨⟨a, b⟩, c⟩; exact ⟨a, b, c⟩
        · rintro ⟨a, b, c⟩; exact ⟨⟨a, b⟩, c⟩
      · by_cases hbb : b' = b
        · subst hbb
          have hff : f = f0 := by
            have h7 := h.keys.get hb'
            have h8 := h.keys.get hm
            rw [h7] at h8; injection h8
          subst hff
          rw [h6 f, hfu, List.getElem?_set_self hlt]
          intro b'' _ h9
          rw [hi] at h9
          exact hne _ _ h9 rfl
        · rcases List.mem_cons.1 hb with hb | hb
          · exact absurd hb hbb
          · exact h5 b' f (by rw [hi]; exact mem_mdel.2 ⟨hb', hbb⟩) hb
      · rw [h6 f, hfu, List.getElem?_set_ne]
        · intro e; subst e; exact hf b (List.mem_cons_self ..) hm
        · intro b' hb' h9
          rw [hi] at h9
          exact hf b' (List.mem_cons_of_mem _ hb') (mem_mdel.1 h9).1

/-- A call that is registered and has not run its deferred function yet. -/
def Th.open_ : Th → Option Block
  | .entered b _ _ => some b
  | .waiting b _ _ => some b
  | .leaving b _ _ => some b
  | _ => none

/-- The call that waits for a future. -/
def Th.waits : Th → Option (Block × Nat × Nat)
  | .entered b f t => some (b, f, t)
  | .waiting b f t => some (b, f, t)
  | _ => none

/-- The call that has its result. -/
def Th.result : Th → Option (Block × Result × Nat)
  | .leaving b r t => some (b, r, t)
  | .returned b r t => some (b, r, t)
  | _ => none

/-- A call that waits. -/
structure Wait (s : Shared) (b : Block) (f t : Nat) : Prop where
  log : s.log[t]? = some (.asked b)
  value : ∃ o, s.futs[f]? = some o ∧ (o = none ∨ o = answer b (s.log.drop (t + 1)))
  key : ∀ b', (b', f) ∈ s.inflight → b' = b
  undecided : (b, f) ∈ s.inflight → answer b (s.log.drop (t + 1)) = none

/-- A call that has its result. -/
structure Has (s : Shared) (b : Block) (r : Result) (t : Nat) : Prop where
  log : s.log[t]? = some (.asked b)
  value : r = .nil → answer b (s.log.drop (t + 1)) = some .nil

structure Inv (s : Shared) (ls : List Th) : Prop where
  map : MapOK s
  wait : ∀ (i : Nat) (b : Block) (f t : Nat) (l : Th), ls[i]? = some l → l.waits = some (b, f, t) → Wait s b f t
  has : ∀ (i : Nat) (b : Block) (r : Result) (t : Nat) (l : Th), ls[i]? = some l → l.result = some (b, r, t) → Has s b r t
  owned : ∀ b f, (b, f) ∈ s.inflight → ∃ (i : Nat) (l : Th), ls[i]? = some l ∧ l.open_ = some b

theorem lt_of_log {s : Shared} {t : Nat} {e : Ev} (h : s.log[t]? = some e) : t < s.log.length := (List.getElem?_eq_some_iff.1 h).1

theorem Wait.lt {s : Shared} {b : Block} {f t : Nat} (h : Wait s b f t) : f < s.futs.length := by
  obtain ⟨o, ho, _⟩ := h.value
  exact (List.getElem?_eq_some_iff.1 ho).1

/-- An event that decides nothing. -/
theorem Wait.event {s : Shared} {b : Block} {f t : Nat} (h : Wait s b f t) {e : Ev} (he : answer b [e] = none) : Wait { s with log := s.log ++ [e] } b f t := by
  have hlt := lt_of_log h.log
  have ha : answer b ((s.log ++ [e]).drop (t + 1)) = answer b (s.log.drop (t + 1)) := by rw [answer_drop b [e] hlt, he]; simp
  refine ⟨?_, ?_, h.key, fun hm => ?_⟩
  · show (s.log ++ [e])[t]? = _
    rw [List.getElem?_append_left hlt]; exact h.log
  · obtain ⟨o, h1, h2⟩ := h.value
    exact ⟨o, h1, by rw [ha]; exact h2⟩
  · show answer b ((s.log ++ [e]).drop (t + 1)) = none
    rw [ha]; exact h.undecided hm

theorem Has.event {s s' : Shared} {b : Block} {r : Result} {t : Nat} (h : Has s b r t) {es : List Ev} (hs : s'.log = s.log ++ es) : Has s' b r t := by
  have hlt := lt_of_log h.log
  refine ⟨?_, fun hr => ?_⟩
  · rw [hs, List.getElem?_append_left hlt]; exact h.log
  · rw [hs, answer_drop b es hlt, h.value hr]; rfl

theorem Wait.new {s : Shared} {b : Block} {f : Nat} (hs : s.futs[f]? = some none) (hk : ∀ b', (b', f) ∈ s.inflight → b' = b) :
    Wait { s with log := s.log ++ [.asked b] } b f s.log.length := by
  have hd : (s.log ++ [Ev.asked b]).drop (s.log.length + 1) = [] := List.drop_eq_nil_of_le (by simp)
  refine ⟨?_, ⟨none, hs, .inl rfl⟩, hk, fun _ => ?_⟩
  · show (s.log ++ [_])[s.log.length]? = _
    simp
  · show answer b ((s.log ++ [_]).drop (s.log.length + 1)) = none
    rw [hd]; rfl

/-- A message completes requests. -/
theorem Wait.message {s : Shared} {b : Block} {f t : Nat} (h : Wait s b f t) (hm : MapOK s) (r : Result) (bs : List Block) (e : Ev)
    (h1 : ∀ b ∈ bs, answer b [e] = some r) (h2 : ∀ b f, (b, f) ∈ s.inflight → b ∉ bs → answer b [e] = none) :
    Wait { bs.foldl (complete r) s with log := s.log ++ [e] } b f t := by
  obtain ⟨_, _, _, k4, k5, k6⟩ := complete_all r bs s hm
  have hlt := lt_of_log h.log
  have ha := answer_drop b [e] hlt
  obtain ⟨o, ho, hv⟩ := h.value
  refine ⟨?_, ?_, fun b' hb' => h.key b' ((k4 _).1 hb').1, fun hi => ?_⟩
  · show (s.log ++ [e])[t]? = _
    rw [List.getElem?_append_left hlt]; exact h.log
  · show ∃ o, (bs.foldl (complete r) s).futs[f]? = some o ∧ (o = none ∨ o = answer b ((s.log ++ [e]).drop (t + 1)))
    rw [ha]
    by_cases hb : (b, f) ∈ s.inflight ∧ b ∈ bs
    · exact ⟨some r, k5 b f hb.1 hb.2, .inr (by rw [h.undecided hb.1, h1 b hb.2]; rfl)⟩
    · refine ⟨o, ?_, ?_⟩
      · rw [k6 f, ho]
        intro b' hb' hi
        have := h.key b' hi
        subst this
        exact hb ⟨hi, hb'⟩
      · rcases hv with hv | hv
        · exact .inl hv
        · cases o with
          | none => exact .inl rfl
          | some x => exact .inr (by rw [← hv]; rfl)
  · show answer b ((s.log ++ [e]).drop (t + 1)) = none
    have hi' := (k4 _).1 hi
    rw [ha, h.undecided hi'.1, h2 b f hi'.1 hi'.2]; rfl

/-- A step of one goroutine keeps what is said about the others. -/
theorem inv_set {s s' : Shared} {ls : List Th} (i : Nat) {l l' : Th} (hi : ls[i]? = some l) (h : Inv s ls) (hmap : MapOK s')
    (hwait : ∀ b f t, Wait s b f t → Wait s' b f t) (hhas : ∀ b r t, Has s b r t → Has s' b r t)
    (hw : ∀ b f t, l'.waits = some (b, f, t) → Wait s' b f t) (hh : ∀ b r t, l'.result = some (b, r, t) → Has s' b r t)
    (ho : ∀ b f, (b, f) ∈ s'.inflight → (∃ f', (b, f') ∈ s.inflight ∧ (l.open_ = some b → l'.open_ = some b)) ∨ l'.open_ = some b) : Inv s' (ls.set i l') := by
  have hlt : i < ls.length := (List.getElem?_eq_some_iff.1 hi).1
  have get : ∀ (j : Nat) (x : Th), (ls.set i l')[j]? = some x → (j = i ∧ x = l') ∨ ls[j]? = some x := by
    intro j x hj
    by_cases hij : i = j
    · subst hij
      rw [List.getElem?_set_self hlt] at hj
      exact .inl ⟨rfl, by injection hj with hj; exact hj.symm⟩
    · rw [List.getElem?_set_ne hij] at hj; exact .inr hj
  refine ⟨hmap, fun j b f t x hj hx => ?_, fun j b r t x hj hx => ?_, fun b f hm => ?_⟩
  · rcases get j x hj with ⟨_, rfl⟩ | hj
    · exact hw b f t hx
    · exact hwait b f t (h.wait j b f t x hj hx)
  · rcases get j x hj with ⟨_, rfl⟩ | hj
    · exact hh b r t hx
    · exact hhas b r t (h.has j b r t x hj hx)
  · rcases ho b f hm with ⟨f', hf', himp⟩ | ho
    · obtain ⟨j, x, hj, hx⟩ := h.owned b f' hf'
      by_cases hij : i = j
      · subst hij
        rw [hi] at hj
        injection hj with hj
        subst hj
        exact ⟨i, l', List.getElem?_set_self hlt, himp hx⟩
      · exact ⟨j, x, by rw [List.getElem?_set_ne hij]; exact hj, hx⟩
    · exact ⟨i, l', List.getElem?_set_self hlt, ho⟩

theorem inv_message {s : Shared} {ls : List Th} {i : Nat} {ms ms' : List Msg} (hi : ls[i]? = some (.receiver ms)) (h : Inv s ls) (r : Result) (bs : List Block) (e : Ev)
    (h1 : ∀ b ∈ bs, answer b [e] = some r) (h2 : ∀ b f, (b, f) ∈ s.inflight → b ∉ bs → answer b [e] = none) :
    Inv { bs.foldl (complete r) s with log := s.log ++ [e] } (ls.set i (.receiver ms')) := by
  obtain ⟨k1, _, _, k4, _, _⟩ := complete_all r bs s h.map
  exact inv_set i hi h ⟨k1.alive, k1.keys, k1.undone, k1.apart⟩ (fun b f t hw => hw.message h.map r bs e h1 h2) (fun b r' t hh => hh.event (es := [e]) rfl)
    (fun _ _ _ h => by cases h) (fun _ _ _ h => by cases h) (fun b f hm => .inl ⟨f, ((k4 _).1 hm).1, fun h => by cases h⟩)

theorem inv_step {c c' : Shared × List Th} (hs : Step Act c c') (h : Inv c.1 c.2) : Inv c'.1 c'.2 := by
  cases hs with
  | @mk s s' l l' ls i hi ha =>
  have h : Inv s ls := h
  show Inv s' (ls.set i l')
  have hm := h.map
  have log1 : ∀ (e : Ev), MapOK { s with log := s.log ++ [e] } := fun e => ⟨hm.alive, hm.keys, hm.undone, hm.apart⟩
  cases ha with
  | @check b hd =>
    exact inv_set i hi h hm (fun _ _ _ h => h) (fun _ _ _ h => h) (fun _ _ _ h => by cases h) (fun _ _ _ h => by cases h) (fun b f hb => .inl ⟨f, hb, fun h => by cases h⟩)
  | @refuse b hd =>
    exact inv_set i hi h hm (fun _ _ _ h => h) (fun _ _ _ h => h) (fun _ _ _ h => by cases h) (fun _ _ _ h => by cases h) (fun b f hb => .inl ⟨f, hb, fun h => by cases h⟩)
  | @share b f hd hg =>
    refine inv_set i hi h (log1 _) (fun b' f' t hw => hw.event rfl) (fun b' r t hh => hh.event (es := [.asked b]) rfl) (fun b' f' t hw => ?_) (fun _ _ _ h => by cases h)
      (fun b f hb => .inl ⟨f, hb, fun h => by cases h⟩)
    cases hw
    have hb := mget_mem hg
    exact Wait.new (hm.undone _ _ hb) fun b' hb' => hm.apart _ _ _ hb' hb
  | @create b hd hg =>
    have hn := mget_eq_none.1 hg
    have hold : ∀ b' f', (b', f') ∈ s.inflight → f' < s.futs.length := fun b' f' hb' => (List.getElem?_eq_some_iff.1 (hm.undone b' f' hb')).1
    have hnew : ∀ b' f', (b', f') ∈ mput s.inflight b s.futs.length → (b' = b ∧ f' = s.futs.length) ∨ ((b', f') ∈ s.inflight ∧ b' ≠ b) := by
      intro b' f' hb'
      rcases mem_mput.1 hb' with hb' | hb'
      · injection hb' with h1 h2; exact .inl ⟨h1, h2⟩
      · exact .inr hb'
    have hmap : MapOK { s with inflight := mput s.inflight b s.futs.length, futs := s.futs ++ [none], log := s.log ++ [.asked b] } := by
      refine ⟨hm.alive, hm.keys.put _ _, fun b' f' hb' => ?_, fun b' b'' f' h1 h2 => ?_⟩
      · show (s.futs ++ [none])[f']? = some none
        rcases hnew b' f' hb' with ⟨_, rfl⟩ | ⟨hb', _⟩
        · simp
        · rw [List.getElem?_append_left (hold _ _ hb')]; exact hm.undone _ _ hb'
      · rcases hnew b' f' h1 with ⟨e1, e2⟩ | ⟨h1, _⟩
        · rcases hnew b'' _ h2 with ⟨e3, _⟩ | ⟨h2, _⟩
          · rw [e1, e3]
          · exact absurd (hold _ _ h2) (by rw [e2]; exact Nat.lt_irrefl _)
        · rcases hnew b'' _ h2 with ⟨e3, e4⟩ | ⟨h2, _⟩
          · exact absurd (hold _ _ h1) (by rw [e4]; exact Nat.lt_irrefl _)
          · exact hm.apart _ _ _ h1 h2
    refine inv_set i hi h hmap (fun b' f' t hw => ?_) (fun b' r t hh => hh.event (es := [.asked b]) rfl) (fun b' f' t hw => ?_) (fun _ _ _ h => by cases h)
      (fun b' f' hb => ?_)
    · have hlt := hw.lt
      have hw' := hw.event (e := .asked b) rfl
      refine ⟨hw'.log, ?_, fun b'' hb'' => ?_, fun hb'' => ?_⟩
      · obtain ⟨o, ho, hv⟩ := hw'.value
        refine ⟨o, ?_, hv⟩
        show (s.futs ++ [none])[f']? = some o
        rw [List.getElem?_append_left hlt]; exact ho
      · rcases hnew b'' f' hb'' with ⟨_, rfl⟩ | ⟨hb'', _⟩
        · exact absurd hlt (Nat.lt_irrefl _)
        · exact hw.key b'' hb''
      · rcases hnew b' f' hb'' with ⟨_, rfl⟩ | ⟨hb'', _⟩
        · exact absurd hlt (Nat.lt_irrefl _)
        · exact hw'.undecided hb''
    · cases hw
      refine Wait.new (s := { s with inflight := mput s.inflight b s.futs.length, futs := s.futs ++ [none] }) ?_ fun b' hb' => ?_
      · show (s.futs ++ [none])[s.futs.length]? = some none
        simp
      · rcases hnew b' _ hb' with ⟨rfl, _⟩ | ⟨hb', _⟩
        · rfl
        · exact absurd (hold _ _ hb') (Nat.lt_irrefl _)
    · rcases hnew b' f' hb with ⟨rfl, _⟩ | ⟨hb, _⟩
      · exact .inr rfl
      · exact .inl ⟨f', hb, fun h => by cases h⟩
  | @send b f t hd =>
    have hw := h.wait i b f t _ hi rfl
    refine inv_set i hi h (log1 _) (fun b' f' t hw => hw.event rfl) (fun b' r t hh => hh.event (es := [.sent b]) rfl) (fun b' f' t' hw' => ?_) (fun _ _ _ h => by cases h)
      (fun b f hb => .inl ⟨f, hb, fun h => h⟩)
    cases hw'
    exact hw.event rfl
  | @sendChoked b f t hd =>
    have hw := h.wait i b f t _ hi rfl
    exact inv_set i hi h hm (fun _ _ _ h => h) (fun _ _ _ h => h) (fun _ _ _ h => by cases h) (fun b' r' t' hr => by cases hr; exact ⟨hw.log, fun h => by cases h⟩)
      (fun b f hb => .inl ⟨f, hb, fun h => h⟩)
  | @sendErr b f t hd =>
    have hw := h.wait i b f t _ hi rfl
    exact inv_set i hi h hm (fun _ _ _ h => h) (fun _ _ _ h => h) (fun _ _ _ h => by cases h) (fun b' r' t' hr => by cases hr; exact ⟨hw.log, fun h => by cases h⟩)
      (fun b f hb => .inl ⟨f, hb, fun h => h⟩)
  | @timeout b f t hd =>
    have hw := h.wait i b f t _ hi rfl
    exact inv_set i hi h hm (fun _ _ _ h => h) (fun _ _ _ h => h) (fun _ _ _ h => by cases h) (fun b' r' t' hr => by cases hr; exact ⟨hw.log, fun h => by cases h⟩)
      (fun b f hb => .inl ⟨f, hb, fun h => h⟩)
  | @woken b f t r hd hf =>
    have hw := h.wait i b f t _ hi rfl
    refine inv_set i hi h hm (fun _ _ _ h => h) (fun _ _ _ h => h) (fun _ _ _ h => by cases h) (fun b' r' t' hr => ?_) (fun b f hb => .inl ⟨f, hb, fun h => h⟩)
    cases hr
    refine ⟨hw.log, fun hr => ?_⟩
    obtain ⟨o, ho, hv⟩ := hw.value
    rw [hf] at ho
    injection ho with ho
    subst ho
    subst hr
    rcases hv with hv | hv
    · cases hv
    · exact hv.symm
  | @leave b r t hd =>
    have hh := h.has i b r t _ hi rfl
    refine inv_set i hi h ⟨hm.alive, hm.keys.del b, fun b' f' hb' => hm.undone _ _ (mem_mdel.1 hb').1, fun b' b'' f' h1 h2 => hm.apart _ _ _ (mem_mdel.1 h1).1 (mem_mdel.1 h2).1⟩
      (fun b' f' t' hw => ⟨hw.log, hw.value, fun b'' hb'' => hw.key _ (mem_mdel.1 hb'').1, fun hb'' => hw.undecided (mem_mdel.1 hb'').1⟩)
      (fun b' r' t' hh => ⟨hh.log, hh.value⟩) (fun _ _ _ h => by cases h) (fun b' r' t' hr => by cases hr; exact ⟨hh.log, hh.value⟩)
      (fun b' f' hb' => .inl ⟨f', (mem_mdel.1 hb').1, fun ho => ?_⟩)
    injection ho with ho
    exact absurd ho.symm (mem_mdel.1 hb').2
  | @piece b ms hd =>
    refine inv_message hi h .nil [b] (.got (.piece b)) (fun b' hb' => ?_) (fun b' f' _ hb' => ?_)
    · rw [List.mem_singleton] at hb'; subst hb'; simp [answer]
    · rw [List.mem_singleton] at hb'
      simp only [answer]
      rw [if_neg (fun e => hb' e.symm)]
  | @choke ms bs hd hp =>
    refine inv_message hi h .choked bs (.got .choke) (fun b' hb' => rfl) (fun b' f' hb' hn => ?_)
    exact absurd (hp.mem_iff.2 (List.mem_map.2 ⟨_, hb', rfl⟩)) hn
  | @other ms hd =>
    exact inv_set i hi h (log1 _) (fun b' f' t hw => hw.event rfl) (fun b' r t hh => hh.event (es := [.got .other]) rfl) (fun _ _ _ h => by cases h) (fun _ _ _ h => by cases h)
      (fun b f hb => .inl ⟨f, hb, fun h => by cases h⟩)

/-- A goroutine that has not started. -/
def Th.fresh : Th → Prop
  | .call _ => True
  | .receiver _ => True
  | _ => False

theorem inv_init {ls : List Th} (h0 : ∀ l ∈ ls, l.fresh) : Inv {} ls := by
  refine ⟨⟨rfl, by simp [Keys], fun _ _ h => (by cases h), fun _ _ _ h => (by cases h)⟩, fun i b f t l hi hw => ?_, fun i b r t l hi hw => ?_, fun _ _ h => by cases h⟩
  · have := h0 l (List.mem_of_getElem? hi)
    cases l <;> first | exact this.elim | cases hw
  · have := h0 l (List.mem_of_getElem? hi)
    cases l <;> first | exact this.elim | cases hw

theorem inv_reach {ls : List Th} (h0 : ∀ l ∈ ls, l.fresh) {c : Shared × List Th} (hr : Reach Act ({}, ls) c) : Inv c.1 c.2 := by
  induction hr with
  | refl => exact inv_init h0
  | tail _ hs ih => exact inv_step hs ih

/-- C61: no future is delivered twice (which would be a panic), in any interleaving. -/
theorem C61_once {ls ls' : List Th} {s : Shared} (h0 : ∀ l ∈ ls, l.fresh) (hr : Reach Act ({}, ls) (s, ls')) : s.dead = false := (inv_reach h0 hr).map.alive

/-- C61: a call returns nil only if a PIECE with the same index, begin and length has arrived since it was registered, with no CHOKE in between. -/
theorem C61_nil {ls ls' : List Th} {s : Shared} {b : Block} {t : Nat} (h0 : ∀ l ∈ ls, l.fresh) (hr : Reach Act ({}, ls) (s, ls')) (hd : Th.returned b .nil t ∈ ls') :
    s.log[t]? = some (.asked b) ∧ answer b (s.log.drop (t + 1)) = some .nil := by
  obtain ⟨i, hi⟩ := List.getElem?_of_mem hd
  have := (inv_reach h0 hr).has i b .nil t _ hi rfl
  exact ⟨this.log, this.value rfl⟩

theorem answer_nil {b : Block} : ∀ {l : List Ev}, answer b l = some .nil → Ev.got (.piece b) ∈ l
  | [], h => by cases h
  | e :: l, h => by
    have ih := answer_nil (b := b) (l := l)
    cases e with
    | asked => exact List.mem_cons_of_mem _ (ih h)
    | sent => exact List.mem_cons_of_mem _ (ih h)
    | got m =>
      cases m with
      | choke => cases h
      | other => exact List.mem_cons_of_mem _ (ih h)
      | piece b' =>
        simp only [answer] at h
        split at h
        · rename_i e; subst e; exact List.mem_cons_self ..
        · exact List.mem_cons_of_mem _ (ih h)

/-- C61, in particular. -/
theorem C61_arrived {ls ls' : List Th} {s : Shared} {b : Block} {t : Nat} (h0 : ∀ l ∈ ls, l.fresh) (hr : Reach Act ({}, ls) (s, ls')) (hd : Th.returned b .nil t ∈ ls') :
    Ev.got (.piece b) ∈ s.log.drop (t + 1) := answer_nil (C61_nil h0 hr hd).2

/-- C61: there is an entry for a block only while a call for this block is under way. -/
theorem C61_gone {ls ls' : List Th} {s : Shared} {b : Block} (h0 : ∀ l ∈ ls, l.fresh) (hr : Reach Act ({}, ls) (s, ls'))
    (hn : ∀ f t r, Th.entered b f t ∉ ls' ∧ Th.waiting b f t ∉ ls' ∧ Th.leaving b r t ∉ ls') : mget s.inflight b = none := by
  refine mget_eq_none.2 fun f hf => ?_
  obtain ⟨i, l, hi, hl⟩ := (inv_reach h0 hr).owned b f hf
  have hm := List.mem_of_getElem? hi
  cases l with
  | entered b' f' t' => injection hl with hl; subst hl; exact (hn f' t' .nil).1 hm
  | waiting b' f' t' => injection hl with hl; subst hl; exact (hn f' t' .nil).2.1 hm
  | leaving b' r' t' => injection hl with hl; subst hl; exact (hn 0 t' r').2.2 hm
  | _ => cases hl

/-- The statement of C93: a call that is waiting when the deciding message has arrived can return its result. -/
def Reaches : Prop := ∀ (ls ls' : List Th) (s : Shared) (b : Block) (f t : Nat) (r : Result), (∀ l ∈ ls, l.fresh) → Reach Act ({}, ls) (s, ls') → Th.waiting b f t ∈ ls' →
  answer b (s.log.drop (t + 1)) = some r → Act s (.waiting b f t) s (.leaving b r t)

/-- C93 is false: two calls for one block share a future; the first one gives up and removes the entry; the block arrives; the second one is not woken. -/
theorem C93_shared_refuted : ¬ Reaches := by
  intro h
  let b : Block := ⟨0, 0, 16384⟩
  have hr : Reach Act ({}, [.call b, .call b, .receiver [.piece b]])
      (⟨[], [none], false, [.asked b, .sent b, .asked b, .sent b, .got (.piece b)]⟩, [.returned b .ctx 0, .waiting b 0 2, .receiver []]) := by
    refine .head (.mk 0 rfl (.check rfl)) (.head (.mk 0 rfl (.create rfl rfl)) (.head (.mk 0 rfl (.send rfl)) ?_))
    refine .head (.mk 1 rfl (.check rfl)) (.head (.mk 1 rfl (.share (f := 0) rfl rfl)) (.head (.mk 1 rfl (.send rfl)) ?_))
    refine .head (.mk 0 rfl (.timeout rfl)) (.head (.mk 0 rfl (.leave rfl)) (.head (.mk 2 rfl (.piece rfl)) .refl))
  have := h _ _ _ b 0 2 .nil (by simp [Th.fresh]) hr (by simp) (by decide)
  cases this with
  | woken _ hf => exact absurd hf (by decide)

/-- At most one call for a block is under way. -/
def Alone (ls : List Th) : Prop := ∀ (i j : Nat) (l l' : Th) (b : Block), ls[i]? = some l → ls[j]? = some l' → l.open_ = some b → l'.open_ = some b → i = j

/-- An undelivered future of a waiting call is in the map. -/
def Kept (s : Shared) (ls : List Th) : Prop := ∀ (i : Nat) (b : Block) (f t : Nat) (l : Th), ls[i]? = some l → l.waits = some (b, f, t) → s.futs[f]? = some none → (b, f) ∈ s.inflight

theorem kept_set {s s' : Shared} {ls : List Th} (i : Nat) {l l' : Th} (hi : ls[i]? = some l) (h : Kept s ls)
    (ho : ∀ (j : Nat) (b : Block) (f t : Nat) (x : Th), j ≠ i → ls[j]? = some x → x.waits = some (b, f, t) → s'.futs[f]? = some none → s.futs[f]? = some none ∧ ((b, f) ∈ s.inflight → (b, f) ∈ s'.inflight))
    (hn : ∀ b f t, l'.waits = some (b, f, t) → s'.futs[f]? = some none → (b, f) ∈ s'.inflight) : Kept s' (ls.set i l') := by
  intro j b f t x hj hx hf
  have hlt : i < ls.length := (List.getElem?_eq_some_iff.1 hi).1
  by_cases hij : i = j
  · subst hij
    rw [List.getElem?_set_self hlt] at hj
    injection hj with hj
    subst hj
    exact hn b f t hx hf
  · rw [List.getElem?_set_ne hij] at hj
    obtain ⟨h1, h2⟩ := ho j b f t x (Ne.symm hij) hj hx hf
    exact h2 (h j b f t x hj hx h1)

theorem Th.waits_open {l : Th} {b : Block} {f t : Nat} (h : l.waits = some (b, f, t)) : l.open_ = some b := by
  cases l <;> first | (cases h; rfl) | cases h

theorem kept_message {s : Shared} {ls : List Th} {i : Nat} {ms ms' : List Msg} (hi : ls[i]? = some (.receiver ms)) (hI : Inv s ls) (h : Kept s ls) (r : Result) (bs : List Block) (e : Ev) :
    Kept { bs.foldl (complete r) s with log := s.log ++ [e] } (ls.set i (.receiver ms')) := by
  obtain ⟨_, _, _, k4, k5, k6⟩ := complete_all r bs s hI.map
  refine kept_set i hi h (fun j b f t x _ hj hx hf => ?_) (fun _ _ _ h => by cases h)
  have hf : (bs.foldl (complete r) s).futs[f]? = some none := hf
  have hw := hI.wait j b f t x hj hx
  have hb : ¬ ((b, f) ∈ s.inflight ∧ b ∈ bs) := by
    intro hb
    rw [k5 b f hb.1 hb.2] at hf
    cases hf
  refine ⟨?_, fun hm => (k4 _).2 ⟨hm, fun hc => hb ⟨hm, hc⟩⟩⟩
  rw [← hf]
  refine (k6 f fun b' hb' hm => ?_).symm
  have := hw.key b' hm
  subst this
  exact hb ⟨hm, hb'⟩

theorem kept_step {c c' : Shared × List Th} (hs : Step Act c c') (ha1 : Alone c.2) (hI : Inv c.1 c.2) (h : Kept c.1 c.2) : Kept c'.1 c'.2 := by
  cases hs with
  | @mk s s' l l' ls i hi ha =>
  have h : Kept s ls := h
  have hI : Inv s ls := hI
  have ha1 : Alone ls := ha1
  show Kept s' (ls.set i l')
  have same : ∀ (s' : Shared), s'.futs = s.futs → s'.inflight = s.inflight → ∀ (j : Nat) (b : Block) (f t : Nat) (x : Th), j ≠ i → ls[j]? = some x → x.waits = some (b, f, t) →
      s'.futs[f]? = some none → s.futs[f]? = some none ∧ ((b, f) ∈ s.inflight → (b, f) ∈ s'.inflight) := by
    intro s' h1 h2 j b f t x _ _ _ hf
    rw [h1] at hf; rw [h2]; exact ⟨hf, fun h => h⟩
  cases ha with
  | check _ => exact kept_set i hi h (same _ rfl rfl) (fun _ _ _ h => by cases h)
  | refuse _ => exact kept_set i hi h (same _ rfl rfl) (fun _ _ _ h => by cases h)
  | @share b f _ hg =>
    refine kept_set i hi h (same _ rfl rfl) (fun b' f' t hw _ => ?_)
    cases hw
    exact mget_mem hg
  | @create b _ hg =>
    have hn := mget_eq_none.1 hg
    refine kept_set i hi h (fun j b' f' t x _ hj hx hf => ?_) (fun b' f' t hw _ => ?_)
    · have hlt := (hI.wait j b' f' t x hj hx).lt
      have hf : (s.futs ++ [none])[f']? = some none := hf
      rw [List.getElem?_append_left hlt] at hf
      refine ⟨hf, fun hm => mem_mput.2 (.inr ⟨hm, fun e => ?_⟩)⟩
      have e : b' = b := e
      subst e
      exact hn _ hm
    · cases hw
      exact mem_mput.2 (.inl rfl)
  | @send b f t _ =>
    refine kept_set i hi h (same _ rfl rfl) (fun b' f' t' hw hf => ?_)
    cases hw
    exact h i b f t _ hi rfl hf
  | sendChoked _ => exact kept_set i hi h (same _ rfl rfl) (fun _ _ _ h => by cases h)
  | sendErr _ => exact kept_set i hi h (same _ rfl rfl) (fun _ _ _ h => by cases h)
  | timeout _ => exact kept_set i hi h (same _ rfl rfl) (fun _ _ _ h => by cases h)
  | woken _ _ => exact kept_set i hi h (same _ rfl rfl) (fun _ _ _ h => by cases h)
  | @leave b r t _ =>
    refine kept_set i hi h (fun j b' f' t' x hji hj hx hf => ⟨hf, fun hm => mem_mdel.2 ⟨hm, fun e => ?_⟩⟩) (fun _ _ _ h => by cases h)
    have e : b' = b := e
    subst e
    exact hji (ha1 j i x _ b' hj hi (Th.waits_open hx) rfl)
  | @piece b ms _ => exact kept_message hi hI h .nil [b] (.got (.piece b))
  | @choke ms bs _ hp => exact kept_message hi hI h .choked bs (.got .choke)
  | other _ => exact kept_set i hi h (same _ rfl rfl) (fun _ _ _ h => by cases h)

theorem alone_reach {c c' : Shared × List Th} (hr : Relation.ReflTransGen (fun c c' => Step Act c c' ∧ Alone c.2) c c') : Reach Act c c' := by
  induction hr with
  | refl => exact .refl
  | tail _ hs ih => exact .tail ih hs.1

/-- C93 for histories in which at most one call for a block is under way at any time: the future of a waiting call holds what the messages since it was registered decide; … -/
theorem C93_value_partial {ls ls' : List Th} {s : Shared} {b : Block} {f t : Nat} (h0 : ∀ l ∈ ls, l.fresh)
    (hr : Relation.ReflTransGen (fun c c' => Step Act c c' ∧ Alone c.2) ({}, ls) (s, ls')) (hd : Th.waiting b f t ∈ ls') :
    s.futs[f]? = some (answer b (s.log.drop (t + 1))) := by
  have key : ∀ c : Shared × List Th, Relation.ReflTransGen (fun c c' => Step Act c c' ∧ Alone c.2) ({}, ls) c → Inv c.1 c.2 ∧ Kept c.1 c.2 := by
    intro c hc
    induction hc with
    | refl =>
      refine ⟨inv_init h0, fun i b f t l hi hw => ?_⟩
      have := h0 l (List.mem_of_getElem? hi)
      cases l <;> first | exact this.elim | cases hw
    | tail _ hs ih => exact ⟨inv_step hs.1 ih.1, kept_step hs.1 hs.2 ih.1 ih.2⟩
  obtain ⟨hI, hK⟩ := key _ hr
  obtain ⟨i, hi⟩ := List.getElem?_of_mem hd
  have hw := hI.wait i b f t _ hi rfl
  obtain ⟨o, ho, hv⟩ := hw.value
  rcases hv with hv | hv
  · subst hv
    have := hw.undecided (hK i b f t _ hi rfl ho)
    rw [this]; exact ho
  · rw [← hv]; exact ho

/-- … so that the call can return as soon as the deciding message has arrived. -/
theorem C93_reaches_partial {ls ls' : List Th} {s : Shared} {b : Block} {f t : Nat} {r : Result} (h0 : ∀ l ∈ ls, l.fresh)
    (hr : Relation.ReflTransGen (fun c c' => Step Act c c' ∧ Alone c.2) ({}, ls) (s, ls')) (hd : Th.waiting b f t ∈ ls') (ha : answer b (s.log.drop (t + 1)) = some r) :
    Act s (.waiting b f t) s (.leaving b r t) := by
  have h1 := C93_value_partial h0 hr hd
  rw [ha] at h1
  refine .woken ?_ h1
  exact C61_once h0 (alone_reach hr)

/-- Two blocks are requested, one arrives, the peer chokes. -/
def Ex.one : Block := ⟨3, 0, 16384⟩
def Ex.two : Block := ⟨3, 16384, 16384⟩

theorem Ex.run : Relation.ReflTransGen (fun c c' => Step Act c c' ∧ Alone c.2) ({}, [.call Ex.one, .call Ex.two, .receiver [.piece Ex.one, .choke]])
    (⟨[], [some .nil, some .choked], false, [.asked Ex.one, .asked Ex.two, .sent Ex.one, .sent Ex.two, .got (.piece Ex.one), .got .choke]⟩,
      [.returned Ex.one .nil 0, .waiting Ex.two 1 1, .receiver []]) := by
  have alone : ∀ (a b c : Th), (∀ x, a.open_ = some x → x = Ex.one) → (∀ x, b.open_ = some x → x = Ex.two) → c.open_ = none → Alone [a, b, c] := by
    intro a b c ha hb hc i j l l' x h1 h2 h3 h4
    match i, j with
    | 0, 0 => rfl
    | 1, 1 => rfl
    | 2, _ => cases h1; rw [hc] at h3; cases h3
    | _, 2 => cases h2; rw [hc] at h4; cases h4
    | 0, 1 => cases h1; cases h2; have := (ha _ h3).symm.trans (hb _ h4); exact absurd this (by decide)
    | 1, 0 => cases h1; cases h2; have := (hb _ h3).symm.trans (ha _ h4); exact absurd this (by decide)
    | n + 3, _ => cases h1
    | 0, n + 3 => cases h2
    | 1, n + 3 => cases h2
  have ok : ∀ {s s' : Shared} {a b c a' b' c' : Th}, Step Act (s, [a, b, c]) (s', [a', b', c']) → (∀ x, a.open_ = some x → x = Ex.one) → (∀ x, b.open_ = some x → x = Ex.two) → c.open_ = none →
      Step Act (s, [a, b, c]) (s', [a', b', c']) ∧ Alone [a, b, c] := fun h h1 h2 h3 => ⟨h, alone _ _ _ h1 h2 h3⟩
  refine .head (ok (.mk 0 rfl (.check rfl)) ?_ ?_ rfl) (.head (ok (.mk 0 rfl (.create rfl rfl)) ?_ ?_ rfl) (.head (ok (.mk 1 rfl (.check rfl)) ?_ ?_ rfl)
    (.head (ok (.mk 1 rfl (.create rfl rfl)) ?_ ?_ rfl) (.head (ok (.mk 0 rfl (.send rfl)) ?_ ?_ rfl) (.head (ok (.mk 1 rfl (.send rfl)) ?_ ?_ rfl)
    (.head (ok (.mk 2 rfl (.piece rfl)) ?_ ?_ rfl) (.head (ok (.mk 2 rfl (.choke (bs := [Ex.two]) rfl (.refl _))) ?_ ?_ rfl)
    (.head (ok (.mk 0 rfl (.woken (r := .nil) rfl rfl)) ?_ ?_ rfl) (.head (ok (.mk 0 rfl (.leave rfl)) ?_ ?_ rfl) .refl)))))))))
  all_goals (intro x h; first | (cases h; rfl) | cases h)

example : Act ⟨[], [some .nil, some .choked], false, [.asked Ex.one, .asked Ex.two, .sent Ex.one, .sent Ex.two, .got (.piece Ex.one), .got .choke]⟩ (.waiting Ex.two 1 1)
    ⟨[], [some .nil, some .choked], false, [.asked Ex.one, .asked Ex.two, .sent Ex.one, .sent Ex.two, .got (.piece Ex.one), .got .choke]⟩ (.leaving Ex.two .choked 1) :=
  C93_reaches_partial (by simp [Th.fresh]) Ex.run (by simp) (by decide)

example : answer Ex.one ([Ev.asked Ex.one, .asked Ex.two, .sent Ex.one, .sent Ex.two, .got (.piece Ex.one), .got .choke].drop 1) = some .nil :=
  (C61_nil (by simp [Th.fresh]) (alone_reach Ex.run) (t := 0) (b := Ex.one) (by simp)).2

end Drip.BlockFuture
