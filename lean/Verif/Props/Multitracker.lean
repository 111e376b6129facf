import Verif.Model.Multitracker
import Verif.Model.KernelRfl
import Verif.Spec.Announce
import Verif.Props.Response
import Verif.Props.Metainfo
/-
The multitracker: C54, C55, C56, C79, C80.
-/

namespace Drip.Multi
open Spec Tracker Bencode

variable {σ : Type}

theorem toFront_eq (before after : List Bytes) (t : Bytes) : toFront (before ++ t :: after) before.length t = t :: before ++ after := by
  unfold toFront copyAt
  cases before with
  | nil => simp
  | cons b before =>
    rw [show (b :: before) ++ t :: after = ((b :: before) ++ [t]) ++ after by simp, List.drop_append_of_le_length (by simp; omega)]
    simp [show 1 + (before.length + 1) = before.length + 2 by omega]

theorem asked_append {R : Type} {ask : σ → Bytes → Res R × σ} {s s' s'' : σ} {l l' : List (Bytes × Res R)} (h : Asked ask s l s') (h' : Asked ask s' l' s'') :
    Asked ask s (l ++ l') s'' := by
  induction h with
  | nil => exact h'
  | cons h1 _ ih => exact .cons h1 (ih h')

/-- What the results are before a request: those of the last one. -/
def lastOf {R : Type} (last : Res (Option R)) (log : List (Bytes × Res R)) : Res (Option R) :=
  match log.getLast? with
  | some (_, .err e) => .err e
  | _ => last

theorem lastOf_append {R : Type} (last : Res (Option R)) (l : List (Bytes × Res R)) (t : Bytes) (e : Err) :
    lastOf last (l ++ [(t, .err e)]) = .err e := by simp [lastOf]

theorem lastOf_lastOf {R : Type} (last : Res (Option R)) (l l' : List (Bytes × Res R)) (h : Failed l') : lastOf (lastOf last l) l' = lastOf last (l ++ l') := by
  rcases List.eq_nil_or_concat l' with rfl | ⟨l'', ⟨t, a⟩, rfl⟩
  · simp [lastOf]
  · obtain ⟨e, h⟩ := h (t, a) (by simp)
    simp only at h
    subst h
    simp [lastOf, ← List.append_assoc]

theorem tierLoop_spec (ask : σ → Bytes → Res Response × σ) (before rest : List Bytes) (last : Res (Option Response)) (s : σ) :
    ∃ log s', Asked ask s log s' ∧
      ((∃ l mid t r after, log = l ++ [(t, .ok r)] ∧ Failed l ∧ rest = mid ++ t :: after ∧ l.map (·.1) = mid ∧
          tierLoop ask (before ++ rest) before.length rest last s = (some (t :: (before ++ mid) ++ after), .ok (some r), s')) ∨
       (Failed log ∧ log.map (·.1) = rest ∧ tierLoop ask (before ++ rest) before.length rest last s = (none, lastOf last log, s')) ∨
       (∃ l t after, log = l ++ [(t, .panic)] ∧ Failed l ∧ rest = l.map (·.1) ++ t :: after ∧
          tierLoop ask (before ++ rest) before.length rest last s = (some (before ++ rest), .panic, s'))) := by
  induction rest generalizing before last s with
  | nil => exact ⟨[], s, .nil s, .inr (.inl ⟨by simp [Failed], rfl, rfl⟩)⟩
  | cons t rest ih =>
    unfold tierLoop
    cases ha : ask s t with
    | mk a s1 =>
      cases a with
      | ok r =>
        refine ⟨[(t, .ok r)], s1, .cons ha (.nil _), .inl ⟨[], [], t, r, rest, rfl, by simp [Failed], rfl, rfl, ?_⟩⟩
        simp [toFront_eq]
      | panic => exact ⟨[(t, .panic)], s1, .cons ha (.nil _), .inr (.inr ⟨[], t, rest, rfl, by simp [Failed], rfl, rfl⟩)⟩
      | err e =>
        obtain ⟨log, s', h1, h2⟩ := ih (before ++ [t]) (.err e) s1
        have hb : before ++ [t] ++ rest = before ++ t :: rest := by simp
        have hl : (before ++ [t]).length = before.length + 1 := by simp
        rw [hb, hl] at h2
        have hf : ∀ {l : List (Bytes × Res Response)}, Failed l → Failed ((t, .err e) :: l) := by
          intro l h x hx
          rcases List.mem_cons.mp hx with rfl | hx
          · exact ⟨e, rfl⟩
          · exact h x hx
        refine ⟨(t, .err e) :: log, s', .cons ha h1, ?_⟩
        rcases h2 with ⟨l, mid, u, r, after, rfl, h3, rfl, h4, h5⟩ | ⟨h3, h4, h5⟩ | ⟨l, u, after, rfl, h3, h4, h5⟩
        · exact .inl ⟨(t, .err e) :: l, t :: mid, u, r, after, rfl, hf h3, rfl, by simp [h4], by simpa using h5⟩
        · refine .inr (.inl ⟨hf h3, by simp [h4], ?_⟩)
          rw [show (t, Res.err e) :: log = [(t, .err e)] ++ log from rfl, ← lastOf_lastOf _ _ _ h3]
          exact h5
        · exact .inr (.inr ⟨(t, .err e) :: l, u, after, rfl, hf h3, by simp [h4], h5⟩)

theorem tiersLoop_spec (ask : σ → Bytes → Res Response × σ) (tiers : List (List Bytes)) (last : Res (Option Response)) (s : σ) :
    ∃ log s', Asked ask s log s' ∧
      ((∃ l above below before after t r, log = l ++ [(t, .ok r)] ∧ tiers = above ++ (before ++ t :: after) :: below ∧ Failed l ∧
          l.map (·.1) = above.flatten ++ before ∧ tiersLoop ask tiers last s = (above ++ (t :: before ++ after) :: below, .ok (some r), s')) ∨
       (Failed log ∧ log.map (·.1) = tiers.flatten ∧ tiersLoop ask tiers last s = (tiers, lastOf last log, s')) ∨
       (∃ l t after, log = l ++ [(t, .panic)] ∧ Failed l ∧ tiers.flatten = l.map (·.1) ++ t :: after ∧
          tiersLoop ask tiers last s = (tiers, .panic, s'))) := by
  induction tiers generalizing last s with
  | nil => exact ⟨[], s, .nil s, .inr (.inl ⟨by simp [Failed], rfl, rfl⟩)⟩
  | cons tier tiers ih =>
    unfold tiersLoop
    obtain ⟨log, s1, h1, h2⟩ := tierLoop_spec ask [] tier last s
    simp only [List.nil_append, List.length_nil] at h2
    rcases h2 with ⟨l, mid, t, r, after, rfl, h3, rfl, h4, h5⟩ | ⟨h3, h4, h5⟩ | ⟨l, t, after, rfl, h3, h4, h5⟩
    · refine ⟨_, s1, h1, .inl ⟨l, [], tiers, mid, after, t, r, rfl, rfl, h3, by simpa using h4, ?_⟩⟩
      rw [h5]; rfl
    · obtain ⟨log', s2, k1, k2⟩ := ih (lastOf last log) s1
      rw [h5]
      have hf : ∀ {l : List (Bytes × Res Response)}, Failed l → Failed (log ++ l) := by
        intro l h x hx
        rcases List.mem_append.mp hx with hx | hx
        · exact h3 x hx
        · exact h x hx
      refine ⟨log ++ log', s2, asked_append h1 k1, ?_⟩
      rcases k2 with ⟨l, above, below, before, after, t, r, rfl, rfl, h6, h7, h8⟩ | ⟨h6, h7, h8⟩ | ⟨l, t, after, rfl, h6, h7, h8⟩
      · refine .inl ⟨log ++ l, tier :: above, below, before, after, t, r, by simp, rfl, hf h6, by simp [h4, h7], ?_⟩
        simp only [h8]
        rfl
      · refine .inr (.inl ⟨hf h6, by simp [h4, h7], ?_⟩)
        simp only [h8]
        rw [lastOf_lastOf _ _ _ h6]
      · refine .inr (.inr ⟨log ++ l, t, after, by simp, hf h6, by simp [h4, h7], ?_⟩)
        simp only [h8]
    · refine ⟨_, s1, h1, .inr (.inr ⟨l, t, after ++ tiers.flatten, rfl, h3, by simp [h4], ?_⟩)⟩
      rw [h5]

/-- **C54.** An announce asks the trackers tier by tier, in order, until one succeeds; its response is returned and it moves to
the front of its tier, the others keep their order. If all fail, the last error is returned and nothing moves. -/
theorem C54_get (ask : σ → Bytes → Res Response × σ) (tiers : List (List Bytes)) (s : σ) :
    ∃ log, Asked ask s log (get ask tiers s).2.2 ∧ Announced tiers log (get ask tiers s).1 (get ask tiers s).2.1 := by
  obtain ⟨log, s', h1, h2⟩ := tiersLoop_spec ask tiers (.ok none) s
  refine ⟨log, ?_⟩
  unfold get
  rcases h2 with ⟨l, above, below, before, after, t, r, rfl, h3, h4, h5, h6⟩ | ⟨h3, h4, h5⟩ | ⟨l, t, after, rfl, h3, h4, h5⟩
  · rw [h6]
    exact ⟨h1, .success h3 h4 h5⟩
  · rw [h5]
    refine ⟨h1, ?_⟩
    rcases List.eq_nil_or_concat log with rfl | ⟨l, ⟨t, a⟩, rfl⟩
    · exact .none (by simpa using h4.symm)
    · obtain ⟨e, he⟩ := h3 (t, a) (by simp)
      simp only at he
      subst he
      rw [List.concat_eq_append] at *
      rw [lastOf_append]
      exact .failure (fun x hx => h3 x (by simp [hx])) (by simpa using h4)
  · rw [h5]
    exact ⟨h1, .crash h3 h4⟩

theorem sameTiers_refl : ∀ tiers : List (List Bytes), SameTiers tiers tiers
  | [] => .nil
  | t :: ts => .cons (.refl t) (sameTiers_refl ts)

theorem sameTiers_append {a b c d : List (List Bytes)} (h : SameTiers a b) (h' : SameTiers c d) : SameTiers (a ++ c) (b ++ d) := by
  unfold SameTiers at *
  induction h with
  | nil => exact h'
  | cons h1 _ ih => exact .cons h1 ih

theorem announced_sameTiers {R : Type} {tiers tiers' : List (List Bytes)} {log : List (Bytes × Res R)} {res : Res (Option R)} (h : Announced tiers log tiers' res) : SameTiers tiers tiers' := by
  cases h with
  | success h1 _ _ =>
    subst h1
    refine sameTiers_append (sameTiers_refl _) (.cons ?_ (sameTiers_refl _))
    exact List.perm_middle
  | _ => exact sameTiers_refl _

theorem sameTiers_trans {a b c : List (List Bytes)} (h : SameTiers a b) (h' : SameTiers b c) : SameTiers a c := by
  unfold SameTiers at *
  induction h generalizing c with
  | nil => cases h'; exact .nil
  | cons p _ ih => cases h' with | cons q h => exact .cons (p.trans q) (ih h)

/-- A history of announces, each with its own way of asking (the counters in the requests change). -/
def history : List (σ → Bytes → Res Response × σ) → List (List Bytes) → σ → List (List Bytes) × σ
  | [], tiers, s => (tiers, s)
  | ask :: asks, tiers, s => history asks (get ask tiers s).1 (get ask tiers s).2.2

/-- **C54.** Over any history of announces no tracker is lost, duplicated or moved to another tier. -/
theorem C54_history (asks : List (σ → Bytes → Res Response × σ)) (tiers : List (List Bytes)) (s : σ) : SameTiers tiers (history asks tiers s).1 := by
  induction asks generalizing tiers s with
  | nil => exact sameTiers_refl _
  | cons ask asks ih =>
    obtain ⟨log, _, h⟩ := C54_get ask tiers s
    have h1 := announced_sameTiers h
    exact sameTiers_trans h1 (ih _ _)

/-- Answers by URL, for the examples; the state counts the requests. -/
def Ex.ask (s : Nat) (t : Bytes) : Res Response × Nat :=
  (if t = b!"c" then .ok { interval := 7 } else .err .conn, s + 1)

example : get Ex.ask [[b!"a"], [b!"b", b!"d", b!"c", b!"e"]] 0 = ([[b!"a"], [b!"c", b!"b", b!"d", b!"e"]], .ok (some { interval := 7 }), 4) := by kernel_rfl
example : get Ex.ask [[b!"a"], [b!"b"]] 0 = ([[b!"a"], [b!"b"]], .err .conn, 2) := by kernel_rfl

/-! C55 -/

theorem swap_perm {α : Type} (l : List α) (i j : Nat) : (swap l i j).Perm l := by
  unfold swap
  split
  · rename_i a b ha hb
    obtain ⟨hi, rfl⟩ := List.getElem?_eq_some_iff.mp ha
    obtain ⟨hj, rfl⟩ := List.getElem?_eq_some_iff.mp hb
    exact List.set_set_perm hi hj
  · exact .refl _

theorem shuffle_perm {α : Type} (rnd : Nat → Nat) (i : Nat) (l : List α) : (shuffle rnd i l).Perm l := by
  induction i generalizing l with
  | zero => exact .refl _
  | succ i ih => exact (ih _).trans (swap_perm _ _ _)

theorem newTier_spec (rnd : Nat → Nat) (heap : Heap) (list : Nat) :
    ∃ tier, newTier rnd heap list = (heap ++ [tier], tier) ∧ tier.Perm ((heap[list]?).getD []) := by
  refine ⟨_, ?_, shuffle_perm rnd (((heap[list]?).getD []).length - 1) _⟩
  simp [newTier]

theorem newTiers_spec (rnd : Nat → Nat → Nat) (k : Nat) (heap : Heap) (lists : List Nat) (h : ∀ a ∈ lists, a < heap.length) :
    ∃ new, (newTiers rnd k heap lists).1 = heap ++ new ∧
      List.Forall₂ (fun tier list => ∃ l, heap[list]? = some l ∧ tier.Perm l) (newTiers rnd k heap lists).2 lists := by
  induction lists generalizing k heap with
  | nil => exact ⟨[], by simp [newTiers], .nil⟩
  | cons a lists ih =>
    obtain ⟨tier, h1, h2⟩ := newTier_spec (rnd k) heap a
    obtain ⟨new, h3, h4⟩ := ih (k + 1) (heap ++ [tier]) (by intro x hx; have := h x (by simp [hx]); simp; omega)
    refine ⟨tier :: new, ?_, ?_⟩
    · simp only [newTiers, h1, h3, List.append_assoc, List.singleton_append]
    · simp only [newTiers, h1]
      refine .cons ?_ ?_
      · have := h a (by simp)
        rw [List.getElem?_eq_getElem this] at h2 ⊢
        exact ⟨_, rfl, h2⟩
      · have hl : ∀ x ∈ lists, x < heap.length := fun x hx => h x (by simp [hx])
        generalize (newTiers rnd (k + 1) (heap ++ [tier]) lists).2 = ts at h4 ⊢
        clear h3 ih h
        induction h4 with
        | nil => exact .nil
        | cons a _ ih =>
          refine .cons ?_ (ih fun x hx => hl x (by simp [hx]))
          obtain ⟨l, h5, h6⟩ := a
          rw [List.getElem?_append_left (hl _ (by simp))] at h5
          exact ⟨l, h5, h6⟩

/-- **C55.** The tiers are those of the announce list, in order, each with its URLs in some order; without an announce list
there is a single tracker. No existing slice is modified, so the metainfo is as before. -/
theorem C55_tiers (rnd : Nat → Nat → Nat) (heap : Heap) (announceList : List Nat) (announce : Bytes) (h : ∀ a ∈ announceList, a < heap.length) :
    (∃ new, (newMultitracker rnd heap announceList announce).1 = heap ++ new) ∧
    (announceList = [] → (newMultitracker rnd heap announceList announce).2 = [[announce]]) ∧
    (announceList ≠ [] → List.Forall₂ (fun tier list => ∃ l, heap[list]? = some l ∧ tier.Perm l)
      (newMultitracker rnd heap announceList announce).2 announceList) := by
  unfold newMultitracker
  cases announceList with
  | nil =>
    simp only [List.length_nil, Nat.lt_irrefl, if_false, gt_iff_lt]
    refine ⟨?_, fun _ => ?_, fun h => absurd rfl h⟩
    · obtain ⟨new, h1, _⟩ := newTiers_spec rnd 0 (heap ++ [[announce]]) [heap.length] (by simp)
      exact ⟨[announce] :: new, by rw [h1]; simp⟩
    · simp [newTiers, newTier, shuffle]
  | cons a l =>
    simp only [List.length_cons, Nat.succ_pos, if_true, gt_iff_lt]
    obtain ⟨new, h1, h2⟩ := newTiers_spec rnd 0 heap (a :: l) h
    exact ⟨⟨new, h1⟩, by simp, fun _ => h2⟩

theorem swap_mid {α : Type} (a b s : List α) (x y : α) : swap (a ++ x :: (b ++ y :: s)) (a.length + 1 + b.length) a.length = a ++ y :: (b ++ x :: s) := by
  have h1 : (a ++ x :: (b ++ y :: s))[a.length + 1 + b.length]? = some y := by
    rw [List.getElem?_append_right (by omega), show a.length + 1 + b.length - a.length = b.length + 1 by omega, List.getElem?_cons_succ,
      List.getElem?_append_right (by omega)]
    simp
  have h2 : (a ++ x :: (b ++ y :: s))[a.length]? = some x := by simp
  unfold swap
  rw [h1, h2]
  simp only
  rw [List.set_append_right _ _ (by omega), show a.length + 1 + b.length - a.length = b.length + 1 by omega, List.set_cons_succ,
    List.set_append_right _ _ (by omega), Nat.sub_self, List.set_cons_zero, List.set_append_right _ _ (by omega), Nat.sub_self, List.set_cons_zero]

theorem swap_self {α : Type} (a s : List α) (x : α) : swap (a ++ x :: s) a.length a.length = a ++ x :: s := by
  have h2 : (a ++ x :: s)[a.length]? = some x := by simp
  unfold swap
  rw [h2]
  simp

theorem shuffle_congr {α : Type} {rnd rnd' : Nat → Nat} (i : Nat) (h : ∀ k ≤ i, rnd k = rnd' k) (l : List α) : shuffle rnd i l = shuffle rnd' i l := by
  induction i generalizing l with
  | zero => rfl
  | succ i ih => rw [shuffle, shuffle, h _ (Nat.le_refl _), ih fun k hk => h k (by omega)]

theorem shuffle_onto {α : Type} (n : Nat) (p q s : List α) (hn : p.length = n + 1) (h : q.Perm p) : ∃ rnd, shuffle rnd n (p ++ s) = q ++ s := by
  induction n generalizing p q s with
  | zero =>
    match p, hn with
    | [x], _ => rw [List.perm_singleton.mp h]; exact ⟨fun _ => 0, rfl⟩
  | succ n ih =>
    rcases List.eq_nil_or_concat q with rfl | ⟨q', x, rfl⟩
    · have := h.length_eq; simp at this; omega
    rw [List.concat_eq_append] at h ⊢
    have hx : x ∈ p := h.mem_iff.mp (by simp)
    -- the swap puts `x` at the end of the prefix
    have key : ∃ j p', j ≤ n + 1 ∧ swap (p ++ s) (n + 1) j = p' ++ x :: s ∧ (p' ++ [x]).Perm p ∧ p'.length = n + 1 := by
      obtain ⟨a, b, rfl⟩ := List.append_of_mem hx
      rcases List.eq_nil_or_concat b with rfl | ⟨b', y, rfl⟩
      · have hl : a.length = n + 1 := by simpa using hn
        refine ⟨a.length, a, by omega, ?_, .refl _, hl⟩
        rw [← hl]
        simpa using swap_self a s x
      · rw [List.concat_eq_append] at *
        have hl : a.length + 1 + b'.length = n + 1 := by simp at hn; omega
        refine ⟨a.length, a ++ y :: b', by omega, ?_, ?_, by simp; omega⟩
        · rw [← hl]
          simpa using swap_mid a b' s x y
        · simp only [List.append_assoc, List.cons_append]
          refine List.Perm.append_left a ?_
          have e1 : (y :: (b' ++ [x])).Perm (x :: y :: b') := (List.perm_append_singleton x (y :: b'))
          have e2 : (x :: (b' ++ [y])).Perm (x :: y :: b') := (List.perm_append_singleton y b').cons x
          exact e1.trans e2.symm
    obtain ⟨j, p', hj, hs, hp, hl⟩ := key
    have hq : q'.Perm p' := by
      have := h.trans hp.symm
      exact (List.perm_append_right_iff [x]).mp this
    obtain ⟨rnd, h1⟩ := ih p' q' (x :: s) hl hq
    refine ⟨fun k => if k = n + 1 then j else rnd k, ?_⟩
    rw [shuffle]
    simp only [if_true]
    rw [Nat.mod_eq_of_lt (by omega), hs, shuffle_congr (rnd' := rnd) n (fun k hk => by rw [if_neg (by omega)]), h1]
    simp

/-- **C55.** Every order of a tier can come out. -/
theorem C55_every_order (l l' : List Bytes) (heap : Heap) (a : Nat) (ha : heap[a]? = some l) (h : l'.Perm l) (announce : Bytes) :
    ∃ rnd, (newMultitracker rnd heap [a] announce).2 = [l'] := by
  have : ∃ rnd, shuffle rnd (l.length - 1) l = l' := by
    cases l with
    | nil => exact ⟨fun _ => 0, by rw [List.perm_nil.mp h]; rfl⟩
    | cons x l =>
      obtain ⟨rnd, h1⟩ := shuffle_onto l.length (x :: l) l' [] rfl h
      exact ⟨rnd, by simpa using h1⟩
  obtain ⟨rnd, h1⟩ := this
  refine ⟨fun _ => rnd, ?_⟩
  simp [newMultitracker, newTiers, newTier, ha, h1]

example : newMultitracker (fun k i => k + i) [[b!"x", b!"y", b!"z"], [b!"u", b!"v"]] [1, 0] b!"n" =
    ([[b!"x", b!"y", b!"z"], [b!"u", b!"v"], [b!"u", b!"v"], [b!"y", b!"z", b!"x"]], [[b!"u", b!"v"], [b!"y", b!"z", b!"x"]]) := by kernel_rfl

/-! C56 -/

/-- The peers of a decoded response. -/
theorem response_decoded {data : Bytes} {w : Val} (h : unmarshal trackerEnv responseTy (zero responseTy) data = .ok w) :
    ∃ es rest r, SynEs es ∧ data = (CTree.dict es).print ++ rest ∧ Response.ofVal w = some r ∧
      ((r.peers = none ∧ ∀ e ∈ es, e.2.1 ≠ b!"peers") ∨
        ∃ p l tr, r.peers = some p ∧ (l, b!"peers", tr) ∈ es ∧ peersUnmarshal tr.print ⟨false, none⟩ = .ok p) := by
  obtain ⟨tr, rest, h1, rfl, h3⟩ := (unmarshal_D trackerEnv_sane).mp h
  obtain ⟨es', h4, h5⟩ := h3.struct_inv
  obtain ⟨es, rfl, h6⟩ := h5.valid
  have hs : SynEs es := Valid.syn (.dict es) h6
  have he : tr.print = (CTree.dict es).print := by rw [h4, entries_textEs]; simp [CTree.print]
  have fld := fun {i : Nat} {hd : Hdr} {ft : Ty} (hi : responseFields[i]? = some (hd, ft)) (hh : ¬ Hidden hd) =>
    Metainfo.field_of_loop responseFields_plain h5 hi hh
  have str : ∀ {i : Nat} {hd : Hdr}, responseFields[i]? = some (hd, .str) → ¬ Hidden hd → ∃ ws a, w = .struct ws ∧ ws.length = 8 ∧ ws[i]? = some (.str a) := by
    intro i hd hi hh
    obtain ⟨ws, x, k1, k2, k3, k4⟩ := fld hi hh
    rcases k4 with ⟨_, rfl⟩ | ⟨l, tr, _, ⟨_, k⟩ | ⟨_, _, k, _⟩⟩
    · exact ⟨ws, [], k1, k2, k3⟩
    · obtain ⟨_, b, _, _, rfl⟩ := k.str_inv
      exact ⟨ws, b, k1, k2, k3⟩
    · cases k
  have int : ∀ {i : Nat} {hd : Hdr}, responseFields[i]? = some (hd, .int 64) → ¬ Hidden hd → ∃ ws a, w = .struct ws ∧ ws.length = 8 ∧ ws[i]? = some (.int a) := by
    intro i hd hi hh
    obtain ⟨ws, x, k1, k2, k3, k4⟩ := fld hi hh
    rcases k4 with ⟨_, rfl⟩ | ⟨l, tr, _, ⟨_, k⟩ | ⟨_, _, k, _⟩⟩
    · exact ⟨ws, 0, k1, k2, k3⟩
    · obtain ⟨_, b, _, _, _, _, _, rfl⟩ := k.int_inv
      exact ⟨ws, _, k1, k2, k3⟩
    · cases k
  obtain ⟨ws, a0, rfl, hl, e0⟩ := str (i := 0) rfl (by decide +kernel)
  obtain ⟨_, a1, e, _, e1⟩ := int (i := 1) rfl (by decide +kernel); cases e
  obtain ⟨_, a3, e, _, e3⟩ := str (i := 3) rfl (by decide +kernel); cases e
  obtain ⟨_, a4, e, _, e4⟩ := int (i := 4) rfl (by decide +kernel); cases e
  obtain ⟨_, a5, e, _, e5⟩ := str (i := 5) rfl (by decide +kernel); cases e
  obtain ⟨_, a6, e, _, e6⟩ := int (i := 6) rfl (by decide +kernel); cases e
  obtain ⟨_, a7, e, _, e7⟩ := int (i := 7) rfl (by decide +kernel); cases e
  obtain ⟨_, x, e, _, e2, k4⟩ := fld (i := 2) rfl (by decide +kernel); cases e
  match ws, hl with
  | [w0, w1, w2, w3, w4, w5, w6, w7], _ =>
    simp at e0 e1 e2 e3 e4 e5 e6 e7
    subst e0 e1 e2 e3 e4 e5 e6 e7
    rcases k4 with ⟨k, rfl⟩ | ⟨l, tr', k1, ⟨k, _⟩ | ⟨et, y, k2, rfl, k3⟩⟩
    · refine ⟨es, rest, _, hs, by rw [he], rfl, .inl ⟨rfl, ?_⟩⟩
      intro e he hk
      exact k e he (hk.trans (by decide +kernel))
    · cases k
    · cases k2
      obtain ⟨_, k5⟩ := D.method_inv (um := fun data v => (peersUnmarshal data ((ofVal v).getD ⟨false, none⟩)).map Peers.val) rfl rfl k3
      have k6 : (peersUnmarshal tr'.print ⟨false, none⟩).map Peers.val = .ok y := k5
      cases hp : peersUnmarshal tr'.print ⟨false, none⟩ with
      | err e => rw [hp] at k6; cases k6
      | panic => rw [hp] at k6; cases k6
      | ok p =>
        rw [hp] at k6
        cases k6
        refine ⟨es, rest, ⟨a0, a1, some p, a3, a4, a5, a6, a7⟩, hs, by rw [he], by simp [Response.ofVal, ofVal_val], .inr ⟨p, l, tr', rfl, ?_, hp⟩⟩
        have : fieldKey ⟨b!"Peers", b!"peers", false, true⟩ = b!"peers" := by decide +kernel
        rw [this] at k1
        exact k1

/-- A tracker that answers with a response without peers. -/
def Ex.noPeers (s : Unit) (_ _ : Bytes) : Option Bytes × Unit := (some b!"d8:intervali30ee", s)

/-- A client for the examples. -/
def Ex.view : View := ⟨⟨List.replicate 20 7, 4, [List.replicate 20 1, List.replicate 20 2], b!"x", 6, []⟩, List.replicate 20 9, 6881, 0, 0, 4⟩

/-- **C56** is false of the code: without any tracker there is neither a response nor an error, and a response need not have
peers. In both cases the server crashes. -/
theorem C56_usable_refuted :
    ((get (trackerGet Ex.noPeers Ex.view b!"started") [[]] ()).2.1 = .ok none ∧ peerList none = .panic) ∧
    ((get (trackerGet Ex.noPeers Ex.view b!"started") [[b!"u"]] ()).2.1 = .ok (some { interval := 30 }) ∧
      peerList (some { interval := 30 }) = .panic) := ⟨⟨by kernel_rfl, rfl⟩, by kernel_rfl, rfl⟩

theorem unmarshalResponse_ok {data : Bytes} {r : Response} (h : unmarshalResponse data = .ok r) :
    ∃ es rest, SynEs es ∧ data = (CTree.dict es).print ++ rest ∧
      ((r.peers = none ∧ ∀ e ∈ es, e.2.1 ≠ b!"peers") ∨
        ∃ p l tr, r.peers = some p ∧ (l, b!"peers", tr) ∈ es ∧ peersUnmarshal tr.print ⟨false, none⟩ = .ok p) := by
  unfold unmarshalResponse at h
  rw [Res.bind_eq_ok] at h
  obtain ⟨w, h1, h2⟩ := h
  obtain ⟨es, rest, r', h3, h4, h5, h6⟩ := response_decoded h1
  rw [h5] at h2
  cases h2
  exact ⟨es, rest, h3, h4, h6⟩

/-- A `Response` is always made of what was decoded: the model's conversion does not fail. -/
theorem unmarshalResponse_panic {data : Bytes} (h : unmarshalResponse data = .panic) :
    unmarshal trackerEnv responseTy (zero responseTy) data = .panic := by
  unfold unmarshalResponse at h
  cases hu : unmarshal trackerEnv responseTy (zero responseTy) data with
  | panic => rfl
  | err e => rw [hu] at h; cases h
  | ok w =>
    obtain ⟨_, _, r', _, _, h5, _⟩ := response_decoded hu
    rw [hu, Res.bind_ok, h5] at h
    cases h

theorem asked_last {R : Type} {ask : σ → Bytes → Res R × σ} {s s' : σ} {l : List (Bytes × Res R)} {t : Bytes} {a : Res R} (h : Asked ask s (l ++ [(t, a)]) s') :
    ∃ s1, ask s1 t = (a, s') := by
  induction l generalizing s with
  | nil =>
    cases h with
    | cons h1 h2 => cases h2; exact ⟨s, h1⟩
  | cons x l ih =>
    cases h with
    | cons _ h2 => exact ih h2

/-- **C56** (partial: if there is a tracker, and for answers with a `peers` entry). An announce without an error returns the
response of one of the trackers, decoded from its answer, which does not report a failure; if the answer has a `peers`
entry the response has the peers encoded in it. -/
theorem C56_usable_partial (fetch : σ → Bytes → Bytes → Option Bytes × σ) (v : View) (event : Bytes) (tiers : List (List Bytes)) (s : σ)
    (ht : tiers.flatten ≠ []) (o : Option Response) (h : (get (trackerGet fetch v event) tiers s).2.1 = .ok o) :
    ∃ r url s1 data, o = some r ∧ url ∈ tiers.flatten ∧ (fetch s1 url (v.request event).encode).1 = some data ∧
      r.failureReason = [] ∧ ∃ es rest, SynEs es ∧ data = (CTree.dict es).print ++ rest ∧
        ((∃ e ∈ es, e.2.1 = b!"peers") →
          ∃ p l tr, r.peers = some p ∧ peerList o = .ok (p.list.getD []) ∧ (l, b!"peers", tr) ∈ es ∧ peersUnmarshal tr.print ⟨false, none⟩ = .ok p) := by
  obtain ⟨log, h1, h2⟩ := C54_get (trackerGet fetch v event) tiers s
  rw [h] at h2
  generalize (get (trackerGet fetch v event) tiers s).1 = tiers' at h2
  generalize (get (trackerGet fetch v event) tiers s).2.2 = s' at h1
  cases h2 with
  | none h3 => exact absurd h3 ht
  | @success log above below before after t r h3 h4 h5 =>
    obtain ⟨s1, h6⟩ := asked_last h1
    unfold trackerGet at h6
    cases hf : fetch s1 t (v.request event).encode with
    | mk d s2 =>
      rw [hf] at h6
      cases d with
      | none => cases h6
      | some data =>
        simp only [Prod.mk.injEq] at h6
        obtain ⟨h6, rfl⟩ := h6
        rw [Res.bind_eq_ok] at h6
        obtain ⟨r', h7, h8⟩ := h6
        split at h8
        · cases h8
        · rename_i hr
          cases h8
          obtain ⟨es, rest, k1, k2, k3⟩ := unmarshalResponse_ok h7
          refine ⟨r, t, s1, data, rfl, by rw [h3]; simp, by rw [hf], by simpa using hr, es, rest, k1, k2, ?_⟩
          rintro ⟨e, he, hk⟩
          rcases k3 with ⟨_, k3⟩ | ⟨p, l, tr, k3, k4, k5⟩
          · exact absurd hk (k3 e he)
          · exact ⟨p, l, tr, k3, by simp [peerList, k3], k4, k5⟩

/-- A tracker that answers with two peers, unless it is called `a`. -/
def Ex.fetch (s : Unit) (url _ : Bytes) : Option Bytes × Unit :=
  (if url = b!"a" then none else some (b!"d8:intervali30e5:peers12:" ++ [1, 2, 3, 4, 0, 80, 1, 2, 3, 5, 26, 225] ++ b!"e"), s)

example : (get (trackerGet Ex.fetch Ex.view b!"started") [[b!"a", b!"b"]] ()).2.1 =
    .ok (some { interval := 30, peers := some ⟨true, some [⟨[], b!"1.2.3.4", 80⟩, ⟨[], b!"1.2.3.5", 6881⟩]⟩ }) := by kernel_rfl

/-! C80: what a tracker learns -/

/-- **C80.** The query of an announce decodes to the torrent's hash, the client's id and port, its counters and the event. -/
theorem C80_identity (v : View) (event : Bytes) (hh : v.info.sha1.length = 20) (hp : v.peerID.length = 20) (h1 : FitsInt64 v.port) (h2 : FitsInt64 v.uploaded)
    (h3 : FitsInt64 v.downloaded) (h4 : FitsInt64 (v.info.length - v.storageDownloaded)) :
    ∃ r, Request.zero.decode (v.request event).encode = .ok r ∧ r.infoHash = v.info.sha1 ∧ r.peerID = v.peerID ∧ r.ip = [] ∧ r.port = v.port ∧
      r.uploaded = v.uploaded ∧ r.downloaded = v.downloaded ∧ r.event = event ∧ r.compact = true :=
  ⟨_, C33_roundtrip _ ⟨hh, hp, h1, h2, h3, h4⟩, rfl, rfl, rfl, rfl, rfl, rfl, rfl, rfl⟩

example : ∃ r, Request.zero.decode (Ex.view.request b!"started").encode = .ok r ∧ r.port = 6881 :=
  have ⟨r, h1, _, _, _, h2, _⟩ := C80_identity Ex.view b!"started" rfl rfl (by simp [FitsInt64, Ex.view]) (by simp [FitsInt64, Ex.view]) (by simp [FitsInt64, Ex.view]) (by simp [FitsInt64, Ex.view])
  ⟨r, h1, h2⟩

end Drip.Multi
