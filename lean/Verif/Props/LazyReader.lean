import Verif.Model.LazyReader
import Verif.Model.KernelRfl
/-
Theorems about /repo/storage/lazy_file_reader.go and the copying of pieces to the target (C107, C108).
-/

namespace Drip.LazyReader

/-- No call of the os fails. -/
def OS.lucky (os : OS) : Prop := Fate.fail ∉ os.fates

theorem call_spec (os : OS) : ∃ f fs, os.call = (f, { os with fates := fs }) ∧ (os.lucky → (∃ n, f = .ok n) ∧ Fate.fail ∉ fs) := by
  unfold OS.call OS.lucky
  split
  · next h => exact ⟨_, [], by rw [← h], fun _ => ⟨⟨_, rfl⟩, by simp⟩⟩
  · next f fs h =>
    refine ⟨f, fs, rfl, fun hl => ?_⟩
    rw [h] at hl
    simp only [List.mem_cons, not_or] at hl
    exact ⟨by cases f with | ok n => exact ⟨n, rfl⟩ | fail => exact absurd rfl hl.1, hl.2⟩

/-- What remains to be read. -/
def rest (d : Nat → Option Bytes) (l : LFR) : Bytes := ((d l.path).getD []).drop (l.f.getD 0)

def restAll (d : Nat → Option Bytes) (rs : List LFR) : Bytes := (rs.map (rest d)).flatten

/-- A reader that has not been opened. -/
def LFR.fresh (l : LFR) : Prop := l.f = none ∧ l.read = 0 ∧ l.closed = false

/-- A reader whose file is open. -/
def LFR.isOpen (d : Nat → Option Bytes) (l : LFR) : Prop :=
  ∃ c off, d l.path = some c ∧ l.f = some off ∧ off ≤ c.length ∧ l.read = off ∧ l.size = c.length ∧ l.closed = false

/-- The readers: the first may be open. -/
inductive Ready (d : Nat → Option Bytes) : List LFR → Nat → Prop
  | none {rs : List LFR} : (∀ l ∈ rs, l.fresh) → Ready d rs 0
  | one {l : LFR} {ls : List LFR} : l.isOpen d → (∀ l ∈ ls, l.fresh) → Ready d (l :: ls) 1

/-- At most one file is open and never were two; `peak` is no less than what is open. -/
def OS.Calm (os : OS) : Prop := os.opened ≤ os.peak ∧ os.peak ≤ 1

theorem checkOpen_spec {d : Nat → Option Bytes} {l : LFR} {os : OS} (hd : os.disk = d) (hl : l.fresh ∧ os.opened = 0 ∨ l.isOpen d ∧ os.opened = 1) (hp : os.Calm) :
    ∃ ok l' os', checkOpen l os = (ok, l', os') ∧ os'.disk = d ∧ os'.Calm ∧ l'.path = l.path ∧ (os.lucky → os'.lucky) ∧
      ((ok = true ∧ l'.isOpen d ∧ os'.opened = 1 ∧ rest d l' = rest d l) ∨
       (ok = false ∧ l'.fresh ∧ os'.opened = 0 ∧ rest d l' = rest d l ∧ (os.lucky → d l.path = .none))) := by
  subst hd
  rcases hl with ⟨⟨h1, h2, h3⟩, ho⟩ | ⟨hopen, ho⟩
  · obtain ⟨f, fs, hc, hlk⟩ := call_spec os
    unfold checkOpen
    simp only [h1, hc]
    cases f with
    | fail =>
      refine ⟨_, _, _, rfl, rfl, hp, rfl, fun h => (hlk h).2, .inr ⟨rfl, ⟨h1, h2, h3⟩, ho, rfl, fun h => ?_⟩⟩
      obtain ⟨n, hn⟩ := (hlk h).1; cases hn
    | ok n =>
      cases hcon : os.disk l.path with
      | none =>
        simp only [hcon]
        exact ⟨_, _, _, rfl, rfl, hp, rfl, fun h => (hlk h).2, .inr ⟨rfl, ⟨h1, h2, h3⟩, ho, rfl, fun _ => trivial⟩⟩
      | some c =>
        obtain ⟨f', fs', hc', hlk'⟩ := call_spec { os with fates := fs }
        simp only [hcon, hc']
        cases f' with
        | fail =>
          refine ⟨_, _, _, rfl, rfl, hp, rfl, fun h => (hlk' (hlk h).2).2, .inr ⟨rfl, ⟨rfl, h2, h3⟩, ho, by simp [rest, h1], fun h => ?_⟩⟩
          obtain ⟨n, hn⟩ := (hlk' (hlk h).2).1; cases hn
        | ok n' =>
          refine ⟨_, _, _, rfl, rfl, ?_, rfl, fun h => (hlk' (hlk h).2).2, .inl ⟨rfl, ⟨c, 0, hcon, rfl, by omega, h2, rfl, h3⟩, ?_, ?_⟩⟩
          · simp only [OS.Calm, OS.open_] at hp ⊢; omega
          · simp only [OS.open_]; omega
          · simp [rest, h1]
  · obtain ⟨c, off, g1, g2, g3⟩ := hopen
    unfold checkOpen
    simp only [g2]
    exact ⟨_, _, _, rfl, rfl, hp, rfl, id, .inl ⟨rfl, ⟨c, off, g1, g2, g3⟩, ho, rfl⟩⟩

theorem readAt_spec (c : Bytes) (off k : Nat) (os : OS) (hk : 0 < k) (ho : off ≤ c.length) :
    ∃ bs e fs, readAt c off k os = (bs, e, { os with fates := fs }) ∧ (os.lucky → Fate.fail ∉ fs ∧ e ≠ .err) ∧
      (e = .err ∧ bs = [] ∨ e = .eof ∧ bs = [] ∧ off = c.length ∨ e = .nil ∧ bs ≠ [] ∧ bs.length ≤ k ∧ c.drop off = bs ++ c.drop (off + bs.length) ∧ off + bs.length ≤ c.length) := by
  obtain ⟨f, fs, hc, hlk⟩ := call_spec os
  unfold readAt
  rw [hc]
  cases f with
  | fail =>
    refine ⟨_, _, _, rfl, fun h => ?_, .inl ⟨rfl, rfl⟩⟩
    obtain ⟨n, hn⟩ := (hlk h).1; cases hn
  | ok n =>
    simp only
    rw [if_neg (by omega)]
    by_cases hle : c.length ≤ off
    · rw [if_pos hle]
      exact ⟨_, _, _, rfl, fun h => ⟨(hlk h).2, by simp⟩, .inr (.inl ⟨rfl, rfl, by omega⟩)⟩
    · rw [if_neg hle]
      refine ⟨_, _, _, rfl, fun h => ⟨(hlk h).2, by simp⟩, .inr (.inr ⟨rfl, ?_, ?_, ?_, ?_⟩)⟩
      · intro h
        have := congrArg List.length h
        simp at this; omega
      · simp; omega
      · rw [List.take_take]
        have : (List.take (min (n + 1) k) (List.drop off c)) ++ List.drop (min (n + 1) k) (List.drop off c) = List.drop off c := List.take_append_drop _ _
        rw [← List.drop_drop]
        by_cases hlen : min (n + 1) k ≤ (List.drop off c).length
        · rw [List.length_take_of_le hlen]; exact this.symm
        · rw [List.take_of_length_le (by omega)]; simp; omega
      · simp only [List.length_take, List.length_drop]; omega

theorem read_spec {d : Nat → Option Bytes} {l : LFR} {os : OS} {k : Nat} (hk : 0 < k) (hd : os.disk = d) (hl : l.fresh ∧ os.opened = 0 ∨ l.isOpen d ∧ os.opened = 1) (hp : os.Calm) :
    ∃ bs e l' os', l.Read k os = (bs, e, l', os') ∧ os'.disk = d ∧ os'.Calm ∧ l'.path = l.path ∧ (os.lucky → os'.lucky ∧ (d l.path ≠ none → e ≠ .err)) ∧
      ((e = .err ∧ bs = [] ∧ (l'.fresh ∧ os'.opened = 0 ∨ l'.isOpen d ∧ os'.opened = 1) ∧ rest d l' = rest d l) ∨
       (e = .eof ∧ bs = [] ∧ rest d l = [] ∧ os'.opened = 0) ∨
       (e = .nil ∧ bs ≠ [] ∧ bs.length ≤ k ∧ rest d l = bs ++ rest d l' ∧ l'.isOpen d ∧ os'.opened = 1)) := by
  obtain ⟨ok, l1, os1, h1, hd1, hp1, hpath, hlk1, h⟩ := checkOpen_spec hd hl hp
  unfold LFR.Read
  rw [h1]
  rcases h with ⟨rfl, hopen, ho, hrest⟩ | ⟨rfl, hfresh, ho, hrest, hnone⟩
  · obtain ⟨c, off, g1, g2, g3, g4, g5, g6⟩ := hopen
    obtain ⟨bs, e, fs, hr, hlk, hcase⟩ := readAt_spec c off k os1 hk g3
    subst hd1
    simp only [g1, g2, g6, hr, Bool.false_eq_true, if_false]
    have hrl : rest os1.disk l1 = c.drop off := by simp [rest, g1, g2]
    rcases hcase with ⟨rfl, rfl⟩ | ⟨rfl, rfl, hoff⟩ | ⟨rfl, hne, hlen, hdrop, hle⟩
    · refine ⟨_, _, _, _, rfl, rfl, hp1, hpath, fun h => ⟨(hlk (hlk1 h)).1, fun _ => (hlk (hlk1 h)).2⟩, .inl ⟨rfl, rfl, .inr ⟨⟨c, off, g1, rfl, g3, by simpa using g4, g5, rfl⟩, ho⟩, ?_⟩⟩
      rw [← hrest, hrl]; simp [rest, g1]
    · simp only [if_true, checkClose]
      rw [if_pos ⟨by simp only [List.length_nil]; omega, by simp, trivial⟩]
      refine ⟨_, _, _, _, rfl, rfl, ⟨Nat.le_trans (Nat.sub_le _ _) hp1.1, hp1.2⟩, hpath, fun h => ⟨(hlk (hlk1 h)).1, fun _ => (hlk (hlk1 h)).2⟩, .inr (.inl ⟨rfl, rfl, ?_, ?_⟩)⟩
      · rw [← hrest, hrl, hoff]; simp
      · simp only [ho]
    · refine ⟨_, _, _, _, rfl, rfl, hp1, hpath, fun h => ⟨(hlk (hlk1 h)).1, fun _ => (hlk (hlk1 h)).2⟩,
        .inr (.inr ⟨rfl, hne, hlen, ?_, ⟨c, _, g1, rfl, hle, by simp [g4], g5, rfl⟩, ho⟩)⟩
      rw [← hrest, hrl, hdrop]; simp [rest, g1]
  · refine ⟨_, _, _, _, rfl, hd1, hp1, hpath, fun h => ⟨hlk1 h, fun hne => absurd (hnone h) hne⟩, .inl ⟨rfl, rfl, .inl ⟨hfresh, ho⟩, hrest⟩⟩

theorem ready_head {d : Nat → Option Bytes} {l : LFR} {ls : List LFR} {n : Nat} (h : Ready d (l :: ls) n) : (l.fresh ∧ n = 0 ∨ l.isOpen d ∧ n = 1) ∧ ∀ x ∈ ls, x.fresh := by
  cases h with
  | none h => exact ⟨.inl ⟨h l (by simp), rfl⟩, fun x hx => h x (by simp [hx])⟩
  | one h h' => exact ⟨.inr ⟨h, rfl⟩, h'⟩

theorem ready_of {d : Nat → Option Bytes} {l : LFR} {ls : List LFR} {n : Nat} (h : l.fresh ∧ n = 0 ∨ l.isOpen d ∧ n = 1) (h' : ∀ x ∈ ls, x.fresh) : Ready d (l :: ls) n := by
  rcases h with ⟨h, rfl⟩ | ⟨h, rfl⟩
  · exact .none (by simpa using ⟨h, h'⟩)
  · exact .one h h'

theorem ready_le {d : Nat → Option Bytes} {rs : List LFR} {n : Nat} (h : Ready d rs n) : n ≤ 1 := by cases h <;> omega

theorem mrRead_spec {d : Nat → Option Bytes} {k : Nat} (hk : 0 < k) : ∀ {rs : List LFR} {os : OS}, os.disk = d → Ready d rs os.opened → os.Calm →
    ∃ bs e rs' os', mrRead k rs os = (bs, e, rs', os') ∧ os'.disk = d ∧ os'.Calm ∧ Ready d rs' os'.opened ∧ (∀ l ∈ rs', ∃ l' ∈ rs, l'.path = l.path) ∧
      (os.lucky → os'.lucky ∧ ((∀ l ∈ rs, d l.path ≠ .none) → e ≠ .err)) ∧
      ((e = .err ∧ bs = []) ∨ (e = .eof ∧ bs = [] ∧ restAll d rs = [] ∧ rs' = []) ∨
       (e = .nil ∧ bs ≠ [] ∧ bs.length ≤ k ∧ restAll d rs = bs ++ restAll d rs' ∧ os'.opened = 1))
  | [], os, hd, hr, hp => ⟨_, _, _, _, rfl, hd, hp, hr, by simp, fun h => ⟨h, by simp⟩, .inr (.inl ⟨rfl, rfl, rfl, rfl⟩)⟩
  | l :: ls, os, hd, hr, hp => by
    obtain ⟨hl, hls⟩ := ready_head hr
    obtain ⟨bs, e, l', os', h1, hd', hp', hpath, hlk, hcase⟩ := read_spec hk hd hl hp
    unfold mrRead
    rw [h1]
    rcases hcase with ⟨rfl, rfl, hst, hrest⟩ | ⟨rfl, rfl, hrest, ho⟩ | ⟨rfl, hne, hlen, hrest, hopen, ho⟩
    · refine ⟨_, _, _, _, rfl, hd', hp', ready_of hst hls, ?_, fun h => ⟨(hlk h).1, fun ha => (hlk h).2 (ha l (by simp))⟩, .inl ⟨rfl, rfl⟩⟩
      intro x hx
      rcases List.mem_cons.1 hx with rfl | hx
      · exact ⟨l, by simp, hpath.symm⟩
      · exact ⟨x, by simp [hx], rfl⟩
    · obtain ⟨bs2, e2, rs2, os2, g1, g2, g3, g4, g5, g6, g7⟩ := mrRead_spec hk (rs := ls) hd' (by rw [ho]; exact .none hls) hp'
      simp only [ne_eq, not_true_eq_false, if_false, g1]
      refine ⟨_, _, _, _, rfl, g2, g3, g4, ?_, fun h => ⟨(g6 (hlk h).1).1, fun ha => (g6 (hlk h).1).2 fun x hx => ha x (by simp [hx])⟩, ?_⟩
      · intro x hx
        obtain ⟨y, hy, hp⟩ := g5 x hx
        exact ⟨y, by simp [hy], hp⟩
      · have : restAll d (l :: ls) = restAll d ls := by simp [restAll, hrest]
        rw [this]
        exact g7
    · refine ⟨_, _, _, _, rfl, hd', hp', ready_of (.inr ⟨hopen, ho⟩) hls, ?_, fun h => ⟨(hlk h).1, fun _ => by simp⟩, .inr (.inr ⟨rfl, hne, hlen, ?_, ho⟩)⟩
      · intro x hx
        rcases List.mem_cons.1 hx with rfl | hx
        · exact ⟨l, by simp, hpath.symm⟩
        · exact ⟨x, by simp [hx], rfl⟩
      · simp [restAll, hrest, List.append_assoc]

theorem copyLoop_spec {d : Nat → Option Bytes} {buf : Nat} (hb : 0 < buf) : ∀ {fuel n : Nat} {acc : Bytes} {rs : List LFR} {os : OS}, n < fuel → os.disk = d → Ready d rs os.opened → os.Calm →
    ∃ w e rs' os', copyLoop fuel buf n acc rs os = (acc ++ w, e, rs', os') ∧ os'.disk = d ∧ os'.Calm ∧ Ready d rs' os'.opened ∧ (∀ l ∈ rs', ∃ l' ∈ rs, l'.path = l.path) ∧
      (os.lucky → os'.lucky ∧ ((∀ l ∈ rs, d l.path ≠ .none) → e ≠ .err)) ∧
      ((e = .err ∧ w.length < n) ∨ (e = .nil ∧ w = (restAll d rs).take n ∧ restAll d rs' = (restAll d rs).drop n ∧ (w.length = n → os'.opened = if n = 0 then os.opened else 1))) := by
  intro fuel
  induction fuel with
  | zero => intro n acc rs os h; omega
  | succ fuel ih =>
    intro n acc rs os hn hd hr hp
    unfold copyLoop
    by_cases h0 : n = 0
    · subst h0
      rw [if_pos rfl]
      exact ⟨[], _, _, _, by rw [List.append_nil], hd, hp, hr, fun l hl => ⟨l, hl, rfl⟩, fun h => ⟨h, by simp⟩, .inr ⟨rfl, by simp, by simp, fun _ => by simp⟩⟩
    · rw [if_neg h0]
      obtain ⟨bs, e, rs1, os1, g1, g2, g3, g4, g5, g6, g7⟩ := mrRead_spec (k := min buf n) (by omega) hd hr hp
      rw [g1]
      simp only
      rcases g7 with ⟨rfl, rfl⟩ | ⟨rfl, rfl, hrest, rfl⟩ | ⟨rfl, hne, hlen, hrest, hop⟩
      · simp only [ne_eq, not_true_eq_false, if_false]
        exact ⟨[], _, _, _, rfl, g2, g3, g4, g5, g6, .inl ⟨rfl, by simp; omega⟩⟩
      · simp only [ne_eq, not_true_eq_false, if_false]
        exact ⟨[], _, _, _, rfl, g2, g3, g4, g5, fun h => ⟨(g6 h).1, fun _ => by simp⟩, .inr ⟨rfl, by rw [hrest, List.take_nil], by rw [hrest, List.drop_nil]; rfl, fun h => by simp at h; omega⟩⟩
      · obtain ⟨f, fs, hc, hlk⟩ := call_spec os1
        simp only [hne, ne_eq, not_false_eq_true, if_true, hc]
        cases f with
        | fail =>
          refine ⟨[], .err, rs1, { os1 with fates := fs }, by simp, g2, g3, g4, g5, fun h => ?_, .inl ⟨rfl, by simp; omega⟩⟩
          obtain ⟨m, hm⟩ := (hlk (g6 h).1).1; cases hm
        | ok m =>
          have hpos : 0 < bs.length := List.length_pos_iff.2 hne
          obtain ⟨w, e', rs2, os2, i1, i2, i3, i4, i5, i6, i7⟩ := ih (n := n - bs.length) (acc := acc ++ bs) (rs := rs1) (os := { os1 with fates := fs }) (by omega) g2 g4 g3
          simp only [i1]
          refine ⟨bs ++ w, e', rs2, os2, by rw [List.append_assoc], i2, i3, i4, ?_, ?_, ?_⟩
          · intro x hx
            obtain ⟨y, hy, hp1⟩ := i5 x hx
            obtain ⟨z, hz, hp2⟩ := g5 y hy
            exact ⟨z, hz, hp2.trans hp1⟩
          · intro h
            have := i6 (hlk (g6 h).1).2
            refine ⟨this.1, fun ha => this.2 fun x hx => ?_⟩
            obtain ⟨y, hy, hp1⟩ := g5 x hx
            rw [← hp1]; exact ha y hy
          · rcases i7 with ⟨rfl, hw⟩ | ⟨rfl, hw, hr2, hop2⟩
            · exact .inl ⟨rfl, by simp; omega⟩
            · refine .inr ⟨rfl, ?_, ?_, fun hl => ?_⟩
              · rw [hrest, List.take_append, hw, List.take_of_length_le (l := bs) (by omega)]
              · rw [hr2, hrest, List.drop_append, List.drop_of_length_le (l := bs) (by omega)]; simp
              · rw [List.length_append] at hl
                rw [hop2 (by omega), if_neg h0]
                split
                · exact hop
                · rfl

theorem copyN_spec {d : Nat → Option Bytes} {n : Int} {rs : List LFR} {os : OS} (hd : os.disk = d) (hr : Ready d rs os.opened) (hp : os.Calm) :
    ∃ o rs' os', copyN n rs os = (o, rs', os') ∧ os'.disk = d ∧ os'.Calm ∧ Ready d rs' os'.opened ∧ (∀ l ∈ rs', ∃ l' ∈ rs, l'.path = l.path) ∧
      (os.lucky → os'.lucky ∧ ((∀ l ∈ rs, d l.path ≠ .none) → n.toNat ≤ (restAll d rs).length → o ≠ .none)) ∧
      ∀ w, o = some w → w = (restAll d rs).take n.toNat ∧ w.length = n.toNat ∧ restAll d rs' = (restAll d rs).drop n.toNat ∧ os'.opened = if n.toNat = 0 then os.opened else 1 := by
  unfold copyN
  obtain ⟨w, e, rs', os', g1, g2, g3, g4, g5, g6, g7⟩ :=
    copyLoop_spec (d := d) (buf := if 32768 > n then (if n < 1 then 1 else n.toNat) else 32768) (by split <;> (try split) <;> omega) (fuel := n.toNat + 1) (n := n.toNat) (acc := []) (by omega) hd hr hp
  rw [g1]
  simp only [List.nil_append]
  have hlen : e = .nil → w.length ≤ n.toNat := by
    rintro rfl
    rcases g7 with ⟨h, _⟩ | ⟨_, hw, _, _⟩
    · cases h
    · rw [hw, List.length_take]; omega
  by_cases h1 : (w.length : Int) = n
  · rw [if_pos h1]
    refine ⟨_, _, _, rfl, g2, g3, g4, g5, fun h => ⟨(g6 h).1, fun _ _ => by simp⟩, ?_⟩
    rintro w' hw'
    cases hw'
    rcases g7 with ⟨rfl, hw⟩ | ⟨rfl, hw, hr2, hop⟩
    · omega
    · exact ⟨hw, by omega, hr2, hop (by omega)⟩
  · rw [if_neg h1]
    by_cases h2 : e = .nil ∧ ¬(w.length : Int) < n
    · rw [if_pos h2]
      refine ⟨_, _, _, rfl, g2, g3, g4, g5, fun h => ⟨(g6 h).1, fun _ _ => by simp⟩, ?_⟩
      rintro w' hw'
      cases hw'
      have := hlen h2.1
      rcases g7 with ⟨he, hw⟩ | ⟨_, hw, hr2, hop⟩
      · rw [h2.1] at he; cases he
      · exact ⟨hw, by omega, hr2, hop (by omega)⟩
    · rw [if_neg h2]
      refine ⟨_, _, _, rfl, g2, g3, g4, g5, fun h => ⟨(g6 h).1, fun ha hle => ?_⟩, by simp⟩
      have he := (g6 h).2 ha
      rcases g7 with ⟨he', _⟩ | ⟨he', hw, _, _⟩
      · exact absurd he' he
      · exfalso
        have : w.length = n.toNat := by rw [hw, List.length_take]; omega
        exact h2 ⟨he', by omega⟩

theorem copyFiles_spec {d : Nat → Option Bytes} : ∀ {ns : List Int} {rs : List LFR} {os : OS}, os.disk = d → Ready d rs os.opened → os.Calm →
    ∃ o os', copyFiles ns rs os = (o, os') ∧ os'.Calm ∧ os'.opened ≤ 1 ∧
      (os.lucky → (∀ l ∈ rs, d l.path ≠ .none) → (ns.map Int.toNat).sum ≤ (restAll d rs).length → o ≠ .none) ∧
      ∀ ws, o = some ws → ws.map List.length = ns.map Int.toNat ∧ ws.flatten = (restAll d rs).take (ns.map Int.toNat).sum ∧ os'.opened = if (ns.map Int.toNat).sum = 0 then os.opened else 1
  | [], rs, os, hd, hr, hp => ⟨_, _, rfl, hp, ready_le hr, fun _ _ _ => by simp, by rintro ws hws; cases hws; simp⟩
  | n :: ns, rs, os, hd, hr, hp => by
    unfold copyFiles
    obtain ⟨f1, fs1, hc1, hlk1⟩ := call_spec os
    rw [hc1]
    cases f1 with
    | fail =>
      refine ⟨_, _, rfl, hp, ready_le hr, fun h => ?_, by simp⟩
      obtain ⟨m, hm⟩ := (hlk1 h).1; cases hm
    | ok m1 =>
      obtain ⟨f2, fs2, hc2, hlk2⟩ := call_spec { os with fates := fs1 }
      simp only [hc2]
      cases f2 with
      | fail =>
        refine ⟨_, _, rfl, hp, ready_le hr, fun h => ?_, by simp⟩
        obtain ⟨m, hm⟩ := (hlk2 (hlk1 h).2).1; cases hm
      | ok m2 =>
        obtain ⟨o, rs', os', g1, g2, g3, g4, g5, g6, g7⟩ := copyN_spec (n := n) (rs := rs) (os := { os with fates := fs2 }) hd hr hp
        simp only [g1]
        have hl : os.lucky → OS.lucky { os with fates := fs2 } := fun h => (hlk2 (hlk1 h).2).2
        cases o with
        | none =>
          refine ⟨_, _, rfl, g3, ready_le g4, fun h ha hle => absurd rfl ((g6 (hl h)).2 ha ?_), by simp⟩
          simp only [List.map_cons, List.sum_cons] at hle
          omega
        | some w =>
          obtain ⟨hw, hwl, hrest, hop⟩ := g7 w rfl
          obtain ⟨o2, os2, i1, i2, i3, i4, i5⟩ := copyFiles_spec (ns := ns) g2 g4 g3
          simp only [i1]
          cases o2 with
          | none =>
            refine ⟨_, _, rfl, i2, i3, fun h ha hle => absurd rfl (i4 (g6 (hl h)).1 (fun x hx => ?_) ?_), by simp⟩
            · obtain ⟨y, hy, hpth⟩ := g5 x hx
              rw [← hpth]; exact ha y hy
            · simp only [List.map_cons, List.sum_cons] at hle
              rw [hrest, List.length_drop]; omega
          | some ws =>
            refine ⟨_, _, rfl, i2, i3, fun _ _ _ => by simp, ?_⟩
            rintro ws' hws
            cases hws
            obtain ⟨j1, j2, j3⟩ := i5 ws rfl
            refine ⟨by simp [hwl, j1], ?_, ?_⟩
            · rw [List.flatten_cons, j2, hrest, hw, List.map_cons, List.sum_cons, List.take_add]
            · rw [j3, hop, List.map_cons, List.sum_cons]
              by_cases hn : n.toNat = 0 <;> by_cases hs : (ns.map Int.toNat).sum = 0 <;> simp [hn, hs]

theorem writeLoop_spec : ∀ {fuel : Nat} {c : Bytes} {off : Nat} {acc : Bytes} {os : OS}, off ≤ c.length → c.length < fuel + off →
    ∃ w ok off' fs, writeLoop fuel c off acc os = (acc ++ w, ok, off', { os with fates := fs }) ∧ (os.lucky → Fate.fail ∉ fs ∧ ok = true) ∧
      (ok = true → w = c.drop off ∧ off' = c.length) ∧ off' = off + w.length ∧ off' ≤ c.length := by
  intro fuel
  induction fuel with
  | zero => intro c off acc os h1 h2; omega
  | succ fuel ih =>
    intro c off acc os h1 h2
    unfold writeLoop
    obtain ⟨bs, e, fs, hr, hlk, hcase⟩ := readAt_spec c off (c.length + 1) os (by omega) h1
    rw [hr]
    rcases hcase with ⟨rfl, rfl⟩ | ⟨rfl, rfl, hoff⟩ | ⟨rfl, hne, hlen, hdrop, hle⟩
    · exact ⟨[], false, off, fs, by simp, fun h => absurd rfl (hlk h).2, by simp, by simp, h1⟩
    · exact ⟨[], true, off, fs, by simp, fun h => ⟨(hlk h).1, rfl⟩, fun _ => ⟨by rw [hoff]; simp, hoff⟩, by simp, h1⟩
    · obtain ⟨f, fs', hc, hlk'⟩ := call_spec { os with fates := fs }
      simp only [hc]
      cases f with
      | fail =>
        refine ⟨[], false, off, fs', by simp, fun h => ?_, by simp, by simp, h1⟩
        obtain ⟨m, hm⟩ := (hlk' (hlk h).1).1; cases hm
      | ok m =>
        have hpos : 0 < bs.length := List.length_pos_iff.2 hne
        obtain ⟨w, ok, off', fs2, i1, i2, i3, i4, i5⟩ := ih (c := c) (off := off + bs.length) (acc := acc ++ bs) (os := { os with fates := fs' }) hle (by omega)
        simp only [i1]
        refine ⟨bs ++ w, ok, off', fs2, by rw [List.append_assoc], fun h => i2 (hlk' (hlk h).1).2, fun h => ⟨?_, (i3 h).2⟩, ?_, i5⟩
        · rw [hdrop, (i3 h).1]
        · rw [i4, List.length_append]; omega

theorem writeTo_spec {d : Nat → Option Bytes} {l : LFR} {os : OS} (hd : os.disk = d) (hl : l.fresh) (ho : os.opened = 0) (hp : os.Calm) :
    ∃ w ok l' os', l.WriteTo os = (w, ok, l', os') ∧ os'.disk = d ∧ os'.Calm ∧ os'.opened ≤ 1 ∧ (os.lucky → os'.lucky ∧ (d l.path ≠ none → ok = true)) ∧
      (ok = true → os'.opened = 0 ∧ d l.path = some w) := by
  obtain ⟨ok, l1, os1, h1, hd1, hp1, hpath, hlk1, h⟩ := checkOpen_spec hd (.inl ⟨hl, ho⟩) hp
  unfold LFR.WriteTo
  rw [h1]
  rcases h with ⟨rfl, hopen, ho1, hrest⟩ | ⟨rfl, hfresh, ho1, hrest, hnone⟩
  · obtain ⟨c, off, g1, g2, g3, g4, g5, g6⟩ := hopen
    have hoff : off = 0 := by
      unfold checkOpen at h1
      rw [hl.1] at h1
      simp only at h1
      split at h1
      · simp at h1
      · split at h1
        · simp at h1
        · split at h1
          · simp at h1
          · have := congrArg (fun x => x.2.1.f) h1
            rw [g2] at this
            simpa using this.symm
    subst hoff
    obtain ⟨w, ok, off', fs, hw, hlk, hok, hoff', hle⟩ := writeLoop_spec (fuel := c.length + 1) (c := c) (off := 0) (acc := []) (os := os1) (by omega) (by omega)
    subst hd1
    simp only [g1, g2, hw, List.nil_append, checkClose]
    by_cases hcl : l1.read + w.length = l1.size
    · rw [if_pos ⟨hcl, by simp, g6⟩]
      refine ⟨_, _, _, _, rfl, rfl, ⟨Nat.le_trans (Nat.sub_le _ _) hp1.1, hp1.2⟩, ?_, fun h => ⟨(hlk (hlk1 h)).1, fun _ => (hlk (hlk1 h)).2⟩, fun h => ⟨?_, ?_⟩⟩
      · simp only; omega
      · simp only; omega
      · rw [← hpath, g1, (hok h).1]; simp
    · rw [if_neg (fun h => hcl h.1)]
      refine ⟨_, _, _, _, rfl, rfl, hp1, ?_, fun h => ⟨(hlk (hlk1 h)).1, fun _ => (hlk (hlk1 h)).2⟩, fun h => ?_⟩
      · simp only; omega
      · exact absurd (by have := (hok h).2; omega) hcl
  · have hcc : checkClose l1 os1 = (l1, os1) := by
      unfold checkClose
      rw [if_neg (fun h => h.2.1 hfresh.1)]
    simp only [hcc]
    exact ⟨_, _, _, _, rfl, hd1, hp1, by omega, fun h => ⟨hlk1 h, fun hne => absurd (hnone h) hne⟩, by simp⟩

theorem copyAll_spec {d : Nat → Option Bytes} : ∀ {rs : List LFR} {os : OS}, os.disk = d → (∀ l ∈ rs, l.fresh) → os.opened = 0 → os.Calm →
    ∃ o os', copyAll rs os = (o, os') ∧ os'.Calm ∧ os'.opened ≤ 1 ∧ (os.lucky → (∀ l ∈ rs, d l.path ≠ .none) → o ≠ .none) ∧
      ∀ w, o = some w → os'.opened = 0 ∧ ∃ cs : List Bytes, rs.map (fun l => d l.path) = cs.map some ∧ w = cs.flatten
  | [], os, hd, hf, ho, hp => ⟨_, _, rfl, hp, by omega, fun _ _ => by simp, by rintro w hw; cases hw; exact ⟨ho, [], by simp⟩⟩
  | l :: ls, os, hd, hf, ho, hp => by
    unfold copyAll
    obtain ⟨w, ok, l', os', g1, g2, g3, g4, g5, g6⟩ := writeTo_spec hd (hf l (by simp)) ho hp
    rw [g1]
    cases ok with
    | false => exact ⟨_, _, rfl, g3, g4, fun h ha => by have := (g5 h).2 (ha l (by simp)); simp at this, by simp⟩
    | true =>
      obtain ⟨o, os2, i1, i2, i3, i4, i5⟩ := copyAll_spec (rs := ls) g2 (fun x hx => hf x (by simp [hx])) (g6 rfl).1 g3
      simp only [i1]
      cases o with
      | none => exact ⟨_, _, rfl, i2, i3, fun h ha => absurd rfl (i4 (g5 h).1 fun x hx => ha x (by simp [hx])), by simp⟩
      | some ws =>
        refine ⟨_, _, rfl, i2, i3, fun _ _ => by simp, ?_⟩
        rintro w' hw'
        cases hw'
        obtain ⟨j1, cs, j2, j3⟩ := i5 ws rfl
        exact ⟨j1, w :: cs, by simp [j2, (g6 rfl).2], by simp [j3]⟩

theorem readers_fresh (n : Nat) : ∀ l ∈ readers n, l.fresh := by
  intro l hl
  obtain ⟨i, _, rfl⟩ := List.mem_map.1 hl
  exact ⟨rfl, rfl, rfl⟩

theorem readers_restAll (d : Nat → Option Bytes) (n : Nat) : restAll d (readers n) = ((List.range n).map fun i => (d i).getD []).flatten := by
  simp [restAll, readers, rest, Function.comp_def]

theorem flatten_of_present {d : Nat → Option Bytes} {cs : List Bytes} (h : ∀ i, i < cs.length → d i = cs[i]?) : ((List.range cs.length).map fun i => (d i).getD []) = cs := by
  apply List.ext_getElem (by simp)
  intro i h1 h2
  simp [h i h2, h2]

/-! ### C107 -/

/-- C107: whatever the os does with the calls and however it cuts the reads, when the copying to a target of several files succeeds the files have exactly their lengths and
together are the beginning of the pieces, in order. -/
theorem C107_multi {d : Nat → Option Bytes} {cs : List Bytes} {lengths : List Int} {fates : List Fate} {ws : List Bytes} {os : OS} (hpieces : ∀ i, i < cs.length → d i = cs[i]?)
    (h : multi cs.length lengths { disk := d, fates := fates } = (some ws, os)) :
    ws.map List.length = lengths.map Int.toNat ∧ ws.flatten = cs.flatten.take (lengths.map Int.toNat).sum := by
  obtain ⟨o, os', g1, -, -, -, g2⟩ := copyFiles_spec (d := d) (ns := lengths) (rs := readers cs.length) (os := { disk := d, fates := fates }) rfl (.none (readers_fresh _)) (by simp [OS.Calm])
  unfold multi at h
  rw [g1] at h
  cases h
  obtain ⟨h1, h2, -⟩ := g2 ws rfl
  rw [readers_restAll, flatten_of_present hpieces] at h2
  exact ⟨h1, h2⟩

/-- C107: when no call of the os fails and the pieces are long enough, the copying succeeds, however the reads are cut. -/
theorem C107_multi_succeeds {d : Nat → Option Bytes} {cs : List Bytes} {lengths : List Int} {fates : List Fate} (hpieces : ∀ i, i < cs.length → d i = cs[i]?)
    (hfates : Fate.fail ∉ fates) (hlen : (lengths.map Int.toNat).sum ≤ cs.flatten.length) :
    ∃ ws os, multi cs.length lengths { disk := d, fates := fates } = (some ws, os) := by
  obtain ⟨o, os', g1, -, -, g2, -⟩ := copyFiles_spec (d := d) (ns := lengths) (rs := readers cs.length) (os := { disk := d, fates := fates }) rfl (.none (readers_fresh _)) (by simp [OS.Calm])
  have : o ≠ none := by
    refine g2 hfates ?_ (by rw [readers_restAll, flatten_of_present hpieces]; exact hlen)
    intro l hl
    obtain ⟨i, hi, rfl⟩ := List.mem_map.1 hl
    have hi := List.mem_range.1 hi
    simp [hpieces i hi, hi]
  cases o with
  | none => exact absurd rfl this
  | some ws => exact ⟨ws, os', g1⟩

/-- C107: whatever the os does, when the copying to a target of one file succeeds the file is the pieces in order. -/
theorem C107_single {d : Nat → Option Bytes} {n : Nat} {fates : List Fate} {w : Bytes} {os : OS} (h : single n { disk := d, fates := fates } = (some w, os)) :
    ∃ cs : List Bytes, cs.length = n ∧ (∀ i, i < n → d i = cs[i]?) ∧ w = cs.flatten := by
  obtain ⟨o, os', g1, -, -, -, g2⟩ := copyAll_spec (d := d) (rs := readers n) (os := { disk := d, fates := fates }) rfl (readers_fresh _) rfl (by simp [OS.Calm])
  unfold single at h
  rw [g1] at h
  cases h
  obtain ⟨-, cs, h1, h2⟩ := g2 w rfl
  have hl : cs.length = n := by
    have := congrArg List.length h1
    simpa [readers] using this.symm
  refine ⟨cs, hl, fun i hi => ?_, h2⟩
  have := congrArg (fun x => x[i]?) h1
  simpa [readers, hi, hl ▸ hi] using this

theorem C107_single_succeeds {d : Nat → Option Bytes} {n : Nat} {fates : List Fate} (hpieces : ∀ i, i < n → d i ≠ none) (hfates : Fate.fail ∉ fates) :
    ∃ w os, single n { disk := d, fates := fates } = (some w, os) := by
  obtain ⟨o, os', g1, -, -, g2, -⟩ := copyAll_spec (d := d) (rs := readers n) (os := { disk := d, fates := fates }) rfl (readers_fresh _) rfl (by simp [OS.Calm])
  have : o ≠ none := by
    refine g2 hfates ?_
    intro l hl
    obtain ⟨i, hi, rfl⟩ := List.mem_map.1 hl
    exact hpieces i (List.mem_range.1 hi)
  cases o with
  | none => exact absurd rfl this
  | some w => exact ⟨w, os', g1⟩

namespace Ex
/-- Three pieces, the last shorter. -/
def cs : List Bytes := [[1, 2, 3, 4], [5, 6, 7, 8], [9, 10]]
def d (i : Nat) : Option Bytes := cs[i]?
/-- Every read returns at most one, two or three bytes, differently for each. -/
def cuts : List Fate := [.ok 0, .ok 0, .ok 0, .ok 0, .ok 0, .ok 0, .ok 2, .ok 1, .ok 0, .ok 1, .ok 0, .ok 2, .ok 1, .ok 0, .ok 2, .ok 0, .ok 1, .ok 1, .ok 0, .ok 0, .ok 0]
end Ex

example : (multi 3 [3, 0, 5, 2] { disk := Ex.d, fates := Ex.cuts }).1 = some [[1, 2, 3], [], [4, 5, 6, 7, 8], [9, 10]] := by kernel_rfl
example : (multi 3 [3, 0, 5, 2] { disk := Ex.d, fates := [] }).1 = some [[1, 2, 3], [], [4, 5, 6, 7, 8], [9, 10]] := by kernel_rfl
/-- A read that fails. -/
example : (multi 3 [3, 0, 5, 2] { disk := Ex.d, fates := [.ok 0, .ok 0, .ok 0, .ok 0, .ok 0, .ok 0, .fail] }).1 = none := by kernel_rfl
/-- Too few bytes. -/
example : (multi 3 [3, 8] { disk := Ex.d, fates := Ex.cuts }).1 = none := by kernel_rfl
example : (single 3 { disk := Ex.d, fates := Ex.cuts }).1 = some [1, 2, 3, 4, 5, 6, 7, 8, 9, 10] := by kernel_rfl
example : (single 4 { disk := Ex.d, fates := Ex.cuts }).1 = none := by kernel_rfl
example : (single 3 { disk := Ex.d, fates := [.ok 0, .ok 0, .ok 0, .ok 0, .fail] }).1 = none := by kernel_rfl

/-! ### C108 -/

/-- C108, the full statement: when the copying is over, no file of a piece is open. -/
def C108_statement : Prop := ∀ (n : Nat) (lengths : List Int) (d : Nat → Option Bytes) (fates : List Fate),
  (multi n lengths { disk := d, fates := fates }).2.opened = 0 ∧ (single n { disk := d, fates := fates }).2.opened = 0

/-- C108 does not hold: after the files of a torrent of several files have been written, with no error at all, a file is still open. -/
theorem C108_refuted : ¬ C108_statement := by
  intro h
  have h1 : (multi 3 [3, 0, 5, 2] { disk := Ex.d, fates := [] }).2.opened = 1 := by kernel_rfl
  have h2 := (h 3 [3, 0, 5, 2] Ex.d []).1
  omega

theorem le_sum_of_mem : ∀ {l : List Nat} {x : Nat}, x ∈ l → x ≤ l.sum
  | y :: l, x, h => by
    rw [List.sum_cons]
    rcases List.mem_cons.1 h with rfl | h
    · omega
    · have := le_sum_of_mem h
      omega

/-- C108: this is so every time that the copying to several files succeeds, unless the files are all empty: the file of one piece stays open (until the garbage collector finds it). -/
theorem C108_multi_leaks {d : Nat → Option Bytes} {n : Nat} {lengths : List Int} {fates : List Fate} {ws : List Bytes} {os : OS}
    (h : multi n lengths { disk := d, fates := fates } = (some ws, os)) (hpos : ∃ l ∈ lengths, 0 < l) : os.opened = 1 := by
  obtain ⟨o, os', g1, -, -, -, g2⟩ := copyFiles_spec (d := d) (ns := lengths) (rs := readers n) (os := { disk := d, fates := fates }) rfl (.none (readers_fresh _)) (by simp [OS.Calm])
  unfold multi at h
  rw [g1] at h
  cases h
  obtain ⟨-, -, h3⟩ := g2 ws rfl
  rw [h3, if_neg]
  obtain ⟨l, hl, h0⟩ := hpos
  have := le_sum_of_mem (List.mem_map_of_mem (f := Int.toNat) hl)
  omega

example : ∃ ws os, multi 3 [3, 0, 5, 2] { disk := Ex.d, fates := Ex.cuts } = (some ws, os) ∧ os.opened = 1 := ⟨_, _, rfl, by kernel_rfl⟩

/-- C108 also fails for a single file when a read fails. -/
theorem C108_single_refuted : (single 3 { disk := Ex.d, fates := [.ok 0, .ok 0, .fail] }).2.opened = 1 := by kernel_rfl

/-- C108: there are never two files of pieces open, whatever happens, and when the copying to a single file succeeds none is. -/
theorem C108_partial (d : Nat → Option Bytes) (n : Nat) (lengths : List Int) (fates : List Fate) :
    (multi n lengths { disk := d, fates := fates }).2.Calm ∧
    (single n { disk := d, fates := fates }).2.Calm ∧
    ((single n { disk := d, fates := fates }).1 ≠ none → (single n { disk := d, fates := fates }).2.opened = 0) := by
  obtain ⟨o, os', g1, g2, g3, -, -⟩ := copyFiles_spec (d := d) (ns := lengths) (rs := readers n) (os := { disk := d, fates := fates }) rfl (.none (readers_fresh _)) (by simp [OS.Calm])
  obtain ⟨o', os'', i1, i2, i3, -, i4⟩ := copyAll_spec (d := d) (rs := readers n) (os := { disk := d, fates := fates }) rfl (readers_fresh _) rfl (by simp [OS.Calm])
  unfold multi single
  rw [g1, i1]
  refine ⟨g2, i2, fun h => ?_⟩
  cases o' with
  | none => exact absurd rfl h
  | some w => exact (i4 w rfl).1

example : (single 3 { disk := Ex.d, fates := Ex.cuts }).2.opened = 0 := by kernel_rfl
example : (single 3 { disk := Ex.d, fates := Ex.cuts }).2.peak = 1 := by kernel_rfl

end Drip.LazyReader
