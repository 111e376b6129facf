import Verif.Lemmas.StorageWp
import Verif.Lemmas.Bitfield
import Verif.Lemmas.Bencode.Num
import Verif.Spec.Storage
import Verif.Spec.Target
/-
The invariant of the storage model and its preservation by every operation.
-/

namespace Drip.Storage
open Metainfo Spec

/-! ### Names of piece files -/

theorem natDec_inj {m n : Nat} (h : natDec m = natDec n) : m = n := by
  have h1 := (natDec_minimal m).1
  have h2 := (natDec_minimal n).1
  rw [h] at h1
  exact h1.unique h2

theorem pieceName_inj {i j : Nat} (h : pieceName i = pieceName j) : i = j :=
  natDec_inj (List.append_cancel_right h)

theorem spanDigits_append (ds r : Bytes) (h1 : ∀ b ∈ ds, Digit b) (h2 : ∀ b r', r = b :: r' → ¬ Digit b) :
    spanDigits (ds ++ r) = (ds, r) := by
  induction ds with
  | nil =>
    cases r with
    | nil => rfl
    | cons b r =>
      have := h2 b r rfl
      rw [← isDigit_iff] at this
      simp [spanDigits, this]
  | cons d ds ih =>
    have hd := (isDigit_iff d).mpr (h1 d (by simp))
    simp [spanDigits, hd, ih (fun b hb => h1 b (by simp [hb]))]

theorem sscanf_pieceName (i : Nat) (hi : i < 2 ^ 63) : sscanfPiece (pieceName i) = some (i : Int) := by
  have hd := natDec_digits i
  have hne := natDec_ne_nil i
  unfold sscanfPiece pieceName
  cases hc : natDec i with
  | nil => exact absurd hc hne
  | cons c cs =>
    have hdc : Digit c := hd c (by simp [hc])
    have hsk : skipSpaces (c :: cs ++ b!".piece") = c :: cs ++ b!".piece" := by
      unfold Digit at hdc
      have : ¬ (c = 32 ∨ c = 9 ∨ c = 11 ∨ c = 12 ∨ c = 13) := by
        rintro (h | h | h | h | h) <;> subst h <;> simp at hdc
      simp only [List.cons_append, skipSpaces, this, if_false]
    have h43 : c ≠ 43 := by rintro rfl; simp [Digit] at hdc
    have h45 : c ≠ 45 := by rintro rfl; simp [Digit] at hdc
    have hspan := spanDigits_append (c :: cs) b!".piece" (by rw [← hc]; exact hd)
      (by intro b r' h; cases h; simp [Digit])
    rw [hsk]
    have hm : splitSign (c :: cs ++ b!".piece") = ([], c :: cs ++ b!".piece") := by
      simp [splitSign, h43, h45]
    simp only [hm, hspan]
    have hp : parseInt ([] ++ c :: cs) = some (i : Int) := by
      rw [List.nil_append, ← hc]; exact parseInt_natDec i hi
    rw [hp]; rfl

/-! ### Lookup and store -/

theorem lookup_store (n m c : Bytes) (l : List (Bytes × Bytes)) :
    lookup m (store n c l) = if m = n then some c else lookup m l := by
  induction l with
  | nil => simp only [store, lookup, eq_comm]
  | cons x l ih =>
    obtain ⟨a, b⟩ := x
    simp only [store]
    by_cases h : a = n
    · subst h
      simp only [if_true, lookup]
      by_cases h2 : a = m
      · simp [h2]
      · simp [h2, Ne.symm h2]
    · simp only [if_neg h, lookup, ih]
      by_cases h2 : a = m
      · subst h2; simp [h]
      · simp [h2]

theorem mem_store {n c : Bytes} {x : Bytes × Bytes} {l : List (Bytes × Bytes)} (h : x ∈ store n c l) : x = (n, c) ∨ x ∈ l := by
  induction l with
  | nil => simp [store] at h; exact .inl h
  | cons y l ih =>
    obtain ⟨a, b⟩ := y
    unfold store at h
    by_cases h2 : a = n
    · rw [if_pos h2] at h
      rcases List.mem_cons.mp h with h | h
      · exact .inl h
      · exact .inr (by simp [h])
    · rw [if_neg h2] at h
      rcases List.mem_cons.mp h with h | h
      · exact .inr (by simp [h])
      · rcases ih h with h | h
        · exact .inl h
        · exact .inr (by simp [h])

theorem store_keys (n c : Bytes) (l : List (Bytes × Bytes)) :
    (store n c l).map Prod.fst = if n ∈ l.map Prod.fst then l.map Prod.fst else l.map Prod.fst ++ [n] := by
  induction l with
  | nil => simp [store]
  | cons y l ih =>
    obtain ⟨a, b⟩ := y
    unfold store
    by_cases h : a = n
    · subst h; simp
    · have h' : ¬ n = a := fun e => h e.symm
      rw [if_neg h]
      simp only [List.map_cons, ih, List.mem_cons, h', false_or]
      by_cases h2 : n ∈ l.map Prod.fst
      · rw [if_pos h2, if_pos h2]
      · rw [if_neg h2, if_neg h2]; rfl

theorem store_nodup {n c : Bytes} {l : List (Bytes × Bytes)} (h : (l.map Prod.fst).Nodup) : ((store n c l).map Prod.fst).Nodup := by
  rw [store_keys]
  by_cases hm : n ∈ l.map Prod.fst
  · rw [if_pos hm]; exact h
  · rw [if_neg hm, List.nodup_append]
    refine ⟨h, by simp, ?_⟩
    intro a ha b hb
    simp only [List.mem_singleton] at hb
    subst hb
    exact fun e => hm (e ▸ ha)

theorem lookup_mem {n c : Bytes} {l : List (Bytes × Bytes)} (h : lookup n l = some c) : (n, c) ∈ l := by
  induction l with
  | nil => simp [lookup] at h
  | cons y l ih =>
    obtain ⟨a, b⟩ := y
    unfold lookup at h
    by_cases h2 : a = n
    · rw [if_pos h2] at h; simp at h; subst h; subst h2; simp
    · rw [if_neg h2] at h; exact List.mem_cons_of_mem _ (ih h)

theorem mem_lookup {n c : Bytes} {l : List (Bytes × Bytes)} (hn : (l.map Prod.fst).Nodup) (h : (n, c) ∈ l) : lookup n l = some c := by
  induction l with
  | nil => simp at h
  | cons y l ih =>
    obtain ⟨a, b⟩ := y
    simp only [List.map_cons, List.nodup_cons] at hn
    unfold lookup
    rcases List.mem_cons.mp h with h | h
    · cases h; simp
    · have : a ≠ n := by rintro rfl; exact hn.1 (List.mem_map.mpr ⟨_, h, rfl⟩)
      rw [if_neg this]; exact ih hn.2 h

/-! ### The block grid -/

/-- The length `checkBlockSize` demands of block `k` of a piece of length `pl`. -/
def gridLen (pl : Int) (k : Nat) : Int := if (k : Int) * 16384 = 16384 * pl.tdiv 16384 then pl - k * 16384 else 16384

def gridCount (pl : Int) : Int := if pl.tmod 16384 ≠ 0 then pl.tdiv 16384 + 1 else pl.tdiv 16384

theorem numBlocks_eq (info : Info) (i : Int) : numBlocks info i = gridCount (info.getPieceLength i) := rfl

theorem joinBlocks_length_aux (q r : Nat) (hr : r < 16384) : ∀ (bs : List (Option Bytes)) (k0 : Nat) (data : Bytes),
    k0 + bs.length = (if r ≠ 0 then q + 1 else q) → (bs ≠ [] ∨ r = 0) →
    (∀ (k : Nat) (b : Bytes), bs[k]? = some (some b) → b.length = if k0 + k = q then r else 16384) →
    joinBlocks bs = some data → data.length + k0 * 16384 = q * 16384 + r := by
  intro bs
  induction bs with
  | nil =>
    intro k0 data h1 h2 h3 h4
    simp [joinBlocks] at h4
    subst h4
    have hr0 : r = 0 := by rcases h2 with h | h; exact absurd rfl h; exact h
    subst hr0
    simp at h1 ⊢
    omega
  | cons x bs ih =>
    intro k0 data h1 h2 h3 h4
    cases x with
    | none => simp [joinBlocks] at h4
    | some b =>
      simp only [joinBlocks, Option.map_eq_some_iff] at h4
      obtain ⟨rest, h5, rfl⟩ := h4
      have hb := h3 0 b (by simp)
      simp only [List.length_cons] at h1
      by_cases hbs : bs = []
      · subst hbs
        simp [joinBlocks] at h5
        subst h5
        simp only [List.length_nil, Nat.add_zero] at h1 hb
        simp only [List.append_nil]
        rw [hb]
        by_cases hr0 : r = 0
        · simp only [hr0, ne_eq, not_true, if_false] at h1 ⊢
          have : k0 ≠ q := by omega
          rw [if_neg this]; omega
        · simp only [hr0, ne_eq, not_false_eq_true, if_true] at h1
          have : k0 = q := by omega
          rw [if_pos this]; omega
      · have := ih (k0 + 1) rest (by omega) (.inl hbs) (by
          intro k b' hk
          have := h3 (k + 1) b' (by simpa using hk)
          rw [this]
          have e : k0 + (k + 1) = k0 + 1 + k := by omega
          rw [e]) h5
        simp only [Nat.add_zero] at hb
        have hl : 1 ≤ bs.length := by cases bs with | nil => exact absurd rfl hbs | cons _ _ => simp
        have : k0 ≠ q := by
          intro e; subst e; split at h1 <;> omega
        rw [if_neg this] at hb
        simp only [List.length_append]
        omega

theorem joinBlocks_length {pl : Int} {bs : List (Option Bytes)} {data : Bytes} (h1 : (bs.length : Int) = gridCount pl)
    (hne : bs ≠ []) (h3 : ∀ (k : Nat) (b : Bytes), bs[k]? = some (some b) → (b.length : Int) = gridLen pl k)
    (h4 : joinBlocks bs = some data) : (data.length : Int) = pl := by
  have hl : 1 ≤ bs.length := by cases bs with | nil => exact absurd rfl hne | cons _ _ => simp
  by_cases hpl : 0 < pl
  · obtain ⟨n, rfl⟩ : ∃ n : Nat, pl = n := ⟨pl.toNat, by omega⟩
    have hq : (n : Int).tdiv 16384 = ((n / 16384 : Nat) : Int) := by
      rw [Int.tdiv_eq_ediv_of_nonneg (by omega)]; omega
    have hr : (n : Int).tmod 16384 = ((n % 16384 : Nat) : Int) := by
      rw [Int.tmod_eq_emod_of_nonneg (by omega)]; omega
    have := joinBlocks_length_aux (n / 16384) (n % 16384) (by omega) bs 0 data (by
      unfold gridCount at h1
      rw [hq, hr] at h1
      by_cases hz : n % 16384 = 0
      · simp only [hz] at h1 ⊢; simp at h1 ⊢; omega
      · have : ((n % 16384 : Nat) : Int) ≠ 0 := by omega
        rw [if_pos this] at h1
        simp only [hz, ne_eq, not_false_eq_true, if_true]; omega) (.inl hne) (by
      intro k b hk
      have h := h3 k b hk
      unfold gridLen at h
      rw [hq] at h
      simp only [Nat.zero_add]
      by_cases hkq : k = n / 16384
      · have : (k : Int) * 16384 = 16384 * ((n / 16384 : Nat) : Int) := by omega
        rw [if_pos this] at h
        rw [if_pos hkq]; omega
      · have : ¬ (k : Int) * 16384 = 16384 * ((n / 16384 : Nat) : Int) := by omega
        rw [if_neg this] at h
        rw [if_neg hkq]; omega) h4
    omega
  · exfalso
    by_cases hs : -16384 < pl
    · have hq : pl.tdiv 16384 = 0 := by
        have : pl = -(pl.natAbs : Int) := by omega
        rw [this, Int.neg_tdiv, Int.tdiv_eq_ediv_of_nonneg (by omega)]; omega
      match bs, hne with
      | x :: bs', _ =>
        cases x with
        | none => simp [joinBlocks] at h4
        | some b =>
          have h := h3 0 b (by simp)
          unfold gridLen at h
          rw [hq] at h
          simp at h
          have hz : pl = 0 := by omega
          subst hz
          simp [gridCount] at h1
          omega
    · have hq : pl.tdiv 16384 ≤ -1 := by
        have : pl = -(pl.natAbs : Int) := by omega
        rw [this, Int.neg_tdiv, Int.tdiv_eq_ediv_of_nonneg (by omega)]; omega
      unfold gridCount at h1
      split at h1 <;> omega

theorem joinBlocks_some {bs : List (Option Bytes)} (h : ∀ x ∈ bs, x ≠ none) : ∃ data, joinBlocks bs = some data := by
  induction bs with
  | nil => exact ⟨[], rfl⟩
  | cons x bs ih =>
    obtain ⟨d, hd⟩ := ih (fun y hy => h y (by simp [hy]))
    cases x with
    | none => exact absurd rfl (h none (by simp))
    | some b => exact ⟨b ++ d, by simp [joinBlocks, hd]⟩

/-- Number of blocks present. -/
def present (bs : List (Option Bytes)) : Nat := bs.countP (·.isSome)

theorem present_full {bs : List (Option Bytes)} (h : present bs = bs.length) : ∀ x ∈ bs, x ≠ none := by
  unfold present at h
  rw [List.countP_eq_length] at h
  intro x hx e
  have := h x hx
  rw [e] at this
  simp at this

theorem present_set {bs : List (Option Bytes)} {k : Nat} {d : Bytes} (h : bs[k]? = some none) :
    present (bs.set k (some d)) = present bs + 1 := by
  unfold present
  induction bs generalizing k with
  | nil => simp at h
  | cons x bs ih =>
    cases k with
    | zero => simp at h; subst h; simp
    | succ k =>
      simp only [List.getElem?_cons_succ] at h
      simp only [List.set_cons_succ, List.countP_cons, ih h]
      omega

/-! ### The invariant -/

/-- What is promised of the target: the verified content, laid out as the torrent says. -/
def TargetOk (cfg : Cfg) : Target → Prop
  | .file c => cfg.info.files = [] ∧ ∃ ds, Contents cfg.sha1 cfg.info ds ∧ c = ds.flatten
  | .dir l => l ≠ [] ∧ cfg.info.files ≠ [] ∧ ∃ ds, Contents cfg.sha1 cfg.info ds ∧
      fileStart cfg.info.files cfg.info.files.length ≤ ds.flatten.length ∧ Tree cfg.info.files ds.flatten l

theorem lookupPath_of_mem {l : List (List Bytes × Bytes)} (h : (l.map Prod.fst).Nodup) {p : List Bytes} {c : Bytes} (hm : (p, c) ∈ l) : lookupPath p l = some c := by
  induction l with
  | nil => cases hm
  | cons x l ih =>
    obtain ⟨a, b⟩ := x
    rw [List.map_cons, List.nodup_cons] at h
    unfold lookupPath
    rcases List.mem_cons.1 hm with e | hm
    · cases e; rw [if_pos rfl]
    · rw [if_neg, ih h.2 hm]
      rintro rfl
      exact h.1 (List.mem_map.2 ⟨_, hm, rfl⟩)

theorem mem_of_lookupPath {l : List (List Bytes × Bytes)} {p : List Bytes} {c : Bytes} (h : lookupPath p l = some c) : (p, c) ∈ l := by
  induction l with
  | nil => cases h
  | cons x l ih =>
    obtain ⟨a, b⟩ := x
    unfold lookupPath at h
    split at h
    · rename_i e; cases h; rw [← e]; exact List.mem_cons_self
    · exact List.mem_cons_of_mem _ (ih h)

theorem Tree.lookup {files : List File} {X : Bytes} {l : List (List Bytes × Bytes)} (h : Tree files X l) (k : Nat) (f : File) (hk : files[k]? = some f) (hl : LastWithPath files k) :
    lookupPath f.path l = some (slice X (fileStart files k) f.length.toNat) := lookupPath_of_mem h.once (h.each k f hk hl)

/-- The disk holds only verified data. -/
structure FSInv (cfg : Cfg) (fs : FS) : Prop where
  nodup : ∀ l, fs.work = some l → (l.map Prod.fst).Nodup
  work : ∀ l, fs.work = some l → ∀ x ∈ l, ∃ i : Nat, x.1 = pieceName i ∧ Verified cfg.sha1 cfg.info i x.2 ∧
    (x.2.length : Int) = cfg.info.getPieceLength i
  target : ∀ t, fs.target = some t → TargetOk cfg t

/-- The content of piece `i` is on disk. -/
def HasData (fs : FS) (i : Nat) : Prop := fs.target ≠ none ∨ ∃ l d, fs.work = some l ∧ lookup (pieceName i) l = some d

/-- A single piece. -/
structure PieceInv (info : Info) (fs : FS) (futs : List (Option (Option Err))) (i : Nat) (p : Piece) : Prop where
  futLt : p.fut < futs.length
  done : p.coalesced = true → futs[p.fut]? = some (some none) ∧ p.blocks = none ∧ HasData fs i
  open_ : p.coalesced = false → futs[p.fut]? ≠ some (some none)
  noBlocks : p.coalesced = false → p.blocks = none → p.completeBlocks = 0 ∧ futs[p.fut]? = some none
  blocks : p.coalesced = false → ∀ bs, p.blocks = some bs → (bs.length : Int) = numBlocks info i ∧
    p.completeBlocks = present bs ∧
    (∀ (k : Nat) (b : Bytes), bs[k]? = some (some b) → (b.length : Int) = gridLen (info.getPieceLength i) k) ∧
    (futs[p.fut]? ≠ some none → ∀ x ∈ bs, x ≠ none)

structure MemInv (cfg : Cfg) (fs : FS) (m : Mem) : Prop where
  len : m.pieces.length = cfg.info.pieces.length
  piece : ∀ (i : Nat) (p : Piece), m.pieces[i]? = some p → PieceInv cfg.info fs m.futs i p
  inj : ∀ (i j : Nat) (p q : Piece), m.pieces[i]? = some p → m.pieces[j]? = some q → p.fut = q.fut → i = j
  errNe : ∀ (i : Nat) (p : Piece), m.pieces[i]? = some p → p.fut ≠ m.err
  errFut : m.futs[m.err]? = some (if m.coalesced then some none else none)
  count : m.completePieces = (m.pieces.countP (·.coalesced) : Nat)
  bfLen : m.bitfield.length = (Bitfield.new cfg.info.pieces.length).length
  bf : ∀ i : Nat, Bitfield.bit m.bitfield i = true ↔ ∃ p, m.pieces[i]? = some p ∧ p.coalesced = true
  all : m.coalesced = true → fs.target ≠ none ∧ ∀ p ∈ m.pieces, p.coalesced = true

def SInv (cfg : Cfg) (s : Sys) : Prop := FSInv cfg s.fs ∧ MemInv cfg s.fs s.mem

/-- The usual claims: an error is due to a failure of the os, and then the invariant holds and the memory is `m`; the disk is
fine after a crash; no panic. -/
def safe (A : Fate → Prop) (cfg : Cfg) {α : Type} (m : Mem) (ok : α → Sys → Prop) : Post α :=
  ⟨ok, fun _ s => SInv cfg s ∧ s.mem = m ∧ ∃ r, A (.fail r), fun _ => False, fun s => FSInv cfg s.fs⟩

theorem lookup_verified {cfg : Cfg} {fs : FS} (h : FSInv cfg fs) {l : List (Bytes × Bytes)} (hl : fs.work = some l) {i : Nat} {d : Bytes}
    (hd : lookup (pieceName i) l = some d) : Verified cfg.sha1 cfg.info i d ∧ (d.length : Int) = cfg.info.getPieceLength i := by
  obtain ⟨j, h1, h2, h3⟩ := h.work l hl _ (lookup_mem hd)
  have := pieceName_inj h1
  subst this
  exact ⟨h2, h3⟩

theorem verified_lt {sha1 : Bytes → Bytes} {info : Info} {i : Nat} {d : Bytes} (h : Verified sha1 info i d) :
    i < info.pieces.length := by
  unfold Verified at h
  exact (List.getElem?_eq_some_iff.mp h).1

/-- Changing only the disk, without losing data. -/
theorem MemInv.fs {cfg : Cfg} {fs fs' : FS} {m : Mem} (h : MemInv cfg fs m) (hd : ∀ i, HasData fs i → HasData fs' i)
    (ht : fs.target ≠ none → fs'.target ≠ none) : MemInv cfg fs' m :=
  { h with
    piece := fun i p hp => { h.piece i p hp with
      done := fun hc => let ⟨a, b, c⟩ := (h.piece i p hp).done hc; ⟨a, b, hd i c⟩ }
    all := fun hc => ⟨ht (h.all hc).1, (h.all hc).2⟩ }

theorem wp_mkWork {cfg : Cfg} {A : Fate → Prop} {s : Sys} (h : SInv cfg s) :
    wp A mkWork (safe A cfg s.mem fun _ s' => SInv cfg s' ∧ s'.mem = s.mem ∧ s'.fs.target = s.fs.target ∧ s'.fs.work = some (s.fs.work.getD [])) s := by
  refine wp_call ?_ (by simp) (fun r hr => ⟨h, rfl, r, hr⟩) (fun r _ => h.1)
  intro a fs he
  simp only [Option.some.injEq, Prod.mk.injEq, true_and] at he
  subst he
  refine ⟨⟨⟨?_, ?_, h.1.target⟩, ?_⟩, rfl, rfl, ?_⟩
  · intro l hl
    cases hw : s.fs.work with
    | none => simp [hw] at hl; subst hl; simp
    | some l' => simp [hw] at hl; subst hl; exact h.1.nodup _ hw
  · intro l hl
    cases hw : s.fs.work with
    | none => simp [hw] at hl; subst hl; simp
    | some l' => simp [hw] at hl; subst hl; exact h.1.work _ hw
  · refine h.2.fs ?_ (fun h => h)
    intro i hi
    rcases hi with hi | ⟨l, d, h1, h2⟩
    · exact .inl hi
    · exact .inr ⟨l, d, by simp [h1], h2⟩
  · rfl

theorem wp_renamePiece {cfg : Cfg} {A : Fate → Prop} {s : Sys} {i : Nat} {d : Bytes} (h : SInv cfg s) (hw : ∃ l, s.fs.work = some l)
    (hv : Verified cfg.sha1 cfg.info i d) (hl : (d.length : Int) = cfg.info.getPieceLength i) :
    wp A (renamePiece (pieceName i) d) (safe A cfg s.mem fun _ s' => SInv cfg s' ∧ s'.mem = s.mem ∧ s'.fs.target = s.fs.target ∧ HasData s'.fs i ∧
      ∃ l, s.fs.work = some l ∧ s'.fs.work = some (store (pieceName i) d l)) s := by
  obtain ⟨l, hw⟩ := hw
  refine wp_call ?_ ?_ (fun r hr => ⟨h, rfl, r, hr⟩) (fun r _ => h.1)
  · intro a fs he
    simp only [hw, Option.some.injEq, Prod.mk.injEq, true_and] at he
    subst he
    refine ⟨⟨⟨?_, ?_, h.1.target⟩, ?_⟩, rfl, rfl, ?_, l, hw, rfl⟩
    · intro l' hl'
      simp only [Option.some.injEq] at hl'
      subst hl'
      exact store_nodup (h.1.nodup _ hw)
    · intro l' hl' x hx
      simp only [Option.some.injEq] at hl'
      subst hl'
      rcases mem_store hx with rfl | hx
      · exact ⟨i, rfl, hv, hl⟩
      · exact h.1.work _ hw x hx
    · refine h.2.fs ?_ (fun h => h)
      intro j hj
      rcases hj with hj | ⟨l', d', h1, h2⟩
      · exact .inl hj
      · rw [hw] at h1; cases h1
        refine .inr ⟨_, if pieceName j = pieceName i then d else d', rfl, ?_⟩
        rw [lookup_store]
        split
        · rfl
        · exact h2
    · exact .inr ⟨_, d, rfl, by rw [lookup_store, if_pos rfl]⟩
  · intro he; simp [hw] at he

theorem bit_lt {b : Bytes} {i : Nat} (h : Bitfield.bit b i = true) : i < 8 * b.length := by
  unfold Bitfield.bit at h
  cases hx : b[i / 8]? with
  | none => rw [hx] at h; simp at h
  | some x => have := (List.getElem?_eq_some_iff.mp hx).1; omega

theorem countP_set {α : Type} (f : α → Bool) {l : List α} {i : Nat} {a b : α} (h : l[i]? = some a) (ha : f a = false) (hb : f b = true) :
    (l.set i b).countP f = l.countP f + 1 := by
  induction l generalizing i with
  | nil => simp at h
  | cons x l ih =>
    cases i with
    | zero => simp at h; subst h; simp [List.countP_cons, ha, hb]
    | succ i =>
      simp only [List.getElem?_cons_succ] at h
      simp only [List.set_cons_succ, List.countP_cons, ih h]; omega

/-- Nothing but a normal return. -/
def only {α : Type} (ok : α → Sys → Prop) : Post α := ⟨ok, fun _ _ => False, fun _ => False, fun _ => False⟩

/-- The memory after `completePiece i`. -/
theorem wp_completePiece {cfg : Cfg} {A : Fate → Prop} {s : Sys} {i : Nat} {p : Piece} (h : SInv cfg s)
    (hp : s.mem.pieces[i]? = some p) (hf : s.mem.futs[p.fut]? = some none) (hd : HasData s.fs i) :
    wp A (completePiece i) (only fun _ s' => SInv cfg s' ∧ s'.fs = s.fs ∧ s'.mem.coalesced = s.mem.coalesced ∧
      s'.mem.downloaded = s.mem.downloaded ∧ s'.mem.err = s.mem.err ∧
      s'.mem.pieces = s.mem.pieces.set i { p with coalesced := true, blocks := none } ∧
      s'.mem.futs = s.mem.futs.set p.fut (some none) ∧ s'.mem.completePieces = s.mem.completePieces + 1) s := by
  have hPI := h.2.piece i p hp
  have hpc : p.coalesced = false := by
    cases hc : p.coalesced with
    | false => rfl
    | true => have := (hPI.done hc).1; rw [hf] at this; cases this
  have hi : i < s.mem.pieces.length := (List.getElem?_eq_some_iff.mp hp).1
  have hn : i < cfg.info.pieces.length := by rw [← h.2.len]; exact hi
  unfold completePiece
  refine wp_bind (wp_getPiece ?_ ?_)
  · intro j q hj hq
    have : i = j := by omega
    subst this
    rw [hp] at hq; cases hq
    refine wp_bind (wp_setPiece ?_)
    refine wp_bind (wp_deliver ?_ ?_)
    · intro _
      refine wp_bind (wp_setPiece ?_)
      refine wp_bind (wp_getMem ?_)
      obtain ⟨bf', e1, e2, e3⟩ := Bitfield.add_nat s.mem.bitfield i (by
        have := Bitfield.new_length cfg.info.pieces.length
        have := h.2.bfLen
        omega)
      refine wp_bind (wp_lift ?_)
      simp only [e1]
      refine wp_setMem ?_
      refine ⟨⟨h.1, ?_⟩, rfl, rfl, rfl, rfl, by simp, rfl, rfl⟩
      simp only [List.set_set]
      have hget : ∀ (j : Nat) (q : Piece), (s.mem.pieces.set i { p with coalesced := true, blocks := none })[j]? = some q →
          (j = i ∧ q = { p with coalesced := true, blocks := none }) ∨ (j ≠ i ∧ s.mem.pieces[j]? = some q) := by
        intro j q hq
        rw [List.getElem?_set] at hq
        by_cases hj : i = j
        · rw [if_pos hj, if_pos hi] at hq; simp at hq; exact .inl ⟨hj.symm, hq.symm⟩
        · rw [if_neg hj] at hq; exact .inr ⟨fun e => hj e.symm, hq⟩
      have hfut : ∀ id, (s.mem.futs.set p.fut (some none))[id]? = if id = p.fut then some (some none) else s.mem.futs[id]? := by
        intro id
        rw [List.getElem?_set]
        by_cases hid : p.fut = id
        · rw [if_pos hid, if_pos hPI.futLt, if_pos hid.symm]
        · rw [if_neg hid, if_neg (fun e => hid e.symm)]
      constructor
      · simp [h.2.len]
      · intro j q hq
        rcases hget j q hq with ⟨rfl, rfl⟩ | ⟨hj, hq'⟩
        · refine ⟨by simpa using hPI.futLt, fun _ => ⟨by simp [hPI.futLt], rfl, hd⟩, ?_, ?_, ?_⟩
          · intro h; simp at h
          · intro h; simp at h
          · intro h; simp at h
        · have hne : q.fut ≠ p.fut := fun e => hj (h.2.inj j i q p hq' hp e)
          have hQ := h.2.piece j q hq'
          refine ⟨by simpa using hQ.futLt, ?_, ?_, ?_, ?_⟩
          · intro hc; rw [hfut, if_neg hne]; exact hQ.done hc
          · intro hc; rw [hfut, if_neg hne]; exact hQ.open_ hc
          · intro hc hb; rw [hfut, if_neg hne]; exact hQ.noBlocks hc hb
          · intro hc bs hb; rw [hfut, if_neg hne]; exact hQ.blocks hc bs hb
      · intro j k q r hq hr e
        rcases hget j q hq with ⟨rfl, rfl⟩ | ⟨hj, hq'⟩ <;> rcases hget k r hr with ⟨rfl, rfl⟩ | ⟨hk, hr'⟩
        · rfl
        · exact absurd (h.2.inj _ _ _ _ hp hr' e) (fun e => hk e.symm)
        · exact absurd (h.2.inj _ _ _ _ hq' hp e) (fun e => hj e)
        · exact h.2.inj _ _ _ _ hq' hr' e
      · intro j q hq
        rcases hget j q hq with ⟨rfl, rfl⟩ | ⟨hj, hq'⟩
        · exact (h.2.errNe j p hp : p.fut ≠ _)
        · exact h.2.errNe _ _ hq'
      · show (s.mem.futs.set p.fut (some none))[s.mem.err]? = _
        rw [hfut, if_neg (fun e => h.2.errNe _ _ hp e.symm)]
        exact h.2.errFut
      · show s.mem.completePieces + 1 = _
        rw [countP_set (fun p : Piece => p.coalesced) hp hpc rfl, h.2.count]
        rfl
      · exact e2.trans h.2.bfLen
      · intro j
        show Bitfield.bit bf' j = true ↔ ∃ q, (s.mem.pieces.set i { p with coalesced := true, blocks := none })[j]? = some q ∧ _
        rw [e3, Bool.or_eq_true, h.2.bf, List.getElem?_set]
        simp only [decide_eq_true_eq]
        by_cases hj : i = j
        · subst hj; simp [hi]
        · have : ¬ j = i := fun e => hj e.symm
          simp [hj, this]
      · intro hc
        have := (h.2.all hc).2 p (List.mem_of_getElem? hp)
        rw [hpc] at this; cases this
    · intro hne
      exact absurd hf hne
  · intro hor
    exfalso
    omega

end Drip.Storage
