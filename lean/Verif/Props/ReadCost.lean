import Verif.Model.ReadCost
import Verif.Model.PeerWire
import Verif.Props.Storage
/-
C132 and C133: the files that GetBlock leaves open, and the memory it takes.
-/

namespace Drip.ReadCost
open Storage (Out FS Mem Cfg readAt lookup lookupPath pieceName)
open Metainfo (File)

variable {cfg : Cfg} {fs : FS} {m : Mem}

/-! ### The same results as in Storage.lean -/

theorem call_ok (os : OS) (c : Call) : (os.call c).1 = os.fates.headD true := rfl

/-- What Storage.lean does with the content of a file. -/
def cut (off length : Int) (c : Bytes) : Storage.Op Bytes := do
  let n ← Storage.makeLen length
  let (r, eof) ← Storage.Op.lift (readAt c off n)
  if eof then Storage.Op.fail .eof else pure r

theorem cut_of (off length : Int) (c : Bytes) (s : Storage.Sys) (f : List Storage.Fate) :
    (cut off length c s f).1 = if length < 0 then .panic else match readAt c off length.toNat with
      | .ok (r, eof) => if eof then .err .eof else .ok r
      | .err e => .err e
      | .panic => .panic := by
  unfold cut Storage.makeLen
  show (Storage.Op.bind _ _ s f).1 = _
  by_cases hl : length < 0
  · rw [if_pos hl, if_pos hl]; rfl
  · rw [if_neg hl, if_neg hl]
    show (Storage.Op.bind (Storage.Op.lift (readAt c off length.toNat)) _ s f).1 = _
    cases readAt c off length.toNat with
    | ok x =>
      obtain ⟨r, eof⟩ := x
      cases eof <;> rfl
    | err e => rfl
    | panic => rfl

theorem readFile_same (c : Option Bytes) (off length : Int) (os : OS) (s : Storage.Sys) (op : Storage.Op Bytes)
    (h0 : op s [] = match c with
      | some c => (.ok c, s, [])
      | none => (.err .fs, s, [])) (h1 : op s [.fail []] = (.err .fs, s, [])) :
    ∃ fates, (Storage.Op.bind op (cut off length) s fates).1 = (readFile c off length os).1 := by
  have hf : (Storage.Op.bind op (cut off length) s [.fail []]).1 = .err .fs := by unfold Storage.Op.bind; rw [h1]
  have hg : ∀ d, c = some d → (Storage.Op.bind op (cut off length) s []).1 = (cut off length d s []).1 := by
    rintro d rfl
    unfold Storage.Op.bind; rw [h0]
  unfold readFile
  cases hc1 : os.call .opening with
  | mk ok os1 =>
  cases ok with
  | false => exact ⟨[.fail []], hf⟩
  | true =>
    cases c with
    | none => exact ⟨[], by unfold Storage.Op.bind; rw [h0]⟩
    | some c =>
      by_cases hl : length < 0
      · refine ⟨[], ?_⟩
        rw [hg _ rfl, cut_of]
        simp [hl]
      · cases h2 : (os1.open_.alloc length.toNat).call .reading with
        | mk ok os2 =>
        cases ok with
        | false => exact ⟨[.fail []], by simp only [hl, if_false, h2]; exact hf⟩
        | true =>
          refine ⟨[], ?_⟩
          rw [hg _ rfl, cut_of]
          simp only [hl, if_false, h2]
          cases readAt c off length.toNat with
          | ok x => rfl
          | err e => rfl
          | panic => rfl

theorem openPath_ok (path : List Bytes) (fates : List Storage.Fate) : Storage.openTargetPath path ⟨fs, m⟩ (.ok :: fates) = match targetPath fs path with
    | some c => (.ok c, ⟨fs, m⟩, fates)
    | none => (.err .fs, ⟨fs, m⟩, fates) := by
  obtain ⟨t, w⟩ := fs
  cases t with
  | none => rfl
  | some t =>
    cases t with
    | file c => rfl
    | dir files =>
      unfold Storage.openTargetPath Storage.Op.call targetPath
      dsimp only
      cases lookupPath path files <;> rfl

theorem multiLoop_same (start end_ : Int) (len : Nat) : ∀ (files : List File) (total : Int) (acc : Bytes) (os : OS),
    ∃ fates, (Storage.getMultiLoop start end_ len total acc files ⟨fs, m⟩ fates).1 = (multiLoop fs start end_ len total acc files os).1
  | [], _, _, _ => ⟨[], rfl⟩
  | f :: rest, total, acc, os => by
    unfold Storage.getMultiLoop multiLoop
    by_cases h1 : end_ ≤ total
    · rw [if_pos h1, if_pos h1]; exact ⟨[], rfl⟩
    rw [if_neg h1, if_neg h1]
    by_cases h2 : start ≤ total + f.length
    · rw [if_pos h2, if_pos h2]
      generalize hoff : (if total < start then start - total else 0) = off
      cases hc1 : os.call .opening with
      | mk ok os1 =>
      cases ok with
      | false => exact ⟨[.fail []], rfl⟩
      | true =>
        cases hp : targetPath fs f.path with
        | none =>
          refine ⟨[.ok], ?_⟩
          simp only
          show (Storage.Op.bind _ _ _ _).1 = _
          unfold Storage.Op.bind
          rw [openPath_ok, hp]
        | some c =>
          cases hc2 : os1.open_.call .reading with
          | mk ok os2 =>
          cases ok with
          | false => exact ⟨[.fail []], by simp only [hc2]; rfl⟩
          | true =>
            simp only [hc2]
            cases hr : readAt c off (len - acc.length) with
            | ok x =>
              obtain ⟨r, eof⟩ := x
              obtain ⟨fates, h⟩ := multiLoop_same start end_ len rest (total + f.length) (acc ++ r) os2.close
              refine ⟨.ok :: fates, ?_⟩
              show (Storage.Op.bind _ _ _ _).1 = _
              unfold Storage.Op.bind
              rw [openPath_ok, hp]
              show (Storage.Op.bind _ _ _ _).1 = _
              rw [hr]
              exact h
            | err e =>
              refine ⟨[.ok], ?_⟩
              show (Storage.Op.bind _ _ _ _).1 = _
              unfold Storage.Op.bind
              rw [openPath_ok, hp]
              show (Storage.Op.bind _ _ _ _).1 = _
              rw [hr]; rfl
            | panic =>
              refine ⟨[.ok], ?_⟩
              show (Storage.Op.bind _ _ _ _).1 = _
              unfold Storage.Op.bind
              rw [openPath_ok, hp]
              show (Storage.Op.bind _ _ _ _).1 = _
              rw [hr]; rfl
    · rw [if_neg h2, if_neg h2]
      exact multiLoop_same start end_ len rest _ acc os

/-- What is returned here is what is returned in Storage.lean, when the same calls of the os fail. -/
theorem C132_same_results (index begin_ length : Int) (os : OS) :
    ∃ fates, (Storage.getBlock cfg index begin_ length ⟨fs, m⟩ fates).1 = (getBlock cfg fs m index begin_ length os).1 := by
  unfold Storage.getBlock getBlock
  show ∃ fates, ((if m.coalesced = true then _ else _ : Storage.Op Bytes) ⟨fs, m⟩ fates).1 = _
  by_cases hc : m.coalesced
  · rw [if_pos hc, if_pos hc]
    by_cases hf : cfg.info.files ≠ []
    · rw [if_pos hf, if_pos hf]
      unfold Storage.getMulti readMulti Storage.makeLen
      by_cases hl : length < 0
      · rw [if_pos hl, if_pos hl]; exact ⟨[], rfl⟩
      · rw [if_neg hl, if_neg hl]
        dsimp only
        obtain ⟨fates, h⟩ := multiLoop_same (fs := fs) (m := m) (index * cfg.info.pieceLength + begin_) (index * cfg.info.pieceLength + begin_ + length) length.toNat cfg.info.files 0 []
          (os.alloc length.toNat)
        refine ⟨fates, ?_⟩
        show (Storage.Op.bind (Storage.getMultiLoop (index * cfg.info.pieceLength + begin_) (index * cfg.info.pieceLength + begin_ + length) length.toNat 0 [] cfg.info.files)
          (fun r => if r.length < length.toNat then Storage.Op.fail .incompleteRead else pure r) _ _).1 = _
        unfold Storage.Op.bind
        revert h
        generalize Storage.getMultiLoop _ _ _ _ _ _ _ _ = x
        generalize multiLoop _ _ _ _ _ _ _ _ = y
        obtain ⟨x1, x2, x3⟩ := x
        obtain ⟨y1, y2⟩ := y
        rintro rfl
        cases x1 with
        | ok r =>
          show ((if r.length < length.toNat then _ else _ : Storage.Op Bytes) x2 x3).1 = if r.length < length.toNat then .err .incompleteRead else .ok r
          by_cases hr : r.length < length.toNat
          · rw [if_pos hr, if_pos hr]; rfl
          · rw [if_neg hr, if_neg hr]; rfl
        | err e => rfl
        | panic => rfl
        | crash => rfl
    · rw [if_neg hf, if_neg hf]
      refine readFile_same _ _ _ os _ Storage.openTargetFile ?_ rfl
      obtain ⟨t, w⟩ := fs
      cases t with
      | none => rfl
      | some t => cases t <;> rfl
  · rw [if_neg hc, if_neg hc]
    have hp : ∀ fates, Storage.getPiece index ⟨fs, m⟩ fates = if index < 0 then (.panic, ⟨fs, m⟩, fates) else match m.pieces[index.toNat]? with
        | some p => (.ok (index.toNat, p), ⟨fs, m⟩, fates)
        | none => (.panic, ⟨fs, m⟩, fates) := by
      intro fates
      unfold Storage.getPiece
      show (if index < 0 then _ else _ : Storage.Op _) _ _ = _
      by_cases hi : index < 0
      · rw [if_pos hi, if_pos hi]; rfl
      · rw [if_neg hi, if_neg hi]
        show (match m.pieces[index.toNat]? with | some p => _ | none => _ : Storage.Op _) _ _ = _
        cases m.pieces[index.toNat]? <;> rfl
    show ∃ fates, (Storage.Op.bind _ _ _ _).1 = _
    unfold Storage.Op.bind
    simp only [hp]
    by_cases hi : index < 0
    · rw [if_pos hi]; exact ⟨[], by rw [if_pos hi]⟩
    rw [if_neg hi]
    simp only [if_neg hi]
    cases m.pieces[index.toNat]? with
    | none => exact ⟨[], rfl⟩
    | some p =>
      dsimp only
      cases hpc : p.coalesced with
      | false => exact ⟨[], rfl⟩
      | true =>
        refine readFile_same _ _ _ os _ (Storage.readWork (pieceName index.toNat)) ?_ rfl
        unfold Storage.readWork Storage.Op.call
        dsimp only
        cases fs.work.bind (lookup (pieceName index.toNat)) <;> rfl

/-! ### Files -/

/-- How many reads have failed. -/
def failedReads (log : List (Call × Bool)) : Nat := log.count (.reading, false)

theorem readFile_files (c : Option Bytes) (off length : Int) (os : OS) : (readFile c off length os).2.opened = os.opened := by
  unfold readFile OS.call
  dsimp only
  (repeat' split) <;> simp_all [OS.open_, OS.close, OS.alloc]
  all_goals grind

theorem multiLoop_files (start end_ : Int) (len : Nat) : ∀ (files : List File) (total : Int) (acc : Bytes) (os : OS),
    ∃ l, (multiLoop fs start end_ len total acc files os).2.log = os.log ++ l ∧ (multiLoop fs start end_ len total acc files os).2.opened = os.opened + failedReads l ∧
      (multiLoop fs start end_ len total acc files os).2.buffers = os.buffers ∧ (failedReads l ≠ 0 → (multiLoop fs start end_ len total acc files os).1 = .err .fs ∧ failedReads l = 1)
  | [], _, _, os => ⟨[], by simp [multiLoop, failedReads]⟩
  | f :: rest, total, acc, os => by
    unfold multiLoop
    by_cases h1 : end_ ≤ total
    · rw [if_pos h1]; exact ⟨[], by simp [failedReads]⟩
    rw [if_neg h1]
    by_cases h2 : start ≤ total + f.length
    · rw [if_pos h2]
      have hoff : 0 ≤ (if total < start then start - total else 0) := by split <;> omega
      generalize (if total < start then start - total else 0) = off at hoff
      unfold OS.call
      dsimp only
      cases hb : os.fates.headD true with
      | false => exact ⟨[(.opening, false)], by simp [failedReads]⟩
      | true =>
        cases targetPath fs f.path with
        | none => exact ⟨[(.opening, true)], by simp [failedReads]⟩
        | some c =>
          dsimp only [OS.open_]
          cases hb2 : os.fates.tail.headD true with
          | false => exact ⟨[(.opening, true), (.reading, false)], by simp [failedReads]⟩
          | true =>
            have hr : readAt c off (len - acc.length) = .ok ((c.drop off.toNat).take (len - acc.length), decide (((c.drop off.toNat).take (len - acc.length)).length < len - acc.length)) := by
              unfold readAt; rw [if_neg (by omega)]
            rw [hr]
            dsimp only
            obtain ⟨l, e1, e2, e3, e4⟩ := multiLoop_files start end_ len rest (total + f.length) (acc ++ (c.drop off.toNat).take (len - acc.length))
              (OS.close { os with fates := os.fates.tail.tail, log := os.log ++ [(.opening, true)] ++ [(.reading, true)], opened := os.opened + 1 })
            refine ⟨(.opening, true) :: (.reading, true) :: l, ?_, ?_, ?_, ?_⟩
            · rw [e1]; simp [OS.close]
            · rw [e2]; simp [OS.close, failedReads]
            · rw [e3]; simp [OS.close]
            · simpa [failedReads] using e4
    · rw [if_neg h2]
      exact multiLoop_files start end_ len rest _ acc os

/-- C132 in full: however the calls of the os turn out, GetBlock leaves no more files open than there were. -/
def C132_statement : Prop := ∀ (cfg : Cfg) (fs : FS) (m : Mem) (index begin_ length : Int) (os : OS), (getBlock cfg fs m index begin_ length os).2.opened ≤ os.opened

namespace Ex
/-- A complete torrent of three files. -/
def disk : FS := (Storage.run Storage.Ex.multi Storage.Ex.both Storage.World.empty).fs
/-- Its memory. -/
def mem : Mem := (Storage.run Storage.Ex.multi Storage.Ex.both Storage.World.empty).mem.getD (Storage.newMem Storage.Ex.multi.info)
end Ex

/-- **C132 is false of the code**: when reading one of several files fails, the file stays open. -/
theorem C132_refuted : ¬ C132_statement := fun h => by
  have h1 : (getBlock Storage.Ex.multi Ex.disk Ex.mem 0 0 4 { fates := [true, false] }).2.opened = 1 := by kernel_rfl
  have h2 := h Storage.Ex.multi Ex.disk Ex.mem 0 0 4 { fates := [true, false] }
  rw [h1] at h2
  cases h2

theorem readMulti_files (index begin_ length : Int) (os : OS) :
    ∃ l, (readMulti cfg fs index begin_ length os).2.log = os.log ++ l ∧ (readMulti cfg fs index begin_ length os).2.opened = os.opened + failedReads l ∧
      (readMulti cfg fs index begin_ length os).2.buffers = os.buffers ++ (if length < 0 then [] else [length.toNat]) ∧
      (failedReads l ≠ 0 → (readMulti cfg fs index begin_ length os).1 = .err .fs ∧ failedReads l = 1) := by
  unfold readMulti
  by_cases hl : length < 0
  · rw [if_pos hl]; exact ⟨[], by simp [failedReads, hl]⟩
  rw [if_neg hl]
  dsimp only
  obtain ⟨l, h1, h2, h3, h4⟩ := multiLoop_files (fs := fs) (index * cfg.info.pieceLength + begin_) (index * cfg.info.pieceLength + begin_ + length) length.toNat cfg.info.files 0 []
    (os.alloc length.toNat)
  refine ⟨l, ?_⟩
  revert h1 h2 h3 h4
  generalize multiLoop _ _ _ _ _ _ _ _ = y
  obtain ⟨o, os'⟩ := y
  intro h1 h2 h3 h4
  dsimp only at h1 h2 h3 h4
  cases o with
  | ok r => exact ⟨h1, h2, by rw [if_neg hl]; exact h3, fun h => by cases (h4 h).1⟩
  | err e => exact ⟨h1, h2, by rw [if_neg hl]; exact h3, h4⟩
  | panic => exact ⟨h1, h2, by rw [if_neg hl]; exact h3, h4⟩
  | crash => exact ⟨h1, h2, by rw [if_neg hl]; exact h3, h4⟩

theorem readFile_log (c : Option Bytes) (off length : Int) (os : OS) : ∃ l, (readFile c off length os).2.log = os.log ++ l := by
  unfold readFile OS.call
  dsimp only
  (repeat' split) <;> simp_all [OS.open_, OS.close, OS.alloc]
  all_goals grind

/-- C132 exactly: a torrent of one file, or one that is not complete yet, leaves no file open; otherwise one file stays open for each read that fails. Missing: that it is closed then, too. -/
theorem C132_exactly_partial (cfg : Cfg) (fs : FS) (m : Mem) (index begin_ length : Int) (os : OS) :
    ∃ l, (getBlock cfg fs m index begin_ length os).2.log = os.log ++ l ∧
      (getBlock cfg fs m index begin_ length os).2.opened = os.opened + (if m.coalesced = true ∧ cfg.info.files ≠ [] then failedReads l else 0) := by
  unfold getBlock
  by_cases hc : m.coalesced = true
  · rw [if_pos hc]
    by_cases hf : cfg.info.files ≠ []
    · rw [if_pos hf]
      obtain ⟨l, h1, h2, _⟩ := readMulti_files (cfg := cfg) (fs := fs) index begin_ length os
      exact ⟨l, h1, by rw [h2, if_pos ⟨hc, hf⟩]⟩
    · rw [if_neg hf]
      obtain ⟨l, h⟩ := readFile_log (targetFile fs) (index * cfg.info.pieceLength + begin_) length os
      exact ⟨l, h, by rw [readFile_files, if_neg fun h => hf h.2]; rfl⟩
  · rw [if_neg hc]
    have hz : ¬(m.coalesced = true ∧ cfg.info.files ≠ []) := fun h => hc h.1
    by_cases hi : index < 0
    · rw [if_pos hi]; exact ⟨[], by simp [hz]⟩
    rw [if_neg hi]
    cases m.pieces[index.toNat]? with
    | none => exact ⟨[], by simp [hz]⟩
    | some p =>
      dsimp only
      cases p.coalesced with
      | false => exact ⟨[], by simp [hz]⟩
      | true =>
        obtain ⟨l, h⟩ := readFile_log (fs.work.bind (lookup (pieceName index.toNat))) begin_ length os
        exact ⟨l, h, by simp only [hz, if_false]; exact readFile_files _ _ _ _⟩

/-- C132 for any number of calls: as many files of a complete torrent of several files are left open as reads have failed, and none of other torrents. -/
theorem C132_many_partial (cfg : Cfg) (fs : FS) (m : Mem) : ∀ (rs : List (Int × Int × Int)) (os : OS),
    ∃ l, (getBlocks cfg fs m rs os).log = os.log ++ l ∧ (getBlocks cfg fs m rs os).opened = os.opened + (if m.coalesced = true ∧ cfg.info.files ≠ [] then failedReads l else 0)
  | [], os => ⟨[], by simp [getBlocks, failedReads]⟩
  | (i, b, n) :: rs, os => by
    obtain ⟨l, h1, h2⟩ := C132_exactly_partial cfg fs m i b n os
    obtain ⟨l', h3, h4⟩ := C132_many_partial cfg fs m rs (getBlock cfg fs m i b n os).2
    refine ⟨l ++ l', by rw [getBlocks, h3, h1, List.append_assoc], ?_⟩
    rw [getBlocks, h4, h2]
    split <;> simp [failedReads, List.count_append, Nat.add_assoc]

/-- Two failed reads, one failed opening: two files are left open. A single file: none. -/
example : (getBlocks Storage.Ex.multi Ex.disk Ex.mem [(0, 0, 4), (0, 0, 4), (0, 0, 4), (1, 0, 2)] { fates := [true, true, true, false, false, true, false] }).opened = 2 ∧
    (getBlocks Storage.Ex.single (Storage.run Storage.Ex.single Storage.Ex.both Storage.World.empty).fs Ex.mem [(0, 0, 4), (0, 0, 4)] { fates := [true, false] }).opened = 0 := ⟨by kernel_rfl, by kernel_rfl⟩

/-! ### Memory -/

/-- C133 in full: GetBlock allocates no buffers that are together larger than a piece. -/
def C133_statement : Prop := ∀ (cfg : Cfg) (fs : FS) (m : Mem) (index begin_ length : Int), 0 ≤ cfg.info.pieceLength →
  ((getBlock cfg fs m index begin_ length {}).2.buffers.sum : Int) ≤ cfg.info.pieceLength

/-- **C133 is false of the code**: seventeen bytes from a peer, a REQUEST, make GetBlock allocate 4294967295 bytes for a torrent of six bytes, whose pieces have four; then it fails. -/
theorem C133_refuted : ¬ C133_statement ∧ ∃ wire : Bytes, wire.length = 17 ∧ ∃ msg r, PeerWire.Message.decode ⟨[wire], .eof⟩ = .ok (msg, r) ∧ msg.typ = PeerWire.REQUEST ∧
    (getBlock Storage.Ex.multi Ex.disk Ex.mem msg.index msg.begin msg.length {}).2.buffers = [4294967295] ∧
    (getBlock Storage.Ex.multi Ex.disk Ex.mem msg.index msg.begin msg.length {}).1 = .err .incompleteRead := by
  have h1 : (getBlock Storage.Ex.multi Ex.disk Ex.mem 0 0 4294967295 {}).2.buffers = [4294967295] := by kernel_rfl
  have h2 : (getBlock Storage.Ex.multi Ex.disk Ex.mem 0 0 4294967295 {}).1 = .err .incompleteRead := by kernel_rfl
  have h4 : ∀ msg : PeerWire.Message, msg.index = 0 → msg.begin = 0 → msg.length = 4294967295 → (getBlock Storage.Ex.multi Ex.disk Ex.mem msg.index msg.begin msg.length {}).2.buffers = [4294967295] ∧
      (getBlock Storage.Ex.multi Ex.disk Ex.mem msg.index msg.begin msg.length {}).1 = .err .incompleteRead := by
    intro msg a b c
    rw [a, b, c]
    exact ⟨h1, h2⟩
  refine ⟨fun h => ?_, [0, 0, 0, 13, 6, 0, 0, 0, 0, 0, 0, 0, 0, 255, 255, 255, 255], rfl, PeerWire.request 0 0 4294967295, ⟨[], .eof⟩, by decide +kernel, rfl, h4 _ rfl rfl rfl⟩
  have h3 := h Storage.Ex.multi Ex.disk Ex.mem 0 0 4294967295 (by decide)
  rw [h1] at h3
  simp [Storage.Ex.multi] at h3

theorem readFile_memory (c : Option Bytes) (off length : Int) (os : OS) : ∃ bs, (readFile c off length os).2.buffers = os.buffers ++ bs ∧ (bs = [] ∨ bs = [length.toNat] ∧ 0 ≤ length) ∧
    ∀ r, (readFile c off length os).1 = .ok r → bs = [r.length] := by
  unfold readFile OS.call
  dsimp only
  cases os.fates.headD true with
  | false => exact ⟨[], by simp⟩
  | true =>
    cases c with
    | none => exact ⟨[], by simp⟩
    | some c =>
      dsimp only
      by_cases hl : length < 0
      · rw [if_pos hl]; exact ⟨[], by simp [OS.close, OS.open_]⟩
      rw [if_neg hl]
      refine ⟨[length.toNat], ?_⟩
      dsimp only [OS.alloc, OS.open_]
      cases os.fates.tail.headD true with
      | false => exact ⟨rfl, .inr ⟨rfl, by omega⟩, by simp⟩
      | true =>
        dsimp only
        unfold readAt
        by_cases ho : off < 0
        · rw [if_pos ho]; exact ⟨rfl, .inr ⟨rfl, by omega⟩, by simp⟩
        rw [if_neg ho]
        dsimp only
        refine ⟨rfl, .inr ⟨rfl, by omega⟩, fun r hr => ?_⟩
        split at hr
        · cases hr
        · next h =>
          cases hr
          simp only [decide_eq_true_eq] at h
          have := List.length_take_le length.toNat (c.drop off.toNat)
          rw [show length.toNat = ((c.drop off.toNat).take length.toNat).length by omega]
          simp

theorem readAt_err {c : Bytes} {off : Int} {n : Nat} {e : Err} (h : readAt c off n = .err e) : e = .fs := by
  unfold readAt at h
  split at h
  · cases h; rfl
  · cases h

theorem readAt_length {c : Bytes} {off : Int} {n : Nat} {r : Bytes} {eof : Bool} (h : readAt c off n = .ok (r, eof)) : r.length ≤ n := by
  unfold readAt at h
  split at h
  · cases h
  · cases h; exact List.length_take_le _ _

theorem readFile_complete {c : Option Bytes} {off length : Int} {os : OS} : (readFile c off length os).1 ≠ .err .incompletePiece := by
  unfold readFile OS.call
  dsimp only
  intro h
  split at h
  · cases h
  split at h
  · cases h
  split at h
  · cases h
  split at h
  · cases h
  split at h
  · dsimp only at h; split at h <;> cases h
  · next e he => rw [readAt_err he] at h; cases h
  · cases h

theorem multiLoop_complete (start end_ : Int) (len : Nat) : ∀ (files : List File) (total : Int) (acc : Bytes) (os : OS), (multiLoop fs start end_ len total acc files os).1 ≠ .err .incompletePiece
  | [], _, _, _ => by simp [multiLoop]
  | f :: rest, total, acc, os => by
    unfold multiLoop OS.call
    dsimp only
    intro h
    split at h
    · cases h
    split at h
    · split at h
      · cases h
      split at h
      · cases h
      split at h
      · cases h
      split at h
      · exact multiLoop_complete _ _ _ _ _ _ _ h
      · next e he => rw [readAt_err he] at h; cases h
      · cases h
    · exact multiLoop_complete _ _ _ _ _ _ _ h

theorem multiLoop_length (start end_ : Int) (len : Nat) : ∀ (files : List File) (total : Int) (acc : Bytes) (os : OS) (r : Bytes), acc.length ≤ len →
    (multiLoop fs start end_ len total acc files os).1 = .ok r → r.length ≤ len
  | [], _, _, _, _, ha, h => by cases h; exact ha
  | f :: rest, total, acc, os, r, ha, h => by
    unfold multiLoop OS.call at h
    dsimp only at h
    split at h
    · cases h; exact ha
    split at h
    · split at h
      · cases h
      split at h
      · cases h
      split at h
      · cases h
      split at h
      · next r' eof hr =>
        have := readAt_length hr
        refine multiLoop_length _ _ _ _ _ _ _ _ ?_ h
        rw [List.length_append]
        omega
      · cases h
      · cases h
    · exact multiLoop_length _ _ _ _ _ _ _ _ ha h

theorem readMulti_complete {index begin_ length : Int} {os : OS} : (readMulti cfg fs index begin_ length os).1 ≠ .err .incompletePiece := by
  unfold readMulti
  dsimp only
  split
  · simp
  have h := multiLoop_complete (fs := fs) (index * cfg.info.pieceLength + begin_) (index * cfg.info.pieceLength + begin_ + length) length.toNat cfg.info.files 0 [] (os.alloc length.toNat)
  revert h
  generalize multiLoop _ _ _ _ _ _ _ _ = y
  obtain ⟨o, os'⟩ := y
  intro h
  cases o with
  | ok r => dsimp only; split <;> simp
  | _ => exact h

theorem readMulti_nonneg {index begin_ length : Int} {os : OS} {r : Bytes} (h : (readMulti cfg fs index begin_ length os).1 = .ok r) : 0 ≤ length := by
  unfold readMulti at h
  split at h
  · cases h
  · omega

theorem readMulti_length {index begin_ length : Int} {os : OS} {r : Bytes} (h : (readMulti cfg fs index begin_ length os).1 = .ok r) : r.length = length.toNat := by
  unfold readMulti at h
  dsimp only at h
  split at h
  · cases h
  have hl := multiLoop_length (fs := fs) (index * cfg.info.pieceLength + begin_) (index * cfg.info.pieceLength + begin_ + length) length.toNat cfg.info.files 0 [] (os.alloc length.toNat)
  revert h hl
  generalize multiLoop _ _ _ _ _ _ _ _ = y
  obtain ⟨o, os'⟩ := y
  intro h hl
  cases o with
  | ok r' =>
    dsimp only at h
    have := hl r' (by simp) rfl
    split at h
    · cases h
    · cases h; omega
  | _ => cases h

/-- C133. What is true: at most one buffer, of the length that was asked for; it is the block if a block is returned, and there is none for a piece that is not complete. Missing: that the length is
compared with the piece before. -/
theorem C133_partial (cfg : Cfg) (fs : FS) (m : Mem) (index begin_ length : Int) (os : OS) :
    ∃ bs, (getBlock cfg fs m index begin_ length os).2.buffers = os.buffers ++ bs ∧ (bs = [] ∨ bs = [length.toNat] ∧ 0 ≤ length) ∧
      (∀ r, (getBlock cfg fs m index begin_ length os).1 = .ok r → bs = [r.length]) ∧
      ((getBlock cfg fs m index begin_ length os).1 = .err .incompletePiece → bs = []) := by
  unfold getBlock
  by_cases hc : m.coalesced = true
  · rw [if_pos hc]
    by_cases hf : cfg.info.files ≠ []
    · rw [if_pos hf]
      obtain ⟨l, _, _, h3, _⟩ := readMulti_files (cfg := cfg) (fs := fs) index begin_ length os
      refine ⟨_, h3, ?_, fun r hr => ?_, fun h => ?_⟩
      · split
        · exact .inl rfl
        · exact .inr ⟨rfl, by omega⟩
      · rw [readMulti_length hr]
        have := readMulti_nonneg hr
        rw [if_neg (by omega)]
      · exact absurd h readMulti_complete
    · rw [if_neg hf]
      obtain ⟨bs, h1, h2, h3⟩ := readFile_memory (targetFile fs) (index * cfg.info.pieceLength + begin_) length os
      exact ⟨bs, h1, h2, h3, fun h => absurd h readFile_complete⟩
  · rw [if_neg hc]
    by_cases hi : index < 0
    · rw [if_pos hi]; exact ⟨[], by simp⟩
    rw [if_neg hi]
    cases m.pieces[index.toNat]? with
    | none => exact ⟨[], by simp⟩
    | some p =>
      dsimp only
      cases p.coalesced with
      | false => exact ⟨[], by simp⟩
      | true =>
        obtain ⟨bs, h1, h2, h3⟩ := readFile_memory (fs.work.bind (lookup (pieceName index.toNat))) begin_ length os
        exact ⟨bs, h1, h2, h3, fun h => absurd h readFile_complete⟩

/-- Every length is allocated when the torrent is complete, also one beyond the end of the torrent: this is what makes C133 false for every torrent of several files. -/
theorem C133_any_refuted (cfg : Cfg) (fs : FS) (m : Mem) (hm : m.coalesced = true) (hf : cfg.info.files ≠ []) (index begin_ : Int) (n : Nat) :
    (getBlock cfg fs m index begin_ n {}).2.buffers = [n] := by
  unfold getBlock
  rw [if_pos hm, if_pos hf]
  obtain ⟨l, _, _, h3, _⟩ := readMulti_files (cfg := cfg) (fs := fs) index begin_ n {}
  rw [h3, if_neg (by omega)]
  rfl

example : Ex.mem.coalesced = true ∧ Storage.Ex.multi.info.files ≠ [] ∧ (getBlock Storage.Ex.multi Ex.disk Ex.mem 0 1 4 {}).1 = .ok [2, 3, 4, 5] := ⟨by kernel_rfl, by decide, by kernel_rfl⟩

end Drip.ReadCost
