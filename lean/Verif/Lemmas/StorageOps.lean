import Verif.Lemmas.StorageInv
/-
Every operation of the storage model keeps the invariant.
-/

namespace Drip.Storage
open Metainfo Spec

variable {A : Fate → Prop} {cfg : Cfg}

theorem wp_seq {α β : Type} {p : Op α} {k : α → Op β} {Q : Post β} {Q1 : Post α} {s : Sys} (h : wp A p Q1 s)
    (h1 : ∀ a s', Q1.ok a s' → wp A (k a) Q s') (h2 : ∀ e s', Q1.err e s' → Q.err e s')
    (h3 : ∀ s', Q1.panic s' → Q.panic s') (h4 : ∀ s', Q1.crash s' → Q.crash s') : wp A (p >>= k) Q s :=
  wp_bind (wp_mono h h1 h2 h3 h4)

/-- Claims about code that does not change anything. -/
def ro {α : Type} (s : Sys) (ok : α → Prop) : Post α := ⟨fun a s' => ok a ∧ s' = s, fun _ s' => s' = s, fun _ => False, fun s' => s' = s⟩

theorem wp_ro {α β : Type} {p : Op α} {k : α → Op β} {Q : Post β} {ok : α → Prop} {s : Sys} (h : wp A p (ro s ok) s)
    (h1 : ∀ a, ok a → wp A (k a) Q s) (h2 : ∀ e, Q.err e s) (h4 : Q.crash s) : wp A (p >>= k) Q s := by
  refine wp_seq h ?_ ?_ ?_ ?_
  · rintro a s' ⟨ha, rfl⟩; exact h1 a ha
  · rintro e s' rfl; exact h2 e
  · intro s' hs'; exact hs'.elim
  · rintro s' rfl; exact h4

theorem wp_temp_ro {s : Sys} : wp A Op.callTemp (ro s fun _ => True) s :=
  wp_callTemp ⟨trivial, rfl⟩ (fun _ _ => rfl) (fun _ _ => rfl)

/-- As `ro`; moreover errors are due to failures of the os. -/
def rof (A : Fate → Prop) {α : Type} (s : Sys) (ok : α → Prop) : Post α :=
  ⟨fun a s' => ok a ∧ s' = s, fun _ s' => s' = s ∧ ∃ r, A (.fail r), fun _ => False, fun s' => s' = s⟩

theorem wp_rof {α β : Type} {p : Op α} {k : α → Op β} {Q : Post β} {ok : α → Prop} {s : Sys} (h : wp A p (rof A s ok) s)
    (h1 : ∀ a, ok a → wp A (k a) Q s) (h2 : (∃ r, A (.fail r)) → ∀ e, Q.err e s) (h4 : Q.crash s) : wp A (p >>= k) Q s := by
  refine wp_seq h ?_ ?_ ?_ ?_
  · rintro a s' ⟨ha, rfl⟩; exact h1 a ha
  · rintro e s' ⟨rfl, hr⟩; exact h2 hr e
  · intro s' hs'; exact hs'.elim
  · rintro s' rfl; exact h4

theorem wp_temp_rof {s : Sys} : wp A Op.callTemp (rof A s fun _ => True) s :=
  wp_callTemp ⟨trivial, rfl⟩ (fun r hr => ⟨rfl, r, hr⟩) (fun _ _ => rfl)

/-- As `rof`; an error may also be due to `B`. -/
def rob (A : Fate → Prop) {α : Type} (s : Sys) (ok : α → Prop) (B : Prop) : Post α :=
  ⟨fun a s' => ok a ∧ s' = s, fun _ s' => s' = s ∧ ((∃ r, A (.fail r)) ∨ B), fun _ => False, fun s' => s' = s⟩

theorem wp_rob {α β : Type} {p : Op α} {k : α → Op β} {Q : Post β} {ok : α → Prop} {B : Prop} {s : Sys} (h : wp A p (rob A s ok B) s)
    (h1 : ∀ a, ok a → wp A (k a) Q s) (h2 : (∃ r, A (.fail r)) ∨ B → ∀ e, Q.err e s) (h4 : Q.crash s) : wp A (p >>= k) Q s := by
  refine wp_seq h ?_ ?_ ?_ ?_
  · rintro a s' ⟨ha, rfl⟩; exact h1 a ha
  · rintro e s' ⟨rfl, hr⟩; exact h2 hr e
  · intro s' hs'; exact hs'.elim
  · rintro s' rfl; exact h4

/-- The file of piece `i` holds `d`. -/
def W (fs : FS) (i : Nat) (d : Bytes) : Prop := ∃ l, fs.work = some l ∧ lookup (pieceName i) l = some d

theorem W.verified {fs : FS} (h : FSInv cfg fs) {i : Nat} {d : Bytes} (hw : W fs i d) :
    Verified cfg.sha1 cfg.info i d ∧ (d.length : Int) = cfg.info.getPieceLength i := by
  obtain ⟨l, h1, h2⟩ := hw
  exact lookup_verified h h1 h2

theorem W.unique {fs : FS} {i : Nat} {d d' : Bytes} (hw : W fs i d) (hw' : W fs i d') : d = d' := by
  obtain ⟨l, h1, h2⟩ := hw
  obtain ⟨l', h1', h2'⟩ := hw'
  rw [h1] at h1'; cases h1'
  rw [h2] at h2'; cases h2'; rfl

/-- The data of piece `i`, empty if there is none. -/
def dataOf (fs : FS) (i : Nat) : Bytes := (lookup (pieceName i) (fs.work.getD [])).getD []

theorem W.dataOf {fs : FS} {i : Nat} {d : Bytes} (h : W fs i d) : dataOf fs i = d := by
  obtain ⟨l, h1, h2⟩ := h
  simp [Storage.dataOf, h1, h2]

def flat (fs : FS) (is : List Nat) : Bytes := (is.map (dataOf fs)).flatten

theorem wp_readWork {s : Sys} {i : Nat} : wp A (readWork (pieceName i)) (rob A s (fun c => W s.fs i c) (¬ ∃ d, W s.fs i d)) s := by
  refine wp_call ?_ ?_ (fun r hr => ⟨rfl, .inl ⟨r, hr⟩⟩) (fun r _ => rfl)
  · intro a fs he
    simp only [Option.map_eq_some_iff, Option.bind_eq_some_iff, Prod.mk.injEq] at he
    obtain ⟨c, ⟨l, h1, h2⟩, rfl, rfl⟩ := he
    exact ⟨⟨l, h1, h2⟩, rfl⟩
  · intro he
    refine ⟨rfl, .inr ?_⟩
    rintro ⟨d, l, h1, h2⟩
    simp [h1, h2] at he

theorem wp_readPieces {s : Sys} (is : List Nat) : wp A (readPieces is) (rob A s (fun c => c = flat s.fs is ∧ ∀ i ∈ is, W s.fs i (dataOf s.fs i))
    (∃ i ∈ is, ¬ ∃ d, W s.fs i d)) s := by
  induction is with
  | nil => exact wp_pure ⟨⟨rfl, by simp⟩, rfl⟩
  | cons i is ih =>
    unfold readPieces
    refine wp_rob wp_readWork ?_ (fun h _ => ⟨rfl, h.imp id fun h => ⟨i, by simp, h⟩⟩) rfl
    intro c hc
    refine wp_rof wp_temp_rof ?_ (fun h _ => ⟨rfl, .inl h⟩) rfl
    intro _ _
    refine wp_rob ih ?_ (fun h _ => ⟨rfl, h.imp id fun ⟨j, h1, h2⟩ => ⟨j, by simp [h1], h2⟩⟩) rfl
    rintro r ⟨rfl, h3⟩
    have hcd := hc.dataOf
    subst hcd
    refine wp_pure ⟨⟨by simp [flat], ?_⟩, rfl⟩
    intro j hj
    rcases List.mem_cons.mp hj with rfl | hj
    · exact hc
    · exact h3 j hj

/-! ### Multi-file layout -/

/-- The files cut one after the other from `X`. -/
def place (acc : List (List Bytes × Bytes)) (X : Bytes) : List File → List (List Bytes × Bytes)
  | [] => acc
  | f :: fs => place (storePath f.path (X.take f.length.toNat) acc) (X.drop f.length.toNat) fs

theorem lookupPath_store (p q : List Bytes) (c : Bytes) (l : List (List Bytes × Bytes)) :
    lookupPath q (storePath p c l) = if q = p then some c else lookupPath q l := by
  induction l with
  | nil => simp only [storePath, lookupPath, eq_comm]
  | cons x l ih =>
    obtain ⟨a, b⟩ := x
    simp only [storePath]
    by_cases h : a = p
    · subst h
      simp only [if_true, lookupPath]
      by_cases h2 : a = q
      · simp [h2]
      · simp [h2, Ne.symm h2]
    · simp only [if_neg h, lookupPath, ih]
      by_cases h2 : a = q
      · subst h2; simp [h]
      · simp [h2]

theorem place_other (files : List File) : ∀ (acc : List (List Bytes × Bytes)) (X : Bytes) (q : List Bytes), (∀ f ∈ files, f.path ≠ q) →
    lookupPath q (place acc X files) = lookupPath q acc := by
  induction files with
  | nil => intro acc X q _; rfl
  | cons f fs ih =>
    intro acc X q h
    unfold place
    rw [ih _ _ _ (fun g hg => h g (by simp [hg])), lookupPath_store, if_neg (fun e => h f (by simp) e.symm)]

theorem place_lookup (files : List File) : ∀ (acc : List (List Bytes × Bytes)) (X : Bytes) (k : Nat) (f : File), files[k]? = some f →
    LastWithPath files k → lookupPath f.path (place acc X files) = some (slice X (fileStart files k) f.length.toNat) := by
  induction files with
  | nil => intro acc X k f h; simp at h
  | cons g fs ih =>
    intro acc X k f hk hl
    unfold place
    cases k with
    | zero =>
      simp at hk; subst hk
      rw [place_other]
      · rw [lookupPath_store, if_pos rfl]; simp [slice, fileStart]
      · intro h hh
        obtain ⟨j, hj⟩ := List.getElem?_of_mem hh
        exact hl (j + 1) g h (by omega) (by simp) (by simpa using hj)
    | succ k =>
      rw [ih _ _ k f (by simpa using hk)]
      · simp [slice, fileStart, List.drop_drop]
      · intro j a b hj ha hb
        exact hl (j + 1) a b (by omega) (by simpa using ha) (by simpa using hb)

theorem storePath_ne_nil (p : List Bytes) (c : Bytes) (l : List (List Bytes × Bytes)) : storePath p c l ≠ [] := by
  cases l with
  | nil => simp [storePath]
  | cons x l => obtain ⟨a, b⟩ := x; simp only [storePath]; split <;> simp

theorem place_ne_nil (files : List File) : ∀ (acc : List (List Bytes × Bytes)) (X : Bytes), (acc ≠ [] ∨ files ≠ []) → place acc X files ≠ [] := by
  induction files with
  | nil => intro acc X h; rcases h with h | h; exact h; exact absurd rfl h
  | cons f fs ih => intro acc X _; exact ih _ _ (.inl (storePath_ne_nil _ _ _))

theorem storePath_paths (p : List Bytes) (c : Bytes) (l : List (List Bytes × Bytes)) : (storePath p c l).map Prod.fst = if p ∈ l.map Prod.fst then l.map Prod.fst else l.map Prod.fst ++ [p] := by
  induction l with
  | nil => rfl
  | cons x l ih =>
    obtain ⟨a, b⟩ := x
    simp only [storePath]
    by_cases h : a = p
    · subst h; simp
    · rw [if_neg h, List.map_cons, ih]
      simp only [List.map_cons, List.mem_cons, Ne.symm h, false_or]
      split <;> simp

theorem place_once (files : List File) : ∀ (acc : List (List Bytes × Bytes)) (X : Bytes), (acc.map Prod.fst).Nodup → ((place acc X files).map Prod.fst).Nodup := by
  induction files with
  | nil => exact fun _ _ h => h
  | cons f fs ih =>
    intro acc X h
    refine ih _ _ ?_
    rw [storePath_paths]
    split
    · exact h
    · rename_i hn
      rw [List.nodup_append]
      exact ⟨h, by simp, fun a ha b hb e => by rw [List.mem_singleton.1 hb] at e; exact hn (e ▸ ha)⟩

theorem place_only (files : List File) : ∀ (acc : List (List Bytes × Bytes)) (X : Bytes), ∀ x ∈ place acc X files, x.1 ∈ acc.map Prod.fst ∨ ∃ f ∈ files, f.path = x.1 := by
  induction files with
  | nil => exact fun _ _ x hx => .inl (List.mem_map.2 ⟨x, hx, rfl⟩)
  | cons f fs ih =>
    intro acc X x hx
    rcases ih _ _ x hx with h | ⟨g, h1, h2⟩
    · rw [storePath_paths] at h
      split at h
      · exact .inl h
      · rcases List.mem_append.1 h with h | h
        · exact .inl h
        · exact .inr ⟨f, List.mem_cons_self, (List.mem_singleton.1 h).symm⟩
    · exact .inr ⟨g, List.mem_cons_of_mem _ h1, h2⟩

theorem place_tree (files : List File) (X : Bytes) : Tree files X (place [] X files) where
  once := place_once _ _ _ List.nodup_nil
  only x hx := (place_only _ _ _ x hx).resolve_left (by simp)
  each k f hk hl := mem_of_lookupPath (place_lookup _ _ _ _ _ hk hl)

theorem wp_copyN {s : Sys} (n : Nat) (is : List Nat) : ∀ buf, wp A (copyN n buf is)
    (rob A s (fun x => x.1.length = n ∧ x.1 ++ (x.2.1 ++ flat s.fs x.2.2) = buf ++ flat s.fs is ∧ ∀ i ∈ x.2.2, i ∈ is)
      ((∃ i ∈ is, ¬ ∃ d, W s.fs i d) ∨ (buf ++ flat s.fs is).length < n)) s := by
  induction is with
  | nil =>
    intro buf
    unfold copyN
    split
    · refine wp_pure ⟨⟨by simp; omega, ?_, by simp⟩, rfl⟩
      simp [flat]
    · exact wp_fail ⟨rfl, .inr (.inr (by simp [flat]; omega))⟩
  | cons i is ih =>
    intro buf
    unfold copyN
    split
    · refine wp_pure ⟨⟨by simp; omega, ?_, fun j hj => hj⟩, rfl⟩
      simp [← List.append_assoc]
    · refine wp_rob wp_readWork ?_ (fun h _ => ⟨rfl, h.imp id fun h => .inl ⟨i, by simp, h⟩⟩) rfl
      intro c hc
      have hcat : buf ++ c ++ flat s.fs is = buf ++ flat s.fs (i :: is) := by simp [flat, hc.dataOf]
      refine wp_mono (ih (buf ++ c)) ?_ ?_ (fun _ h => h) (fun _ h => h)
      · rintro x s' ⟨⟨h1, h2, h3⟩, rfl⟩
        refine ⟨⟨h1, ?_, fun j hj => by simp [h3 j hj]⟩, rfl⟩
        rw [h2, hcat]
      · rintro e s' ⟨rfl, h⟩
        refine ⟨rfl, h.imp id ?_⟩
        rintro (⟨j, h1, h2⟩ | h)
        · exact .inl ⟨j, by simp [h1], h2⟩
        · rw [hcat] at h; exact .inr h

theorem wp_writeFiles {s : Sys} (files : List File) : ∀ buf is acc, wp A (writeFiles buf is acc files)
    (rob A s (fun res => res = place acc (buf ++ flat s.fs is) files ∧ fileStart files files.length ≤ (buf ++ flat s.fs is).length)
      ((∃ i ∈ is, ¬ ∃ d, W s.fs i d) ∨ (∃ f ∈ files, f.path = []) ∨ (buf ++ flat s.fs is).length < fileStart files files.length)) s := by
  induction files with
  | nil => intro buf is acc; exact wp_pure ⟨⟨rfl, by simp [fileStart]⟩, rfl⟩
  | cons f fs ih =>
    intro buf is acc
    unfold writeFiles
    have hsum : fileStart (f :: fs) (f :: fs).length = f.length.toNat + fileStart fs fs.length := by simp [fileStart]
    split
    · rename_i hp
      exact wp_fail ⟨rfl, .inr (.inr (.inl ⟨f, by simp, hp⟩))⟩
    · refine wp_rof wp_temp_rof ?_ (fun h _ => ⟨rfl, .inl h⟩) rfl
      intro _ _
      refine wp_rof wp_temp_rof ?_ (fun h _ => ⟨rfl, .inl h⟩) rfl
      intro _ _
      refine wp_rob (wp_copyN _ _ _) ?_ ?_ rfl
      rotate_left
      · intro h _
        refine ⟨rfl, h.imp id ?_⟩
        rintro (h | h)
        · exact .inl h
        · exact .inr (.inr (by omega))
      rintro ⟨c, buf', is'⟩ ⟨h1, h2, h2'⟩
      simp only at h1 h2 h2'
      refine wp_rof wp_temp_rof ?_ (fun h _ => ⟨rfl, .inl h⟩) rfl
      intro _ _
      have hlen := congrArg List.length h2
      simp only [List.length_append] at hlen
      refine wp_mono (ih buf' is' _) ?_ ?_ (fun _ h => h) (fun _ h => h)
      · rintro res s' ⟨⟨h3, h4⟩, rfl⟩
        refine ⟨⟨?_, ?_⟩, rfl⟩
        · rw [h3, ← h2]
          show _ = place (storePath f.path ((c ++ (buf' ++ flat s'.fs is')).take f.length.toNat) acc)
            ((c ++ (buf' ++ flat s'.fs is')).drop f.length.toNat) fs
          rw [← h1, List.take_left, List.drop_left]
        · simp only [List.length_append] at h4 ⊢
          omega
      · rintro e s' ⟨rfl, h⟩
        refine ⟨rfl, h.imp id ?_⟩
        rintro (⟨j, g1, g2⟩ | ⟨g, g1, g2⟩ | h)
        · exact .inl ⟨j, h2' j g1, g2⟩
        · exact .inr (.inl ⟨g, by simp [g1], g2⟩)
        · refine .inr (.inr ?_)
          simp only [List.length_append] at h ⊢
          omega

/-! ### Completion -/

/-- torrent.go:60-63: what `complete` does to the memory. -/
def completed (m : Mem) : Mem := { m with coalesced := true, futs := m.futs.set m.err (some none) }

theorem wp_complete {s : Sys} (h : SInv cfg s) (hc : s.mem.coalesced = false) (ht : s.fs.target ≠ none)
    (hall : ∀ p ∈ s.mem.pieces, p.coalesced = true) :
    wp A complete (only fun _ s' => SInv cfg s' ∧ s'.fs = s.fs ∧ s'.mem = completed s.mem) s := by
  unfold complete
  refine wp_bind (wp_getMem (wp_bind (wp_setMem (wp_deliver ?_ ?_))))
  · intro _
    refine ⟨⟨h.1, ?_⟩, rfl, rfl⟩
    have herr := h.2.errFut
    rw [hc] at herr
    have hlt : s.mem.err < s.mem.futs.length := (List.getElem?_eq_some_iff.mp herr).1
    have hfut : ∀ id, id ≠ s.mem.err → (s.mem.futs.set s.mem.err (some none))[id]? = s.mem.futs[id]? := by
      intro id hid
      rw [List.getElem?_set, if_neg (fun e => hid e.symm)]
    exact
      { h.2 with
        piece := by
          intro i p hp
          have hP := h.2.piece i p hp
          have hne := h.2.errNe i p hp
          refine ⟨by simpa using hP.futLt, ?_, ?_, ?_, ?_⟩
          · intro x; rw [hfut _ hne]; exact hP.done x
          · intro x; rw [hfut _ hne]; exact hP.open_ x
          · intro x y; rw [hfut _ hne]; exact hP.noBlocks x y
          · intro x bs y; rw [hfut _ hne]; exact hP.blocks x bs y
        errFut := by simp [hlt]
        all := fun _ => ⟨ht, hall⟩ }
  · intro hne
    have := h.2.errFut
    rw [hc] at this
    exact absurd this hne

theorem wp_removeWork {s : Sys} (h : SInv cfg s) (ht : s.fs.target ≠ none) :
    wp A removeWork (safe A cfg s.mem fun _ s' => SInv cfg s' ∧ s'.mem = s.mem ∧ s'.fs = { s.fs with work := none }) s := by
  have hpart : ∀ removed : List Bytes, SInv cfg { s with fs := { s.fs with work := s.fs.work.map fun l => l.filter fun x => !removed.contains x.1 } } := by
    intro removed
    refine ⟨⟨?_, ?_, h.1.target⟩, h.2.fs (fun i _ => .inl ht) (fun h => h)⟩
    · intro l hl
      simp only [Option.map_eq_some_iff] at hl
      obtain ⟨l', hl', rfl⟩ := hl
      exact (h.1.nodup l' hl').sublist (List.Sublist.map _ List.filter_sublist)
    · intro l hl x hx
      simp only [Option.map_eq_some_iff] at hl
      obtain ⟨l', hl', rfl⟩ := hl
      exact h.1.work l' hl' x (List.mem_filter.mp hx).1
  refine wp_call ?_ (by simp) (fun r hr => ⟨hpart r, rfl, r, hr⟩) (fun r _ => (hpart r).1)
  intro a fs he
  simp only [Option.some.injEq, Prod.mk.injEq, true_and] at he
  subst he
  refine ⟨⟨⟨by simp, by simp, h.1.target⟩, h.2.fs (fun i _ => .inl ht) (fun h => h)⟩, rfl, rfl⟩

theorem all_coalesced {s : Sys} (h : SInv cfg s) (hn : s.mem.completePieces = (s.mem.pieces.length : Int)) :
    ∀ p ∈ s.mem.pieces, p.coalesced = true := by
  have := h.2.count
  rw [hn] at this
  have hc : s.mem.pieces.countP (·.coalesced) = s.mem.pieces.length := by omega
  exact List.countP_eq_length.mp hc

/-- What, besides failures of the os, keeps a torrent with all pieces from being put together. -/
def Blocked (cfg : Cfg) (fs : FS) : Prop :=
  trivialName cfg.info.name = true ∨ cfg.info.name.contains 47 = true ∨ fs.target ≠ none ∨
  (∃ i, i < cfg.info.pieces.length ∧ ¬ ∃ d, W fs i d) ∨ (∃ f ∈ cfg.info.files, f.path = []) ∨
  (flat fs (List.range cfg.info.pieces.length)).length < fileStart cfg.info.files cfg.info.files.length

/-- The finished target made of the content `X`. -/
def finished (info : Info) (X : Bytes) : Target := if info.files = [] then .file X else .dir (place [] X info.files)

/-- Claims about putting the torrent together. -/
def assembled (A : Fate → Prop) (cfg : Cfg) (s : Sys) : Post Unit :=
  ⟨fun _ s' => SInv cfg s' ∧ s'.mem = completed s.mem ∧
      s'.fs = ⟨some (finished cfg.info (flat s.fs (List.range cfg.info.pieces.length))), none⟩,
    fun _ s' => SInv cfg s' ∧ s'.mem = s.mem ∧ ((∃ r, A (.fail r)) ∨ Blocked cfg s.fs), fun _ => False, fun s' => FSInv cfg s'.fs⟩

theorem wp_createTemp {s : Sys} : wp A (createTemp cfg.info.name) (rob A s (fun _ => True) (cfg.info.name.contains 47 = true)) s := by
  refine wp_call ?_ ?_ (fun r hr => ⟨rfl, .inl ⟨r, hr⟩⟩) (fun r _ => rfl)
  · intro a fs he
    split at he
    · cases he
    · cases he; exact ⟨trivial, rfl⟩
  · intro he
    split at he
    · rename_i h; exact ⟨rfl, .inr h⟩
    · cases he

theorem contents_of_W {fs : FS} (h : FSInv cfg fs) (hW : ∀ i, i < cfg.info.pieces.length → W fs i (dataOf fs i)) :
    Contents cfg.sha1 cfg.info ((List.range cfg.info.pieces.length).map (dataOf fs)) := by
  refine ⟨by simp, ?_⟩
  intro i d hd
  have hi : i < cfg.info.pieces.length := by
    have := (List.getElem?_eq_some_iff.mp hd).1
    simpa using this
  simp [hi] at hd
  subst hd
  exact (hW i hi).verified h

/-- The end of both ways of putting the torrent together. -/
theorem wp_finish {s s1 : Sys} (hs1 : SInv cfg s1) (hm1 : s1.mem = s.mem) (hc : s.mem.coalesced = false)
    (ht1 : s1.fs.target = some (finished cfg.info (flat s.fs (List.range cfg.info.pieces.length))))
    (hall : ∀ p ∈ s.mem.pieces, p.coalesced = true) : wp A (removeWork >>= fun _ => complete) (assembled A cfg s) s1 := by
  have htn : s1.fs.target ≠ none := by rw [ht1]; simp
  refine wp_seq (wp_removeWork hs1 htn) ?_ ?_ (fun _ h => h) (fun _ h => h)
  · rintro _ s2 ⟨hs2, hm2, hfs2⟩
    refine wp_mono (wp_complete hs2 (by rw [hm2, hm1]; exact hc) (by rw [hfs2]; exact htn) (by rw [hm2, hm1]; exact hall)) ?_
      (fun _ _ h => h.elim) (fun _ h => h.elim) (fun _ h => h.elim)
    rintro _ s3 ⟨hs3, hf3, hm3⟩
    exact ⟨hs3, by rw [hm3, hm2, hm1], by rw [hf3, hfs2, ← ht1]⟩
  · rintro e s2 ⟨hs2, hm2, hr⟩; exact ⟨hs2, hm2.trans hm1, .inl hr⟩

theorem wp_coalesceSingle {s : Sys} (h : SInv cfg s) (hf : cfg.info.files = []) (hc : s.mem.coalesced = false)
    (hall : ∀ p ∈ s.mem.pieces, p.coalesced = true) : wp A (coalesceSingle cfg) (assembled A cfg s) s := by
  unfold coalesceSingle
  refine wp_rof wp_temp_rof (fun _ _ => ?_) (fun hr _ => ⟨h, rfl, .inl hr⟩) h.1
  refine wp_rob wp_createTemp (fun _ _ => ?_) (fun hr _ => ⟨h, rfl, hr.imp id fun hr => .inr (.inl hr)⟩) h.1
  refine wp_rob (wp_readPieces _) ?_ (fun hr _ => ⟨h, rfl, hr.imp id fun ⟨i, h1, h2⟩ => .inr (.inr (.inr (.inl ⟨i, List.mem_range.mp h1, h2⟩)))⟩) h.1
  rintro content ⟨h1, h3⟩
  have hcont := contents_of_W h.1 (fun i hi => h3 i (List.mem_range.mpr hi))
  refine wp_seq (Q1 := ⟨fun _ s' => SInv cfg s' ∧ s'.mem = s.mem ∧ s'.fs.target = some (.file content),
    fun _ s' => SInv cfg s' ∧ s'.mem = s.mem ∧ ((∃ r, A (.fail r)) ∨ Blocked cfg s.fs), fun _ => False, fun s' => FSInv cfg s'.fs⟩) ?_ ?_ (fun _ _ h => h)
    (fun _ h => h) (fun _ h => h)
  · refine wp_call ?_ ?_ (fun r hr => ⟨h, rfl, .inl ⟨r, hr⟩⟩) (fun r _ => h.1)
    · intro a fs he
      split at he
      · cases he
      · have hres : ∀ fs', fs' = { s.fs with target := some (.file content) } → SInv cfg { s with fs := fs' } ∧ s.mem = s.mem ∧
            fs'.target = some (.file content) := by
          rintro fs' rfl
          refine ⟨⟨⟨h.1.nodup, h.1.work, ?_⟩, h.2.fs (fun i _ => .inl (by simp)) (fun _ => by simp)⟩, rfl, rfl⟩
          intro t ht
          simp only [Option.some.injEq] at ht
          subst ht
          exact ⟨hf, _, hcont, h1⟩
        split at he
        · cases he
        · simp only [Option.some.injEq, Prod.mk.injEq, true_and] at he
          exact hres fs he.symm
    · intro he
      refine ⟨h, rfl, .inr ?_⟩
      split at he
      · rename_i ht; exact .inl ht
      · split at he
        · rename_i ht; exact .inr (.inr (.inl (by rw [ht]; simp)))
        · cases he
  · rintro _ s1 ⟨hs1, hm1, ht1⟩
    refine wp_finish hs1 hm1 hc ?_ hall
    rw [ht1, finished, if_pos hf, h1]

theorem W_of_coalesced {s : Sys} (h : SInv cfg s) (htn : s.fs.target = none) (hall : ∀ p ∈ s.mem.pieces, p.coalesced = true) :
    ∀ i, i < cfg.info.pieces.length → W s.fs i (dataOf s.fs i) := by
  intro i hi
  have hi' : i < s.mem.pieces.length := by rw [h.2.len]; exact hi
  have hp := List.getElem?_eq_getElem hi'
  have hcp := hall _ (List.getElem_mem hi')
  obtain ⟨_, _, hd⟩ := (h.2.piece i _ hp).done hcp
  rcases hd with hd | ⟨l, d, h3, h4⟩
  · exact absurd htn hd
  · have hw : W s.fs i d := ⟨l, h3, h4⟩
    rw [hw.dataOf]; exact hw

theorem wp_coalesceMulti {s : Sys} (h : SInv cfg s) (hf : cfg.info.files ≠ []) (hc : s.mem.coalesced = false)
    (hall : ∀ p ∈ s.mem.pieces, p.coalesced = true) : wp A (coalesceMulti cfg) (assembled A cfg s) s := by
  unfold coalesceMulti
  refine wp_rof wp_temp_rof (fun _ _ => ?_) (fun hr _ => ⟨h, rfl, .inl hr⟩) h.1
  refine wp_rob wp_createTemp (fun _ _ => ?_) (fun hr _ => ⟨h, rfl, hr.imp id fun hr => .inr (.inl hr)⟩) h.1
  refine wp_rob (wp_writeFiles _ _ _ _) ?_ ?_ h.1
  rotate_left
  · intro hr _
    refine ⟨h, rfl, hr.imp id ?_⟩
    rintro (⟨i, g1, g2⟩ | g | g)
    · exact .inr (.inr (.inr (.inl ⟨i, List.mem_range.mp g1, g2⟩)))
    · exact .inr (.inr (.inr (.inr (.inl g))))
    · exact .inr (.inr (.inr (.inr (.inr (by simpa using g)))))
  rintro files ⟨h1, h2⟩
  simp only [List.nil_append] at h1 h2
  refine wp_seq (Q1 := ⟨fun _ s' => SInv cfg s' ∧ s'.mem = s.mem ∧ s'.fs.target = some (.dir files),
    fun _ s' => SInv cfg s' ∧ s'.mem = s.mem ∧ ((∃ r, A (.fail r)) ∨ Blocked cfg s.fs), fun _ => False, fun s' => FSInv cfg s'.fs⟩) ?_ ?_ (fun _ _ h => h)
    (fun _ h => h) (fun _ h => h)
  · refine wp_call ?_ ?_ (fun r hr => ⟨h, rfl, .inl ⟨r, hr⟩⟩) (fun r _ => h.1)
    · intro a fs he
      split at he
      · cases he
      · have hres : s.fs.target = none → ∀ fs', fs' = { s.fs with target := some (.dir files) } →
            SInv cfg { s with fs := fs' } ∧ s.mem = s.mem ∧ fs'.target = some (.dir files) := by
          rintro htn fs' rfl
          refine ⟨⟨⟨h.1.nodup, h.1.work, ?_⟩, h.2.fs (fun i _ => .inl (by simp)) (fun _ => by simp)⟩, rfl, rfl⟩
          intro t ht
          simp only [Option.some.injEq] at ht
          subst ht
          refine ⟨?_, hf, (List.range cfg.info.pieces.length).map (dataOf s.fs), contents_of_W h.1 (W_of_coalesced h htn hall), h2, ?_⟩
          · rw [h1]; exact place_ne_nil _ _ _ (.inr hf)
          · rw [h1]
            exact place_tree _ _
        cases ht : s.fs.target with
        | none =>
          simp only [ht, Option.some.injEq, Prod.mk.injEq, true_and] at he
          exact hres ht fs he.symm
        | some t =>
          cases t with
          | file c => simp [ht] at he
          | dir l =>
            have := (h.1.target _ ht).1
            cases l with
            | nil => exact absurd rfl this
            | cons x l => simp [ht] at he
    · intro he
      refine ⟨h, rfl, .inr ?_⟩
      split at he
      · rename_i ht; exact .inl ht
      · refine .inr (.inr (.inl ?_))
        intro ht
        simp [ht] at he
  · rintro _ s1 ⟨hs1, hm1, ht1⟩
    refine wp_finish hs1 hm1 hc ?_ hall
    rw [ht1, finished, if_neg hf, h1]

theorem wp_coalescePieces {s : Sys} (h : SInv cfg s) (hc : s.mem.coalesced = false) :
    wp A (coalescePieces cfg) ⟨fun _ s' => SInv cfg s' ∧ ((s' = s ∧ ∃ p ∈ s.mem.pieces, p.coalesced = false) ∨
        ((∀ p ∈ s.mem.pieces, p.coalesced = true) ∧ (assembled A cfg s).ok () s')),
      fun e s' => (∀ p ∈ s.mem.pieces, p.coalesced = true) ∧ (assembled A cfg s).err e s', fun _ => False, fun s' => FSInv cfg s'.fs⟩ s := by
  unfold coalescePieces
  refine wp_bind (wp_getMem ?_)
  show wp A _ _ s
  by_cases hn : s.mem.completePieces = (s.mem.pieces.length : Int)
  · have hall := all_coalesced h hn
    simp only [hn, ne_eq, not_true, if_false]
    by_cases hf : cfg.info.files = []
    · simp only [hf, not_true, if_false]
      exact wp_mono (wp_coalesceSingle h hf hc hall) (fun _ s' hs => ⟨hs.1, .inr ⟨hall, hs⟩⟩) (fun _ _ h => ⟨hall, h⟩) (fun _ h => h) (fun _ h => h)
    · simp only [hf, not_false_eq_true, if_true]
      exact wp_mono (wp_coalesceMulti h hf hc hall) (fun _ s' hs => ⟨hs.1, .inr ⟨hall, hs⟩⟩) (fun _ _ h => ⟨hall, h⟩) (fun _ h => h) (fun _ h => h)
  · simp only [hn, ne_eq, not_false_eq_true, if_true]
    refine wp_pure ⟨h, .inl ⟨rfl, ?_⟩⟩
    refine Classical.byContradiction fun hno => hn ?_
    rw [h.2.count]
    congr 1
    refine List.countP_eq_length.mpr fun p hp => ?_
    cases hpc : p.coalesced with
    | true => rfl
    | false => exact absurd ⟨p, hp, hpc⟩ hno

/-! ### PutBlock -/

/-- `i`'s block `k` is missing. -/
theorem wp_coalesceBlocks {s : Sys} (h : SInv cfg s) {i : Nat} {p : Piece} {bs : List (Option Bytes)}
    (hp : s.mem.pieces[i]? = some p) (hc : p.coalesced = false) (hb : p.blocks = some bs) (hne : bs ≠ [])
    (hfut : s.mem.futs[p.fut]? = some none) :
    wp A (coalesceBlocks cfg i) ⟨fun _ s' => SInv cfg s' ∧ s'.mem.coalesced = s.mem.coalesced ∧
        ((s' = s ∧ present bs ≠ bs.length) ∨ (present bs = bs.length ∧ ∃ d, joinBlocks bs = some d ∧ Verified cfg.sha1 cfg.info i d ∧
          s'.fs = { s.fs with work := some (store (pieceName i) d (s.fs.work.getD [])) } ∧
          s'.mem.pieces = s.mem.pieces.set i { p with coalesced := true, blocks := none } ∧
          s'.mem.futs = s.mem.futs.set p.fut (some none))),
      fun e s' => SInv cfg s' ∧ s'.mem = s.mem ∧ present bs = bs.length ∧ ((∃ r, A (.fail r)) ∨
        e = .checksum ∧ s'.fs = s.fs ∧ ∃ d, joinBlocks bs = some d ∧ ¬ Verified cfg.sha1 cfg.info i d),
      fun _ => False, fun s' => FSInv cfg s'.fs⟩ s := by
  obtain ⟨hlen, hcb, hgrid, _⟩ := (h.2.piece i p hp).blocks hc bs hb
  unfold coalesceBlocks
  refine wp_bind (wp_getPiece ?_ ?_)
  · intro j q hj hq
    have : i = j := by omega
    subst this
    rw [hp] at hq; cases hq
    show wp A _ _ s
    dsimp only
    have hcond : (p.completeBlocks ≠ ((p.blocks.getD []).length : Int)) ↔ present bs ≠ bs.length := by
      rw [hb, Option.getD_some, hcb]; omega
    simp only [hcond]
    rw [hb, Option.getD_some]
    by_cases hn : present bs = bs.length
    · have hall := present_full hn
      obtain ⟨data, hdata⟩ := joinBlocks_some hall
      have hdl := joinBlocks_length (by rw [hlen, numBlocks_eq]) hne hgrid hdata
      rw [if_neg (fun e => e hn)]
      refine wp_rof wp_temp_rof (fun _ _ => ?_) (fun hr _ => ⟨h, rfl, hn, .inl hr⟩) h.1
      refine wp_rof wp_temp_rof (fun _ _ => ?_) (fun hr _ => ⟨h, rfl, hn, .inl hr⟩) h.1
      rw [hdata]
      refine wp_rof wp_temp_rof (fun _ _ => ?_) (fun hr _ => ⟨h, rfl, hn, .inl hr⟩) h.1
      by_cases hv : cfg.info.pieces[i]? = some (cfg.sha1 data)
      · rw [if_neg (by simp [hv])]
        refine wp_seq (wp_mkWork h) ?_ (fun _ _ h => ⟨h.1, h.2.1, hn, .inl h.2.2⟩) (fun _ h => h) (fun _ h => h)
        rintro _ s1 ⟨hs1, hm1, ht1, hw1⟩
        refine wp_seq (wp_renamePiece hs1 ⟨_, hw1⟩ hv hdl) ?_ (fun _ _ h => ⟨h.1, h.2.1.trans hm1, hn, .inl h.2.2⟩) (fun _ h => h) (fun _ h => h)
        rintro _ s2 ⟨hs2, hm2, ht2, hd2, l, hl1, hl2⟩
        rw [hw1] at hl1
        cases hl1
        have hm : s2.mem = s.mem := hm2.trans hm1
        refine wp_mono (wp_completePiece hs2 (by rw [hm]; exact hp) (by rw [hm]; exact hfut) hd2) ?_ (fun _ _ h => h.elim) (fun _ h => h) (fun _ h => h.elim)
        · rintro _ s3 ⟨h1, h2, h3, h4, h5, h6, h7⟩
          refine ⟨h1, by rw [h3, hm], .inr ⟨hn, data, rfl, hv, ?_, by rw [h6, hm], by rw [h7.1, hm]⟩⟩
          have e1 : s2.fs = ⟨s2.fs.target, s2.fs.work⟩ := rfl
          rw [h2, e1, ht2, ht1, hl2]
      · rw [if_pos (fun e => hv e.symm)]
        exact wp_fail ⟨h, rfl, hn, .inr ⟨rfl, rfl, data, rfl, hv⟩⟩
    · rw [if_pos hn]
      exact wp_pure ⟨h, rfl, .inl ⟨rfl, hn⟩⟩
  · intro hor
    have hi : i < s.mem.pieces.length := (List.getElem?_eq_some_iff.mp hp).1
    exfalso; omega

theorem countP_set_same {α : Type} (f : α → Bool) {l : List α} {i : Nat} {a b : α} (h : l[i]? = some a) (ha : f a = f b) :
    (l.set i b).countP f = l.countP f := by
  induction l generalizing i with
  | nil => simp at h
  | cons x l ih =>
    cases i with
    | zero => simp at h; subst h; simp [List.countP_cons, ha]
    | succ i => simp only [List.getElem?_cons_succ] at h; simp only [List.set_cons_succ, List.countP_cons, ih h]

/-- The memory with an incomplete piece `i` replaced by another incomplete one, its future being the same or a new one. -/
theorem MemInv.update {fs : FS} {m m' : Mem} (h : MemInv cfg fs m) {i : Nat} {p q : Piece} (hp : m.pieces[i]? = some p)
    (hc : p.coalesced = false) (hqc : q.coalesced = false)
    (e1 : m'.pieces = m.pieces.set i q) (e2 : m'.bitfield = m.bitfield) (e3 : m'.completePieces = m.completePieces)
    (e4 : m'.coalesced = m.coalesced) (e5 : m'.err = m.err) (hlen : m.futs.length ≤ m'.futs.length)
    (hfut : ∀ id, id < m.futs.length → id ≠ p.fut → m'.futs[id]? = m.futs[id]?)
    (hqf : q.fut = p.fut ∨ m.futs.length ≤ q.fut) (hq : PieceInv cfg.info fs m'.futs i q) :
    MemInv cfg fs m' := by
  have hi : i < m.pieces.length := (List.getElem?_eq_some_iff.mp hp).1
  have hget : ∀ (j : Nat) (r : Piece), m'.pieces[j]? = some r → (j = i ∧ r = q) ∨ (j ≠ i ∧ m.pieces[j]? = some r) := by
    intro j r hr
    rw [e1, List.getElem?_set] at hr
    by_cases hj : i = j
    · rw [if_pos hj, if_pos hi] at hr; simp at hr; exact .inl ⟨hj.symm, hr.symm⟩
    · rw [if_neg hj] at hr; exact .inr ⟨fun e => hj e.symm, hr⟩
  have herr : m.err < m.futs.length := (List.getElem?_eq_some_iff.mp h.errFut).1
  constructor
  · rw [e1, List.length_set]; exact h.len
  · intro j r hr
    rcases hget j r hr with ⟨rfl, rfl⟩ | ⟨hj, hr'⟩
    · exact hq
    · have hP := h.piece j r hr'
      have hne : r.fut ≠ p.fut := fun e => hj (h.inj _ _ _ _ hr' hp e)
      have hf := hfut r.fut hP.futLt hne
      refine ⟨by have := hP.futLt; omega, ?_, ?_, ?_, ?_⟩
      · rw [hf]; exact hP.done
      · rw [hf]; exact hP.open_
      · rw [hf]; exact hP.noBlocks
      · rw [hf]; exact hP.blocks
  · intro j k r t hr ht e
    rcases hget j r hr with ⟨rfl, rfl⟩ | ⟨hj, hr'⟩ <;> rcases hget k t ht with ⟨rfl, rfl⟩ | ⟨hk, ht'⟩
    · rfl
    · rcases hqf with hqf | hqf
      · exact h.inj _ _ _ _ hp ht' (hqf.symm.trans e)
      · have := (h.piece k t ht').futLt; omega
    · rcases hqf with hqf | hqf
      · exact h.inj _ _ _ _ hr' hp (e.trans hqf)
      · have := (h.piece j r hr').futLt; omega
    · exact h.inj _ _ _ _ hr' ht' e
  · intro j r hr
    rw [e5]
    rcases hget j r hr with ⟨rfl, rfl⟩ | ⟨hj, hr'⟩
    · rcases hqf with hqf | hqf
      · rw [hqf]; exact h.errNe _ _ hp
      · omega
    · exact h.errNe _ _ hr'
  · rw [e4, e5, hfut _ herr (fun e => h.errNe _ _ hp e.symm)]; exact h.errFut
  · rw [e3, h.count, e1, countP_set_same _ hp (by rw [hc, hqc])]
  · rw [e2]; exact h.bfLen
  · intro j
    rw [e2, h.bf, e1, List.getElem?_set]
    by_cases hj : i = j
    · subst hj
      simp only [if_true, if_pos hi, hp]
      simp [hc, hqc]
    · simp [hj]
  · intro hco
    rw [e4] at hco
    have := (h.all hco).2 p (List.mem_of_getElem? hp)
    rw [hc] at this; cases this

/-- The block at `begin_` belongs to piece `index`. -/
def OnGrid (info : Info) (index begin_ : Int) : Prop :=
  0 ≤ index ∧ index < info.pieces.length ∧ 0 ≤ begin_ ∧ begin_ < info.getPieceLength index

theorem checkBlockSize_eq (info : Info) (index begin_ len : Int) : checkBlockSize info index begin_ len =
    if begin_.tmod 16384 ≠ 0 then .err .misaligned else
    if (if begin_ = 16384 * (info.getPieceLength index).tdiv 16384 then info.getPieceLength index - begin_ else 16384) ≠ len
      then .err .blockLength else .ok () := rfl

theorem check_ok {info : Info} {index begin_ len : Int} (h : checkBlockSize info index begin_ len = .ok ()) (hb : 0 ≤ begin_) :
    begin_ = ((begin_.toNat / 16384 : Nat) : Int) * 16384 ∧ begin_.tdiv 16384 = ((begin_.toNat / 16384 : Nat) : Int) ∧
      len = gridLen (info.getPieceLength index) (begin_.toNat / 16384) := by
  rw [checkBlockSize_eq] at h
  by_cases hm : begin_.tmod 16384 ≠ 0
  · rw [if_pos hm] at h; cases h
  · rw [if_neg hm] at h
    simp only [ne_eq, Classical.not_not] at hm
    rw [Int.tmod_eq_emod_of_nonneg hb] at hm
    have h1 : begin_ = ((begin_.toNat / 16384 : Nat) : Int) * 16384 := by omega
    refine ⟨h1, ?_, ?_⟩
    · rw [Int.tdiv_eq_ediv_of_nonneg hb]; omega
    · by_cases he : (if begin_ = 16384 * (info.getPieceLength index).tdiv 16384 then info.getPieceLength index - begin_ else 16384) ≠ len
      · rw [if_pos he] at h; cases h
      · simp only [ne_eq, Classical.not_not] at he
        unfold gridLen
        rw [← he, ← h1]

theorem check_neg {info : Info} {index begin_ len : Int} (h : checkBlockSize info index begin_ len = .ok ()) (hb : begin_ < 0) :
    begin_.tdiv 16384 < 0 := by
  rw [checkBlockSize_eq] at h
  by_cases hm : begin_.tmod 16384 ≠ 0
  · rw [if_pos hm] at h; cases h
  · have := Int.mul_tdiv_add_tmod begin_ 16384
    omega

/-- The blocks of a piece, allocated if they were not. -/
def blocksOf (info : Info) (i : Nat) (p : Piece) : List (Option Bytes) := p.blocks.getD (List.replicate (numBlocks info i).toNat none)

theorem present_replicate (n : Nat) : present (List.replicate n none) = 0 := by
  unfold present
  rw [List.countP_eq_zero]
  intro x hx
  rw [(List.mem_replicate.mp hx).2]
  simp

theorem blocksOf_inv {fs : FS} {futs : List (Option (Option Err))} {i : Nat} {p : Piece} (h : PieceInv cfg.info fs futs i p)
    (hc : p.coalesced = false) (hn : p.blocks = none → 0 ≤ numBlocks cfg.info i) :
    PieceInv cfg.info fs futs i { p with blocks := some (blocksOf cfg.info i p) } := by
  refine ⟨h.futLt, ?_, h.open_, ?_, ?_⟩
  · intro e; simp only at e; rw [hc] at e; cases e
  · intro _ e; cases e
  · intro _ bs hbs
    simp only [Option.some.injEq] at hbs
    subst hbs
    cases hb : p.blocks with
    | some bs =>
      have := h.blocks hc bs hb
      simpa [blocksOf, hb] using this
    | none =>
      obtain ⟨h1, h2⟩ := h.noBlocks hc hb
      have h3 := hn hb
      simp only [blocksOf, hb, Option.getD_none, List.length_replicate, present_replicate]
      refine ⟨by omega, by simpa using h1, ?_, ?_⟩
      · intro k b e
        have := List.mem_of_getElem? e
        have := (List.mem_replicate.mp this).2
        cases this
      · intro e; exact absurd h2 e

theorem wp_putBlockP {s : Sys} (h : SInv cfg s) {i : Nat} {p : Piece} (hp : s.mem.pieces[i]? = some p) {begin_ : Int} {data : Bytes}
    (hck : checkBlockSize cfg.info i begin_ data.length = .ok ()) :
    wp A (putBlockP cfg.info i p begin_ data) ⟨fun _ s' => SInv cfg s' ∧ p.coalesced = false ∧
        (blocksOf cfg.info i p)[begin_.toNat / 16384]? = some none ∧ s.mem.futs[p.fut]? = some none ∧
        s' = { s with mem := { s.mem with pieces := s.mem.pieces.set i { p with
          blocks := some ((blocksOf cfg.info i p).set (begin_.toNat / 16384) (some data)), completeBlocks := p.completeBlocks + 1 } } },
      fun e s' => SInv cfg s' ∧ e = .blockExists ∧ s' = s ∧ 
        (p.coalesced = false → ∃ b, (blocksOf cfg.info i p)[begin_.toNat / 16384]? = some (some b)),
      fun s' => s'.fs = s.fs ∧ ¬ OnGrid cfg.info i begin_, fun s' => FSInv cfg s'.fs⟩ s := by
  unfold putBlockP
  by_cases hc : p.coalesced = true
  · rw [if_pos hc]
    exact wp_fail ⟨h, rfl, rfl, fun e => by rw [hc] at e; cases e⟩
  · rw [if_neg hc]
    have hc : p.coalesced = false := by simpa using hc
    have hP := h.2.piece i p hp
    refine wp_seq (Q1 := ⟨fun bs s' => s' = s ∧ bs = blocksOf cfg.info i p ∧ (p.blocks = none → 0 ≤ numBlocks cfg.info i), fun _ _ => False,
      fun s' => s'.fs = s.fs ∧ ¬ OnGrid cfg.info i begin_, fun _ => False⟩) ?_ ?_ (fun _ _ h => h.elim) (fun _ h => h) (fun _ h => h.elim)
    · unfold allocBlocks
      cases hb : p.blocks with
      | some bs => exact wp_pure ⟨rfl, by simp [blocksOf, hb], by simp⟩
      | none =>
        dsimp only
        by_cases hn : numBlocks cfg.info i < 0
        · rw [if_pos hn]
          refine wp_panic ⟨rfl, ?_⟩
          rintro ⟨_, _, h1, h2⟩
          have hpl : 0 ≤ cfg.info.getPieceLength i := by omega
          unfold numBlocks blockLength at hn
          simp only [Int.tdiv_eq_ediv_of_nonneg hpl, Int.tmod_eq_emod_of_nonneg hpl] at hn
          split at hn <;> omega
        · rw [if_neg hn]
          exact wp_pure ⟨rfl, by simp [blocksOf, hb], fun _ => by omega⟩
    · rintro bs s0 ⟨hs0, rfl, hn⟩
      rw [hs0]
      clear hs0 s0
      refine wp_bind (wp_setPiece ?_)
      have hQ := blocksOf_inv hP hc hn
      have hpanic : begin_.tdiv 16384 < 0 ∨ (blocksOf cfg.info i p)[(begin_.tdiv 16384).toNat]? = none → ¬ OnGrid cfg.info i begin_ := by
        rintro hor ⟨_, _, h1, h2⟩
        have hpl : 0 ≤ cfg.info.getPieceLength i := by omega
        obtain ⟨g1, g2, g3⟩ := check_ok hck h1
        obtain ⟨l1, _⟩ := hQ.blocks hc _ rfl
        unfold numBlocks blockLength at l1
        simp only [Int.tdiv_eq_ediv_of_nonneg hpl, Int.tmod_eq_emod_of_nonneg hpl] at l1
        rcases hor with hor | hor
        · omega
        · rw [List.getElem?_eq_none_iff, g2] at hor
          split at l1 <;> omega
      show wp A (if begin_.tdiv 16384 < 0 then Op.panic else match (blocksOf cfg.info i p)[(begin_.tdiv 16384).toNat]? with
          | none => Op.panic
          | some (some _) => Op.fail .blockExists
          | some none => setPiece i { p with blocks := some ((blocksOf cfg.info i p).set (begin_.tdiv 16384).toNat (some data)), completeBlocks := p.completeBlocks + 1 }) _ _
      by_cases hk : begin_.tdiv 16384 < 0
      · rw [if_pos hk]
        exact wp_panic ⟨rfl, hpanic (.inl hk)⟩
      · rw [if_neg hk]
        have hb0 : 0 ≤ begin_ := by
          refine Classical.byContradiction fun hb => hk (check_neg hck (by omega))
        obtain ⟨g1, g2, g3⟩ := check_ok hck hb0
        have hkk : (begin_.tdiv 16384).toNat = begin_.toNat / 16384 := by omega
        have hi : i < s.mem.pieces.length := (List.getElem?_eq_some_iff.mp hp).1
        cases hx : (blocksOf cfg.info i p)[(begin_.tdiv 16384).toNat]? with
        | none => exact wp_panic ⟨rfl, hpanic (.inr hx)⟩
        | some o =>
          rw [hkk] at hx
          cases o with
          | some b =>
            refine wp_fail ?_
            have hbl : p.blocks = some (blocksOf cfg.info i p) := by
              cases hb : p.blocks with
              | some bs => simp [blocksOf, hb]
              | none =>
                have := List.mem_of_getElem? hx
                rw [blocksOf, hb, Option.getD_none] at this
                have := (List.mem_replicate.mp this).2
                cases this
            have hset : s.mem.pieces.set i { p with blocks := some (blocksOf cfg.info i p) } = s.mem.pieces := by
              rw [← hbl]
              refine List.ext_getElem? fun j => ?_
              rw [List.getElem?_set]
              by_cases hj : i = j
              · subst hj; simp [hi]; rw [← Option.some_inj, ← hp]; simp [hi]
              · simp [hj]
            have hs : ({ s with mem := { s.mem with pieces := s.mem.pieces.set i { p with blocks := some (blocksOf cfg.info i p) } } } : Sys) = s := by
              rw [hset]
            rw [hs]
            exact ⟨h, rfl, rfl, fun _ => ⟨b, hx⟩⟩
          | none =>
            refine wp_setPiece ?_
            have hfut : s.mem.futs[p.fut]? = some none := by
              refine Classical.byContradiction fun hne => ?_
              exact (hQ.blocks hc _ rfl).2.2.2 hne _ (List.mem_of_getElem? hx) rfl
            rw [hkk]
            refine ⟨⟨h.1, h.2.update (q := { p with blocks := some ((blocksOf cfg.info i p).set (begin_.toNat / 16384) (some data)), completeBlocks := p.completeBlocks + 1 })
              hp hc hc ?_ rfl rfl rfl rfl (Nat.le_refl _) (fun _ _ _ => rfl) (.inl rfl) ?_⟩, hc, hx, hfut, ?_⟩
            · simp [List.set_set]
            · refine ⟨hP.futLt, ?_, hP.open_, ?_, ?_⟩
              · intro e; simp only at e; rw [hc] at e; cases e
              · intro _ e; cases e
              · intro _ bs hbs
                simp only [Option.some.injEq] at hbs
                subst hbs
                obtain ⟨l1, l2, l3, l4⟩ := hQ.blocks hc _ rfl
                refine ⟨by simpa using l1, ?_, ?_, ?_⟩
                · rw [present_set hx]; simp only at l2 ⊢; omega
                · intro k b hkb
                  rw [List.getElem?_set] at hkb
                  by_cases hk : begin_.toNat / 16384 = k
                  · rw [if_pos hk] at hkb
                    split at hkb
                    · simp at hkb; subst hkb; subst hk; exact g3
                    · cases hkb
                  · rw [if_neg hk] at hkb; exact l3 k b hkb
                · intro e; exact absurd hfut e
            · simp [List.set_set]

/-! ### The calls -/

theorem checkBlockSize_noPanic {info : Info} {index begin_ len : Int} : checkBlockSize info index begin_ len ≠ .panic := by
  rw [checkBlockSize_eq]
  by_cases h : begin_.tmod 16384 ≠ 0
  · rw [if_pos h]; simp
  · rw [if_neg h]
    by_cases h2 : (if begin_ = 16384 * (info.getPieceLength index).tdiv 16384 then info.getPieceLength index - begin_ else 16384) ≠ len
    · rw [if_pos h2]; simp
    · rw [if_neg h2]; simp

/-- What holds after a call, the worst being that the process is gone. `pan` is what a panic implies. -/
def after (cfg : Cfg) {α : Type} (ok : α → Sys → Prop) (pan : Prop) : Post α :=
  ⟨ok, fun _ s => SInv cfg s, fun s => FSInv cfg s.fs ∧ pan, fun s => FSInv cfg s.fs⟩

theorem wp_putBlock {s : Sys} (h : SInv cfg s) (index begin_ : Int) (data : Bytes) :
    wp A (putBlock cfg index begin_ data) (after cfg (fun _ s' => SInv cfg s') (¬ OnGrid cfg.info index begin_)) s := by
  unfold putBlock
  refine wp_bind (wp_lift ?_)
  cases hck : checkBlockSize cfg.info index begin_ data.length with
  | err e => exact h
  | panic => 
    exact absurd hck checkBlockSize_noPanic
  | ok u =>
    cases u
    show wp A _ _ s
    refine wp_bind (wp_getMem ?_)
    show wp A (if s.mem.coalesced = true then _ else _) _ s
    by_cases hco : s.mem.coalesced = true
    · rw [if_pos hco]; exact wp_fail h
    · rw [if_neg hco]
      have hco : s.mem.coalesced = false := by simpa using hco
      refine wp_bind (wp_getPiece ?_ ?_)
      · rintro i p rfl hp
        show wp A _ _ s
        dsimp only
        refine wp_seq (wp_putBlockP h hp hck) ?_ (fun _ _ h => h.1) ?_ (fun _ h => h)
        · rintro _ s1 ⟨hs1, hpc, hx, hfut, hs1e⟩
          have hi : i < s.mem.pieces.length := (List.getElem?_eq_some_iff.mp hp).1
          have hp1 : s1.mem.pieces[i]? = some { p with blocks := some ((blocksOf cfg.info i p).set (begin_.toNat / 16384) (some data)), completeBlocks := p.completeBlocks + 1 } := by
            rw [hs1e]; simp [hi]
          have hco1 : s1.mem.coalesced = false := by rw [hs1e]; exact hco
          have hfut1 : s1.mem.futs[p.fut]? = some none := by rw [hs1e]; exact hfut
          have hne : (blocksOf cfg.info i p).set (begin_.toNat / 16384) (some data) ≠ [] := by
            intro e
            have := congrArg List.length e
            have h2 := (List.getElem?_eq_some_iff.mp hx).1
            simp at this
            rw [this] at h2; simp at h2
          refine wp_seq (Q1 := ⟨fun _ s' => SInv cfg s' ∧ s'.mem.coalesced = false, fun _ s' => SInv cfg s', fun _ => False, fun s' => FSInv cfg s'.fs⟩)
            ?_ ?_ (fun _ _ h => h) (fun _ h => h.elim) (fun _ h => h)
          · refine wp_onErr (wp_mono (wp_coalesceBlocks hs1 hp1 hpc rfl hne hfut1) ?_ ?_ (fun _ h => h) (fun _ h => h))
            · rintro _ s2 ⟨h1, h2, _⟩; exact ⟨h1, h2.trans hco1⟩
            · rintro e s2 ⟨hs2, hm2, hfull, _⟩
              refine wp_bind (wp_getMem (wp_bind (wp_setMem (wp_deliver ?_ ?_))))
              · intro _
                have hp2 := hp1
                rw [← hm2] at hp2
                have hP2 := hs2.2.piece i _ hp2
                refine ⟨hs2.1, hs2.2.update (q := { p with blocks := some ((blocksOf cfg.info i p).set (begin_.toNat / 16384) (some data)), completeBlocks := p.completeBlocks + 1 }) hp2 hpc hpc ?_ rfl rfl rfl rfl (by simp) ?_ (.inl rfl) ?_⟩
                · simp only
                  refine List.ext_getElem? fun j => ?_
                  rw [List.getElem?_set]
                  by_cases hj : i = j
                  · subst hj; rw [if_pos rfl, hp2, if_pos (List.getElem?_eq_some_iff.mp hp2).1]
                  · rw [if_neg hj]
                · intro id _ hid
                  simp only at hid ⊢
                  rw [List.getElem?_set, if_neg (fun e => hid e.symm)]
                · have hl : p.fut < s2.mem.futs.length := hP2.futLt
                  refine ⟨by simpa using hl, ?_, ?_, ?_, ?_⟩
                  · intro e; simp only at e; rw [hpc] at e; cases e
                  · intro _; simp [hl]
                  · intro _ e; cases e
                  · intro _ bs hbs
                    obtain ⟨l1, l2, l3, _⟩ := hP2.blocks hpc bs hbs
                    simp only [Option.some.injEq] at hbs
                    subst hbs
                    exact ⟨l1, l2, l3, fun _ => present_full hfull⟩
              · intro hne
                refine hne ?_
                simp only [hm2]
                exact hfut1
          · rintro _ s2 ⟨hs2, hco2⟩
            exact wp_mono (wp_coalescePieces hs2 hco2) (fun _ _ h => h.1) (fun _ _ h => h.2.1) (fun _ h => h.elim) (fun _ h => h)
        · rintro s' ⟨h1, h2⟩; exact ⟨by rw [h1]; exact h.1, h2⟩
      · intro hor
        refine ⟨h.1, ?_⟩
        rintro ⟨h1, h2, _⟩
        rw [h.2.len] at hor
        omega

theorem wp_resetPiece {s : Sys} (h : SInv cfg s) (index : Int) :
    wp A (resetPiece index) (after cfg (fun _ s' => SInv cfg s' ∧ s'.fs = s.fs)
      (¬ ∃ (i : Nat) (p : Piece), index = i ∧ s.mem.pieces[i]? = some p ∧ s.mem.futs[p.fut]? = some none)) s := by
  unfold resetPiece
  refine wp_bind (wp_getPiece ?_ ?_)
  · rintro i p rfl hp
    show wp A _ _ s
    unfold resetP
    have hP := h.2.piece i p hp
    refine wp_bind (wp_deliver ?_ ?_)
    · intro hfut
      have hpc : p.coalesced = false := by
        cases hc : p.coalesced with
        | false => rfl
        | true => have := (hP.done hc).1; rw [hfut] at this; cases this
      refine wp_bind (wp_getMem (wp_bind (wp_setMem (wp_setPiece ?_))))
      refine ⟨⟨h.1, h.2.update (q := { p with fut := s.mem.futs.length, blocks := none, completeBlocks := 0 }) hp hpc hpc (by simp) rfl rfl rfl rfl (by simp) ?_ (.inr (Nat.le_refl _)) ?_⟩, rfl⟩
      · intro id hid hne
        simp only
        rw [List.getElem?_append_left (by simpa using hid), List.getElem?_set, if_neg (fun e => hne e.symm)]
      · refine ⟨by simp, ?_, ?_, ?_, ?_⟩
        · intro e; simp only at e; rw [hpc] at e; cases e
        · intro _; simp
        · intro _ _; simp
        · intro _ bs e; cases e
    · intro hne
      refine ⟨h.1, ?_⟩
      rintro ⟨j, q, e, hq, hf⟩
      have : i = j := by omega
      subst this
      rw [hp] at hq; cases hq
      exact hne hf
  · intro hor
    refine ⟨h.1, ?_⟩
    rintro ⟨j, q, e, hq, hf⟩
    have := (List.getElem?_eq_some_iff.mp hq).1
    omega

end Drip.Storage
