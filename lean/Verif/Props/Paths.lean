import Mathlib.Data.List.Forall2
import Verif.Lemmas.Paths
import Verif.Model.KernelRfl
/-
C51: where the files of a torrent are created (/repo/storage/storage.go:324-362).
-/

namespace Drip.Paths
open Metainfo Spec

theorem walk_ups (d : List Bytes) (z : List Bytes) : walk d (List.replicate d.length b!".." ++ z) = walk [] z := by
  rw [walk_append]
  congr 1
  have : ∀ (n : Nat) (d : List Bytes), d.length = n → walk d (List.replicate n b!"..") = [] := by
    intro n
    induction n with
    | zero => intro d h; rw [List.length_eq_zero_iff] at h; subst h; rfl
    | succ n ih =>
      intro d h
      rw [List.replicate_succ]
      unfold walk
      rw [if_neg (by decide), if_pos rfl]
      exact ih _ (by rw [List.length_dropLast]; omega)
  exact this _ d rfl

/-- C51 is false: whatever the temporary directory, there are paths for every place in the file system. -/
theorem C51_anywhere_refuted (cwd d z : List Bytes) (temp : Bytes) (length : Int) (h : Leads cwd temp d) (ht : temp ≠ []) (hz : ∀ n ∈ z, PlainName n) :
    ∃ path, Leads cwd (created temp { length, path }) z := by
  refine ⟨List.replicate d.length b!".." ++ z, ?_⟩
  rw [leads_iff] at h ⊢
  unfold created
  rw [resolve_join _ _ ht, flatMap_plain, ← h, walk_ups, walk_plain hz]
  · rfl
  · intro n hn
    rcases List.mem_append.1 hn with hn | hn
    · rw [List.mem_replicate] at hn; rw [hn.2]; decide
    · exact (hz n hn).2.2.2

/-- C51 is false: one such path. -/
theorem C51_inside_refuted : Leads [] b!"/work/temp/x1" [b!"work", b!"temp", b!"x1"] ∧
    Leads [] (created b!"/work/temp/x1" { length := 1, path := [b!"..", b!"..", b!"..", b!"etc", b!"x"] }) [b!"etc", b!"x"] ∧
    ¬ Inside [b!"work", b!"temp", b!"x1"] [b!"etc", b!"x"] := by
  refine ⟨leads_iff.2 (by kernel_rfl), leads_iff.2 (by kernel_rfl), ?_⟩
  rintro ⟨n, ns, h⟩
  have := congrArg List.length h
  simp at this

/-- C51 (partial: paths made of plain names). The file is created in the temporary directory, in the place that its path describes. -/
theorem C51_inside_partial (cwd d : List Bytes) (temp : Bytes) (f : File) (h : Leads cwd temp d) (ht : temp ≠ []) (hf : f.path ≠ [])
    (hp : ∀ n ∈ f.path, PlainName n) : Leads cwd (created temp f) (d ++ f.path) ∧ Inside d (d ++ f.path) := by
  constructor
  · rw [leads_iff] at h ⊢
    unfold created
    rw [resolve_join _ _ ht, flatMap_plain (fun n hn => (hp n hn).2.2.2), ← h, walk_plain hp]
  · cases hq : f.path with
    | nil => exact absurd hq hf
    | cons n ns => exact ⟨n, ns, rfl⟩

/-- C51 (partial: paths that never climb above their start, whatever their elements contain). The file does not leave the temporary directory. -/
theorem C51_stays_partial (cwd d : List Bytes) (temp : Bytes) (f : File) (h : Leads cwd temp d) (ht : temp ≠ []) (nss : List (List Bytes))
    (hn : List.Forall₂ Names f.path nss) (hs : Stays 0 nss.flatten) : ∃ z, Leads cwd (created temp f) z ∧ (z = d ∨ Inside d z) := by
  have hfl : f.path.flatMap parts = nss.flatten := by
    clear hs
    generalize f.path = ps at hn
    induction hn with
    | nil => rfl
    | cons h1 _ ih => rw [List.flatMap_cons, List.flatten_cons, ih, names_parts.1 h1]

  rw [leads_iff] at h
  obtain ⟨k, hk⟩ := walk_stays d nss.flatten [] hs
  refine ⟨_, leads_iff.2 rfl, ?_⟩
  unfold created
  rw [resolve_join _ _ ht, hfl, ← h]
  rw [List.append_nil] at hk
  rw [hk]
  cases k with
  | nil => left; simp
  | cons n ns => right; exact ⟨n, ns, rfl⟩

/-- C51 (partial: plain names). The temporary directory then becomes the directory Name in the target directory, and its files are read from where they
have gone. -/
theorem C51_target_partial (cwd t : List Bytes) (targetDir : Bytes) (info : Info) (h : Leads cwd targetDir t) (ht : targetDir ≠ []) (hname : PlainName info.name) (f : File)
    (hp : ∀ n ∈ f.path, PlainName n) :
    Leads cwd (targetPath targetDir info) (t ++ [info.name]) ∧ Leads cwd (readPath targetDir info f) ((t ++ [info.name]) ++ f.path) := by
  rw [leads_iff] at h
  constructor
  · rw [leads_iff]
    unfold targetPath
    rw [resolve_join _ _ ht, flatMap_plain (by simpa using hname.2.2.2), ← h, walk_plain (by simpa using hname)]
  · rw [leads_iff]
    unfold readPath
    have hp' : ∀ n ∈ info.name :: f.path, PlainName n := by
      intro n hn
      rcases List.mem_cons.1 hn with rfl | hn
      · exact hname
      · exact hp n hn
    rw [resolve_join _ _ ht, flatMap_plain (fun n hn => (hp' n hn).2.2.2), ← h, walk_plain hp']
    simp

/-- Names can be relative, have double slashes and dots. -/
example : Leads [b!"home"] b!"./work//temp/x1" [b!"home", b!"work", b!"temp", b!"x1"] ∧ PlainName b!"a..b" ∧ PlainName b!"..." := by
  refine ⟨leads_iff.2 (by kernel_rfl), ?_, ?_⟩ <;> simp [PlainName]
example : created b!"./work//temp/x1" { length := 1, path := [b!"a", b!"b.txt"] } = b!"work/temp/x1/a/b.txt" := by kernel_rfl
example : List.Forall₂ Names [b!"a/b", b!"..", b!"c"] [[b!"a", b!"b"], [b!".."], [b!"c"]] ∧ Stays 0 [b!"a", b!"b", b!"..", b!"c"] := by
  refine ⟨.cons (names_parts.2 rfl) (.cons (names_parts.2 rfl) (.cons (names_parts.2 rfl) .nil)), ?_⟩
  simp [Stays]

end Drip.Paths
