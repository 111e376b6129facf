import Verif.Lemmas.P2PConn
import Verif.Lemmas.Recommended
/-
Which addresses can be dialled.
-/

namespace Drip.P2P

theorem copyID_eq (id : Bytes) : copyID id = (id ++ List.replicate 20 0).take 20 := by
  unfold copyID
  rw [List.take_append, List.take_replicate]
  congr 2
  omega

theorem dialable_eq {tp : Tracker.Peer} {ip : Bytes} {port : Nat} (h : dialable tp = some (ip, port)) : Net.parseIP tp.ip = some ip ∧ tp.port = (port : Int) := by
  unfold dialable at h
  split at h
  · cases h
  · next hc =>
    rw [Option.map_eq_some_iff] at h
    obtain ⟨x, h1, h2⟩ := h
    cases h2
    simp only [not_or] at hc
    exact ⟨h1, by omega⟩

theorem decNat_colon (n : Nat) : 58 ∉ Spec.decNat n := by
  induction n using Nat.strongRecOn with
  | ind n ih =>
    rw [Spec.decNat]
    split
    · rename_i h
      simp only [List.mem_singleton]
      have : ∀ n < 10, (58 : UInt8) ≠ UInt8.ofNat (48 + n) := by decide
      exact this n h
    · rename_i h
      have : ∀ n < 10, (58 : UInt8) ≠ UInt8.ofNat (48 + n) := by decide
      have h1 := ih (n / 10) (by omega)
      have h2 := this (n % 10) (by omega)
      simp only [List.mem_append, List.mem_singleton, not_or]
      exact ⟨h1, h2⟩

theorem dotted_colon (a b c d : UInt8) : (Spec.dotted a b c d).contains 58 = false := by
  have := decNat_colon a.toNat
  have := decNat_colon b.toNat
  have := decNat_colon c.toNat
  have := decNat_colon d.toNat
  simp_all [Spec.dotted]

theorem ipString_mapped (a b c d : UInt8) : Net.ipString (Spec.mapped a b c d) = Spec.dotted a b c d :=
  ((Net.recommended_iff rfl _).1 .v4).symm

theorem dialable_dotted {tp : Tracker.Peer} {a b c d : UInt8} {port : Nat} (h : tp.ip = Spec.dotted a b c d) (hp : tp.port = (port : Int)) (hlt : port < 65536) :
    dialable tp = some (Spec.mapped a b c d, port) := by
  unfold dialable
  rw [if_neg (by rw [h, dotted_colon]; simp; omega), h, Net.parseIP_dotted, hp]
  rfl

end Drip.P2P
