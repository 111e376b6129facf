import Verif.Model.Basic
/-
What a file name means (POSIX path resolution, without symbolic links). A place in the file system is the list of names
leading to it from the root.
-/

namespace Drip.Spec

/-- Does the name have a slash as its first byte? -/
def Absolute (path : Bytes) : Prop := path.head? = some 47
instance (path : Bytes) : Decidable (Absolute path) := inferInstanceAs (Decidable (_ = _))

/-- `names` are the parts of `path` between the slashes. -/
inductive Names : Bytes → List Bytes → Prop
  | last (p : Bytes) : 47 ∉ p → Names p [p]
  | more (p rest : Bytes) (ps : List Bytes) : 47 ∉ p → Names rest ps → Names (p ++ 47 :: rest) (p :: ps)

/-- Follow the names from a place. The parent of the root is the root. -/
inductive Walk : List Bytes → List Bytes → List Bytes → Prop
  | done (at_ : List Bytes) : Walk at_ [] at_
  | stay (at_ : List Bytes) (n : Bytes) (ns : List Bytes) (z : List Bytes) : n = b!"" ∨ n = b!"." → Walk at_ ns z → Walk at_ (n :: ns) z
  | up (at_ : List Bytes) (ns : List Bytes) (z : List Bytes) : Walk at_.dropLast ns z → Walk at_ (b!".." :: ns) z
  | down (at_ : List Bytes) (n : Bytes) (ns : List Bytes) (z : List Bytes) : n ≠ b!"" → n ≠ b!"." → n ≠ b!".." → Walk (at_ ++ [n]) ns z → Walk at_ (n :: ns) z

/-- In a process with working directory `cwd`, `path` leads to `z`. -/
def Leads (cwd : List Bytes) (path : Bytes) (z : List Bytes) : Prop :=
  ∃ ns, Names path ns ∧ Walk (if Absolute path then [] else cwd) ns z

/-- A name of a file: not empty, not `.` or `..`, no slash. -/
def PlainName (n : Bytes) : Prop := n ≠ b!"" ∧ n ≠ b!"." ∧ n ≠ b!".." ∧ 47 ∉ n

/-- `z` lies inside the directory `d`. -/
def Inside (d z : List Bytes) : Prop := ∃ n ns, z = d ++ n :: ns

/-- The steps down never run out when going up: starting `k` levels inside a directory, the names do not leave it. -/
def Stays : Nat → List Bytes → Prop
  | _, [] => True
  | k, n :: ns =>
    if n = b!"" ∨ n = b!"." then Stays k ns
    else if n = b!".." then 0 < k ∧ Stays (k - 1) ns
    else Stays (k + 1) ns

end Drip.Spec
