import Verif.Spec.Seeding
/-
Downloads from seeders that go on for ever, under fair scheduling.
-/

namespace Drip.Spec
open P2P

/-- A download from seeders that goes on for ever: `σ n` is the state at the moment `n`, and `ev n` is what happens then; `none`: a seeder joins. -/
structure Execution (cfg : Cfg) (X : List Bytes) (σ : Nat → State) (ev : Nat → Option (Event × Luck)) : Prop where
  start : Seeded cfg X (σ 0)
  next : ∀ n, match ev n with
    | some e => Honest X (σ n) e ∧ σ (n + 1) = step cfg (σ n) e
    | none => Joins cfg X (σ n) (σ (n + 1))

/-- What is possible from some moment on, without interruption, is done at some later moment. -/
def Weakly (possible done : Nat → Prop) : Prop := ∀ n, (∀ k, n ≤ k → possible k) → ∃ k, n ≤ k ∧ done k

/-- `e` happens at the moment `n`. -/
def Happens (ev : Nat → Option (Event × Luck)) (n : Nat) (e : Event) : Prop := ∃ l, ev n = some (e, l)

/-- A block of piece `i`, at `b` and of `l` bytes. -/
def Block (X : List Bytes) (i b l : Nat) : Prop := ∃ x, X[i]? = some x ∧ b % 16384 = 0 ∧ b < x.length ∧ l = min 16384 (x.length - b)

/-- The block has been asked for. -/
def Requested (c : Conn) (i b l : Nat) : Prop := PeerWire.request (i : Nat) (b : Nat) (l : Nat) ∈ c.sent

/-- The block has arrived. -/
def Arrived (X : List Bytes) (c : Conn) (i b l : Nat) : Prop := PeerWire.pieceMsg (i : Nat) (b : Nat) (((X.getD i []).drop b).take l) ∈ c.received

/-- Nothing is neglected for ever by the goroutines of the client. -/
structure Diligent (X : List Bytes) (σ : Nat → State) (ev : Nat → Option (Event × Luck)) : Prop where
  /-- a message that has been read is handled -/
  handles : ∀ r : Nat, Weakly (fun n => ∃ c msg, (σ n).peers[r]? = some c ∧ c.phase = .serving (some msg)) fun n => Happens ev n (.handle r)
  /-- a goroutine that is to request a piece from a peer does so -/
  selects : ∀ r : Nat, Weakly (fun n => r ∈ (σ n).toRequest) fun n => ∃ k, (σ n).toRequest[k]? = some r ∧ Happens ev n (.select k)
  /-- a goroutine that has found nothing to request tries again -/
  tries : ∀ r : Nat, Weakly (fun n => r ∈ (σ n).waiting) fun n => ∃ k, (σ n).waiting[k]? = some r ∧ Happens ev n (.again k true)
  /-- the download of a piece begins -/
  begins : ∀ r i : Nat, Weakly (fun n => ⟨r, i, .fresh⟩ ∈ (σ n).jobs) fun n => ∃ k, (σ n).jobs[k]? = some ⟨r, i, .fresh⟩ ∧ Happens ev n (.begin k)
  /-- while it runs, and all blocks that have been requested have arrived, another block is requested, successfully -/
  requests : ∀ r i : Nat, Weakly (fun n => ⟨r, i, .running⟩ ∈ (σ n).jobs ∧ ∃ c, (σ n).peers[r]? = some c ∧ (∃ b l, Block X i b l ∧ ¬ Requested c i b l) ∧
      ∀ b l, Block X i b l → Requested c i b l → Arrived X c i b l)
    fun n => ∃ c k b l luck, (σ n).peers[r]? = some c ∧ Block X i b l ∧ ¬ Requested c i b l ∧ (σ n).jobs[k]? = some ⟨r, i, .running⟩ ∧
      ev n = some (.request k ⟨i, b, l⟩, luck) ∧ luck.ok r = true
  /-- it ends when the piece is complete -/
  ends : ∀ r i : Nat, Weakly (fun n => ⟨r, i, .running⟩ ∈ (σ n).jobs ∧ canReturn (σ n) i .complete = true) fun n => ∃ k, (σ n).jobs[k]? = some ⟨r, i, .running⟩ ∧
    Happens ev n (.finish k .complete)
  /-- then another piece is to be requested from the peer -/
  hands : ∀ r i : Nat, Weakly (fun n => ⟨r, i, .over⟩ ∈ (σ n).jobs) fun n => ∃ k, (σ n).jobs[k]? = some ⟨r, i, .over⟩ ∧ Happens ev n (.hand k)

/-- Nothing is neglected for ever: neither by the goroutines of the client nor by the seeders. -/
structure Fair (X : List Bytes) (σ : Nat → State) (ev : Nat → Option (Event × Luck)) : Prop extends Diligent X σ ev where
  /-- a seeder answers what it is asked -/
  answers : ∀ (n r : Nat) (c : Conn) (i b l : Nat), (σ n).peers[r]? = some c → Requested c i b l → ∃ k, n ≤ k ∧ ∃ c', (σ k).peers[r]? = some c' ∧ Arrived X c' i b l

end Drip.Spec
