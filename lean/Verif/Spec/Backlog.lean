import Verif.Model.Backlog

/-! # Specification: the backlog of a subscription -/

namespace Spout.Backlog
open Spout

/-- The bytes of some messages. -/
def bytesOf (ms : List Bytes) : Nat := (ms.map List.length).sum

/-- The bytes waiting for subscription `i`: those of messages that have not yet been put into the queue of the workers. -/
def Proc.waiting (p : Proc) (i : Nat) : Nat := bytesOf (p.q.todo[i]?.getD [])

/-- … and that of the message of a call of the callback that has put its message into the queue but has not returned to the client's bookkeeping: at most one. -/
def Proc.load (p : Proc) (i : Nat) : Nat := p.waiting i + ((p.subs[i]?.bind NSub.counted).getD 0)

/-- All the bytes that wait in the process: in the client and in the queue. -/
def Proc.held (p : Proc) : Nat := (p.q.todo.map bytesOf).sum + bytesOf p.q.jobs

/-- `nats_max_pending_size` is in effect for subscription `i`. -/
def Proc.Limited (p : Proc) (i size : Nat) : Prop := ∃ b, p.subs[i]? = some b ∧ b.limits = ⟨-1, size⟩

/-- The messages that came for subscription `i`, those accepted, those dropped, and the number that the client reports as dropped. -/
def Proc.Counts (p : Proc) (i : Nat) (incoming accepted lost : List Bytes) (dropped : Int) : Prop :=
  ∃ b, p.subs[i]? = some b ∧ b.incoming = incoming ∧ p.q.arrived[i]? = some accepted ∧ b.lost = lost ∧ b.dropped = dropped

end Spout.Backlog
