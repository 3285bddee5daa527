/-! # Specification: happens-before by channels, and races on what is handed over

As in the Go memory model: an event happens before a later one of the same goroutine; the k-th send on a channel
happens before the k-th receive from that channel completes; and transitively.  (Ordering by mutexes, wait groups, atomics and the
start of goroutines is not used here, so fewer events are ordered than in Go.) -/

namespace Spout.Spec.Handover

/-- What a goroutine does: read or write the object `o` (a block of memory), send a reference to `o` on channel `c`, receive
a reference to `o` from `c`. -/
inductive Act (C : Type) where
  | rd (o : Nat)
  | wr (o : Nat)
  | send (c : C) (o : Nat)
  | recv (c : C) (o : Nat)
  deriving DecidableEq

/-- Goroutine `g` does `a`. -/
structure Ev (C : Type) where
  g : Nat
  a : Act C
  deriving DecidableEq

variable {C : Type} [DecidableEq C]

def isSend (c : C) (e : Ev C) : Bool := match e.a with
  | .send c' _ => decide (c' = c)
  | _ => false

def isRecv (c : C) (e : Ev C) : Bool := match e.a with
  | .recv c' _ => decide (c' = c)
  | _ => false

/-- The i-th event of the execution `t` happens before the j-th. -/
inductive HB (t : List (Ev C)) : Nat → Nat → Prop
  | program {i j : Nat} {a b : Ev C} : i < j → t[i]? = some a → t[j]? = some b → a.g = b.g → HB t i j
  | channel {i j : Nat} {a b : Ev C} (c : C) : i < j → t[i]? = some a → t[j]? = some b → isSend c a = true → isRecv c b = true →
      (t.take i).countP (isSend c) = (t.take j).countP (isRecv c) → HB t i j
  | trans {i j k : Nat} : HB t i j → HB t j k → HB t i k

/-- The object accessed. -/
def Act.obj : Act C → Option Nat
  | .rd o => some o
  | .wr o => some o
  | _ => none

/-- Two accesses to the same object, not both reads. -/
def Conflict (a b : Act C) : Prop :=
  ∃ o, a.obj = some o ∧ b.obj = some o ∧ ¬ (a = .rd o ∧ b = .rd o)

/-- No two conflicting accesses of different goroutines are unordered. -/
def RaceFree (t : List (Ev C)) : Prop :=
  ∀ (i j : Nat) (a b : Ev C), i < j → t[i]? = some a → t[j]? = some b → a.g ≠ b.g → Conflict a.a b.a → HB t i j

end Spout.Spec.Handover
