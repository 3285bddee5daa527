/-! # Specification: happens-before and data races

As in the Go memory model, for programs that start goroutines, use mutexes and atomic variables: an event happens
before another if it comes earlier in the same goroutine, if it starts the goroutine of the other, or if it is an unlock of
a mutex and the other a later lock of it; and transitively.  (Ordering by channels, wait groups and
atomics is not used, so fewer events are ordered than in Go.) -/

namespace Spout.Spec

/-- What a goroutine does: accesses to a memory location, operations on a mutex, starting goroutine `c`. -/
inductive Act (V M : Type) where
  | rd (v : V)
  | wr (v : V)
  | atom (v : V)
  | lock (m : M)
  | unlock (m : M)
  | go (c : Nat)
  deriving DecidableEq

/-- An event of an execution: goroutine `g` does `a`. -/
structure Ev (V M : Type) where
  g : Nat
  a : Act V M
  deriving DecidableEq

/-- The location accessed. -/
def Act.loc {V M : Type} : Act V M → Option V
  | .rd v => some v
  | .wr v => some v
  | .atom v => some v
  | _ => none

def Act.isRead {V M : Type} : Act V M → Prop
  | .rd _ => True
  | _ => False

def Act.isAtomic {V M : Type} : Act V M → Prop
  | .atom _ => True
  | _ => False

/-- Two accesses to the same location, not both reads and not both atomic. -/
def Conflict {V M : Type} (a b : Act V M) : Prop :=
  (∃ v, a.loc = some v ∧ b.loc = some v) ∧ ¬ (a.isRead ∧ b.isRead) ∧ ¬ (a.isAtomic ∧ b.isAtomic)

/-- The i-th event of the execution `t` happens before the j-th. -/
inductive HB {V M : Type} (t : List (Ev V M)) : Nat → Nat → Prop
  | program {i j : Nat} {a b : Ev V M} : i < j → t[i]? = some a → t[j]? = some b → a.g = b.g → HB t i j
  | start {i j : Nat} {a b : Ev V M} : i < j → t[i]? = some a → a.a = .go b.g → t[j]? = some b → HB t i j
  | mutex {i j : Nat} {a b : Ev V M} (m : M) : i < j → t[i]? = some a → a.a = .unlock m → t[j]? = some b → b.a = .lock m → HB t i j
  | trans {i j k : Nat} : HB t i j → HB t j k → HB t i k

/-- No two conflicting accesses of different goroutines are unordered. -/
def RaceFree {V M : Type} (t : List (Ev V M)) : Prop :=
  ∀ (i j : Nat) (a b : Ev V M), i < j → t[i]? = some a → t[j]? = some b → a.g ≠ b.g → Conflict a.a b.a → HB t i j

end Spout.Spec
