import Verif.Go

/-! # Specification: when a batching component sends what

Data is collected until one of three limits is reached: the number of writes, the age of the oldest
write, the size less one UDP datagram.  Then everything collected is sent as one batch. -/

namespace Spout.Spec

/-- What happens to the collected data. -/
inductive BOp where
  /-- data arrives at a time -/
  | write (data : Bytes) (t : Int)
  /-- the limits are checked -/
  | check (t : Int)
  /-- only the age limit is checked -/
  | checkAge (t : Int)

/-- The limits. -/
structure BLimits where
  count : Int
  age : Int
  size : Nat

/-- The bytes collected. -/
def bytesOf (p : List (Bytes × Int)) : Bytes := p.flatMap (·.1)

/-- The oldest write is at least `maxAge` old. -/
def oldEnough (maxAge t : Int) : List (Bytes × Int) → Bool
  | [] => false
  | x :: _ => decide (x.2 + maxAge ≤ t)

/-- The number of writes reaches the limit, or the size comes within 65536 bytes of its limit. -/
def full (c : BLimits) (p : List (Bytes × Int)) : Bool :=
  decide (c.count ≤ p.length) || decide (c.size ≤ (bytesOf p).length + 65536)

/-- The batches sent so far and the data collected since, with its times. -/
abbrev BState := List Bytes × List (Bytes × Int)

/-- Everything collected is sent. -/
def sendIf (due : Bool) (s : BState) : BState :=
  if bytesOf s.2 ≠ [] ∧ due = true then (s.1 ++ [bytesOf s.2], []) else s

/-- One step. -/
def bstep (c : BLimits) (s : BState) : BOp → BState
  | .write d t => (s.1, s.2 ++ [(d, t)])
  | .check t => sendIf (full c s.2 || oldEnough c.age t s.2) s
  | .checkAge t => sendIf (oldEnough c.age t s.2) s

/-- Any number of steps. -/
def brun (c : BLimits) (s : BState) (ops : List BOp) : BState := ops.foldl (bstep c) s

end Spout.Spec
