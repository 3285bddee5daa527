import Verif.Model.Pool

/-! # Model of the messages waiting in the NATS client

A filter, writer or downsampler that is slower than its input lets messages wait in the NATS client.  The client keeps them in a
list for each subscription, calls the callback for one after the other, and drops a message that would exceed the limits of
the subscription: `processMsg`, `waitForMsgs`, `SetPendingLimits` and `Dropped` of nats.go v1.10.0 (go.mod:10),
which is not in /repo.  The limits are set in filter/filter.go:101, writer/writer.go:106 and downsampler/downsampler.go:79, 90,
after subscribing; the callbacks put the messages into the queue of `Model/Pool.lean`. -/

namespace Spout.Backlog
open Spout Spout.Pool

/-- `int(c.NATSMaxPendingSize.Bytes())` of the `uint64` that is configured. filter/filter.go:101, writer/writer.go:106, downsampler/downsampler.go:79. -/
def pendingLimit (size : Nat) : Int := wrap64 size

/-- The limits of a subscription: of the number of messages and of their bytes. nats.go, not in /repo. -/
structure Limits where
  msgs : Int
  bytes : Int
  deriving DecidableEq, Repr

/-- The check in `processMsg`: a limit that is not positive is none. nats.go, not in /repo. -/
def Limits.exceeded (l : Limits) (msgs bytes : Int) : Bool := (decide (0 < l.msgs) && decide (l.msgs < msgs)) || (decide (0 < l.bytes) && decide (l.bytes < bytes))

/-- `SetPendingLimits`: zero is refused with an error. nats.go, not in /repo. -/
def setPendingLimits (msgs bytes : Int) : Option Limits := if msgs = 0 ∨ bytes = 0 then none else some ⟨msgs, bytes⟩

/-- `SetPendingLimits(-1, int(c.NATSMaxPendingSize.Bytes()))`; on `none` the component does not start. filter/filter.go:101, writer/writer.go:106, downsampler/downsampler.go:90. -/
def configuredLimits (size : Nat) : Option Limits := setPendingLimits (-1) (pendingLimit size)

/-- A subscription in the NATS client.  The list of its messages is `todo` of the queue, the first of it is in the callback if `calling`. nats.go, not in /repo;
filter/filter.go:92-97, writer/writer.go:94-100, downsampler/downsampler.go:84-86. -/
structure NSub where
  limits : Limits
  /-- the callback is running -/
  calling : Bool
  /-- the length of the message of the last call, until it is subtracted -/
  counted : Option Nat
  pMsgs : Int
  pBytes : Int
  /-- what `Dropped` returns -/
  dropped : Int
  /-- the messages that came from the server, in order, and those of them that were dropped (ghosts) -/
  incoming : List Bytes
  lost : List Bytes
  deriving DecidableEq, Repr

/-- A component: its subscriptions and the queue. filter/filter.go:69-103, writer/writer.go:83-110, downsampler/downsampler.go:80-94. -/
structure Proc where
  subs : List NSub
  q : Pool
  deriving DecidableEq, Repr

/-- Right after subscribing, with the client's default limits. filter/filter.go:92, writer/writer.go:94, 98, downsampler/downsampler.go:84. -/
def start (l0 : Limits) (subs workers : Nat) : Proc := ⟨List.replicate subs ⟨l0, false, none, 0, 0, 0, [], []⟩, Pool.start subs workers⟩

/-- A message has come in. nats.go, not in /repo. -/
def NSub.receive (b : NSub) (m : Bytes) : NSub := { b with pMsgs := b.pMsgs + 1, pBytes := b.pBytes + m.length, incoming := b.incoming ++ [m] }

/-- It is dropped, "Undo stats from above". nats.go, not in /repo. -/
def NSub.drop (b : NSub) (m : Bytes) : NSub := { b with dropped := b.dropped + 1, incoming := b.incoming ++ [m], lost := b.lost ++ [m] }

/-- A step of a component whose `nats_max_pending_size` is `size`. nats.go, not in /repo; filter/filter.go:92-103, writer/writer.go:94-108, downsampler/downsampler.go:84-92. -/
inductive Step (size : Nat) : Proc → Proc → Prop
  /-- a message comes in and is put at the end of the list -/
  | receive (p : Proc) (i : Nat) (b : NSub) (as ms : List Bytes) (m : Bytes) (hb : p.subs[i]? = some b) (ha : p.q.arrived[i]? = some as) (ht : p.q.todo[i]? = some ms)
      (hl : b.limits.exceeded (b.receive m).pMsgs (b.receive m).pBytes = false) :
      Step size p ⟨p.subs.set i (b.receive m), { p.q with arrived := p.q.arrived.set i (as ++ [m]), todo := p.q.todo.set i (ms ++ [m]) }⟩
  /-- a message comes in and is dropped -/
  | drop (p : Proc) (i : Nat) (b : NSub) (m : Bytes) (hb : p.subs[i]? = some b) (hl : b.limits.exceeded (b.receive m).pMsgs (b.receive m).pBytes = true) :
      Step size p ⟨p.subs.set i (b.drop m), p.q⟩
  /-- the callback is called with the first message -/
  | call (p : Proc) (i : Nat) (b : NSub) (m : Bytes) (ms : List Bytes) (hb : p.subs[i]? = some b) (hc : b.calling = false) (ha : b.counted = none) (ht : p.q.todo[i]? = some (m :: ms)) :
      Step size p ⟨p.subs.set i { b with calling := true }, p.q⟩
  /-- `jobs <- msg` in the callback, which then returns -/
  | push (p : Proc) (i : Nat) (b : NSub) (m : Bytes) (ms : List Bytes) (hb : p.subs[i]? = some b) (hc : b.calling = true) (ht : p.q.todo[i]? = some (m :: ms))
      (hj : p.q.jobs.length < capacity) :
      Step size p ⟨p.subs.set i { b with calling := false, counted := some m.length }, { p.q with todo := p.q.todo.set i ms, jobs := p.q.jobs ++ [m] }⟩
  /-- the message of the last call is subtracted -/
  | account (p : Proc) (i : Nat) (b : NSub) (n : Nat) (hb : p.subs[i]? = some b) (hc : b.counted = some n) :
      Step size p ⟨p.subs.set i { b with pMsgs := b.pMsgs - 1, pBytes := b.pBytes - n, counted := none }, p.q⟩
  /-- the limits are set -/
  | limits (p : Proc) (i : Nat) (b : NSub) (l : Limits) (hb : p.subs[i]? = some b) (hl : configuredLimits size = some l) :
      Step size p ⟨p.subs.set i { b with limits := l }, p.q⟩
  /-- a worker receives a message, `Stop`, a worker ends -/
  | other (p : Proc) (q' : Pool) (h : Pool.Step p.q q') (ha : q'.arrived = p.q.arrived) (ht : q'.todo = p.q.todo) : Step size p ⟨p.subs, q'⟩

/-- Any schedule. Go semantics. -/
inductive Run (size : Nat) (p0 : Proc) : Proc → Prop
  | refl : Run size p0 p0
  | step {p p' : Proc} : Run size p0 p → Step size p p' → Run size p0 p'

end Spout.Backlog
