import Verif.Go

/-! # Model of the queue between NATS and the workers

A filter or writer has one channel of 1024 messages between the callbacks of its NATS
subscriptions and its workers (filter/filter.go:69-84, 90-95, filter/worker.go:78-85,
writer/writer.go:84-105, 169-182); a downsampler has one such channel for each subscription, with one
worker (downsampler/downsampler.go:80-87, 144-179).  NATS calls the callback of a subscription for
one message after the other, in the order of arrival; what a worker does with a message is modelled
elsewhere. -/

namespace Spout.Pool

/-- The queue and those around it. filter/filter.go:70-97, writer/writer.go:83-110, downsampler/downsampler.go:80-94. -/
structure Pool where
  /-- for each subscription, the messages that have arrived, in order (ghost) -/
  arrived : List (List Bytes)
  /-- for each subscription, the messages that have arrived and are not yet in the channel -/
  todo : List (List Bytes)
  /-- the channel `jobs` -/
  jobs : List Bytes
  /-- for each worker, the messages it has received, in order -/
  got : List (List Bytes)
  /-- the workers that have not returned -/
  live : List Bool
  /-- the channel `stop` is closed -/
  stop : Bool
  deriving DecidableEq, Repr

/-- `make(chan …, 1024)`: filter/filter.go:69, writer/writer.go:84, downsampler/downsampler.go:81. -/
def capacity : Nat := 1024

/-- `subs` subscriptions and `workers` workers. filter/filter.go:70-97, writer/writer.go:83-110, downsampler/downsampler.go:80-94. -/
def start (subs workers : Nat) : Pool :=
  ⟨List.replicate subs [], List.replicate subs [], [], List.replicate workers [], List.replicate workers true, false⟩

/-- A step of some goroutine. filter/filter.go:92-97, filter/worker.go:78-85; writer/writer.go:94-100, 168-181; downsampler/downsampler.go:84-86, 145-162. -/
inductive Step : Pool → Pool → Prop
  /-- a message arrives for subscription `i` -/
  | arrive (s : Pool) (i : Nat) (as ms : List Bytes) (m : Bytes) (ha : s.arrived[i]? = some as) (h : s.todo[i]? = some ms) :
      Step s { s with arrived := s.arrived.set i (as ++ [m]), todo := s.todo.set i (ms ++ [m]) }
  /-- `jobs <- msg` in the callback of subscription `i`: possible if there is room -/
  | push (s : Pool) (i : Nat) (m : Bytes) (ms : List Bytes) (h : s.todo[i]? = some (m :: ms))
      (hc : s.jobs.length < capacity) : Step s { s with todo := s.todo.set i ms, jobs := s.jobs ++ [m] }
  /-- worker `w` receives from the channel -/
  | pop (s : Pool) (w : Nat) (m : Bytes) (ms : List Bytes) (l : List Bytes) (hl : s.live[w]? = some true)
      (hj : s.jobs = m :: ms) (hg : s.got[w]? = some l) :
      Step s { s with jobs := ms, got := s.got.set w (l ++ [m]) }
  /-- `close(stop)` -/
  | close (s : Pool) (h : s.stop = false) : Step s { s with stop := true }
  /-- worker `w` sees that `stop` is closed and returns -/
  | quit (s : Pool) (w : Nat) (hl : s.live[w]? = some true) (hs : s.stop = true) :
      Step s { s with live := s.live.set w false }

/-- Any schedule. Go semantics. -/
inductive Run (s0 : Pool) : Pool → Prop
  | refl : Run s0 s0
  | step {s s' : Pool} : Run s0 s → Step s s' → Run s0 s'

end Spout.Pool
