import Verif.Spec.Handover

/-! # What the goroutines of a component hand over through channels

Messages and chunks are objects (blocks of bytes); a goroutine has variables that refer to objects.  A program says in which order a
goroutine creates objects, reads and writes what a variable refers to, and sends and receives references.  What the bytes are is left
out, so that every branch may go either way and every loop run any number of times. -/

namespace Spout.Handover
open Spec.Handover

/-- The variables used by the programs below.  `queue` and `kept` may refer to several objects. filter/worker.go:80, writer/writer.go:169, 192, 201, writer/retryworker.go:99-104, downsampler/downsampler.go:146. -/
inductive Var where
  | msg | chunk | buf | queue | kept | batch
  deriving DecidableEq

/-- The channels: `jobs` of a filter or writer (filter/filter.go:70, writer/writer.go:83), the `retryCh` of the i-th worker of a writer
(writer/writer.go:158), the `inputCh` of the i-th subject of a downsampler (downsampler/downsampler.go:81). -/
inductive Chan where
  | jobs | retry (i : Nat) | input (i : Nat)
  deriving DecidableEq

/-- `make x`: a new object, filled in, for `x`.  `rd x`, `wr x`: an access to an object that `x` refers to.  `send c x`: send what `x` refers to
(`x` still refers to it).  `recv c x`: receive into `x`.  `move x q`: add what `x` refers to to `q`, the end of the scope of `x`. Go statements of the functions cited below. Go semantics. -/
inductive Op where
  | make (x : Var)
  | rd (x : Var)
  | wr (x : Var)
  | send (c : Chan) (x : Var)
  | recv (c : Chan) (x : Var)
  | move (x q : Var)
  deriving DecidableEq

/-- A program: `alt` is a branch on something not modelled, `star` any number of iterations. Go statements of the functions cited below. Go semantics. -/
inductive Prog where
  | skip
  | op (o : Op)
  | seq (p q : Prog)
  | alt (p q : Prog)
  | star (p : Prog)

/-- The sequences of operations of a program. Go statements of the functions cited below. Go semantics. -/
inductive Words : Prog → List Op → Prop
  | skip : Words .skip []
  | op (o : Op) : Words (.op o) [o]
  | seq {p q : Prog} {a b : List Op} : Words p a → Words q b → Words (.seq p q) (a ++ b)
  | left {p q : Prog} {a : List Op} : Words p a → Words (.alt p q) a
  | right {p q : Prog} {a : List Op} : Words q a → Words (.alt p q) a
  | done {p : Prog} : Words (.star p) []
  | again {p : Prog} {a b : List Op} : Words p a → Words (.star p) b → Words (.star p) (a ++ b)

/-- A goroutine: what it has still to do, and the objects its variables refer to. The `go` statements: filter/filter.go:85, writer/writer.go:86, writer/retryworker.go:43, downsampler/downsampler.go:83. -/
structure Thread where
  code : List Op
  env : Var → List Nat

/-- The goroutines, the contents of the channels (oldest first; the capacity is left out, so that more executions are considered),
the number of objects made so far, and the execution so far. Go channels and goroutines. -/
structure St where
  threads : List Thread
  chans : Chan → List Nat
  objects : Nat
  trace : List (Ev Chan)

/-- `x` refers to the objects `l` now (Go assignment). -/
def setVar (env : Var → List Nat) (x : Var) (l : List Nat) : Var → List Nat := fun y => if y = x then l else env y
/-- The contents of a channel change (Go channels). -/
def setChan (h : Chan → List Nat) (c : Chan) (l : List Nat) : Chan → List Nat := fun d => if d = c then l else h d

/-- A step of goroutine `g`. Go semantics. -/
inductive Step : St → St → Prop
  | make {s : St} {g : Nat} {x : Var} {l : List Op} {env : Var → List Nat} : s.threads[g]? = some ⟨.make x :: l, env⟩ →
      Step s ⟨s.threads.set g ⟨l, setVar env x [s.objects]⟩, s.chans, s.objects + 1, s.trace ++ [⟨g, .wr s.objects⟩]⟩
  | rd {s : St} {g : Nat} {x : Var} {l : List Op} {env : Var → List Nat} {o : Nat} : s.threads[g]? = some ⟨.rd x :: l, env⟩ → o ∈ env x →
      Step s ⟨s.threads.set g ⟨l, env⟩, s.chans, s.objects, s.trace ++ [⟨g, .rd o⟩]⟩
  | wr {s : St} {g : Nat} {x : Var} {l : List Op} {env : Var → List Nat} {o : Nat} : s.threads[g]? = some ⟨.wr x :: l, env⟩ → o ∈ env x →
      Step s ⟨s.threads.set g ⟨l, env⟩, s.chans, s.objects, s.trace ++ [⟨g, .wr o⟩]⟩
  | none {s : St} {g : Nat} {x : Var} {l : List Op} {env : Var → List Nat} : (s.threads[g]? = some ⟨.rd x :: l, env⟩ ∨
      s.threads[g]? = some ⟨.wr x :: l, env⟩) → env x = [] → Step s ⟨s.threads.set g ⟨l, env⟩, s.chans, s.objects, s.trace⟩
  | send {s : St} {g : Nat} {c : Chan} {x : Var} {l : List Op} {env : Var → List Nat} {o : Nat} : s.threads[g]? = some ⟨.send c x :: l, env⟩ →
      env x = [o] → Step s ⟨s.threads.set g ⟨l, env⟩, setChan s.chans c (s.chans c ++ [o]), s.objects, s.trace ++ [⟨g, .send c o⟩]⟩
  | recv {s : St} {g : Nat} {c : Chan} {x : Var} {l : List Op} {env : Var → List Nat} {o : Nat} {q : List Nat} :
      s.threads[g]? = some ⟨.recv c x :: l, env⟩ → s.chans c = o :: q →
      Step s ⟨s.threads.set g ⟨l, setVar env x [o]⟩, setChan s.chans c q, s.objects, s.trace ++ [⟨g, .recv c o⟩]⟩
  | move {s : St} {g : Nat} {x q : Var} {l : List Op} {env : Var → List Nat} : s.threads[g]? = some ⟨.move x q :: l, env⟩ →
      Step s ⟨s.threads.set g ⟨l, setVar (setVar env q (env q ++ env x)) x []⟩, s.chans, s.objects, s.trace⟩

/-- The states reached from goroutines with the given programs. Go semantics. -/
inductive Reach (ps : List Prog) : St → Prop
  | start {ws : List (List Op)} : ws.length = ps.length → (∀ (i : Nat) (w : List Op) (p : Prog), ws[i]? = some w → ps[i]? = some p → Words p w) →
      Reach ps ⟨ws.map fun w => ⟨w, fun _ => []⟩, fun _ => [], 0, []⟩
  | step {s s' : St} : Reach ps s → Step s s' → Reach ps s'

/-! ## The programs -/

/-- Statements one after the other (Go). -/
def block : List Prog → Prog
  | [] => .skip
  | p :: l => .seq p (block l)
/-- A statement that may be skipped: an `if` (Go). -/
def opt (p : Prog) : Prog := .alt p .skip
/-- A `for` (Go). -/
def loop (l : List Prog) : Prog := .star (block l)
/-- See `Op`. -/
def make (x : Var) : Prog := .op (.make x)
/-- See `Op`. -/
def rd (x : Var) : Prog := .op (.rd x)
/-- See `Op`. -/
def wr (x : Var) : Prog := .op (.wr x)
/-- See `Op`. -/
def send (c : Chan) (x : Var) : Prog := .op (.send c x)
/-- See `Op`. -/
def recv (c : Chan) (x : Var) : Prog := .op (.recv c x)
/-- See `Op`. -/
def move (x q : Var) : Prog := .op (.move x q)

/-- The goroutine of a NATS subscription: it makes a message (NATS copies what it has read into a new slice for each
message), calls the handler, which sends it on `c` (filter/filter.go:92-97, writer/writer.go:94-100, downsampler/downsampler.go:84-86), and
does not use it again. -/
def callback (c : Chan) : Prog := loop [make .msg, send c .msg]

/-- A worker of the filter (filter/worker.go:72-161): it reads the message, and `SortTags` writes into it. -/
def filterWorker : Prog := loop [recv .jobs .msg, loop [.alt (rd .msg) (wr .msg)]]

/-- Worker `i` of the writer (writer/writer.go:147-212): it reads messages, copying what it keeps into its batch (which is
replaced by a larger one when it is full: batch/batch.go:173-182), reads the batch to send it, makes a copy of a chunk whose write failed,
sends the copy to its retry worker, and resets the batch. -/
def writerWorker (i : Nat) : Prog :=
  block [make .batch, loop [
    opt (block [recv .jobs .msg, loop [rd .msg, opt (block [rd .batch, make .batch]), wr .batch]]),
    opt (block [loop [rd .batch, opt (block [make .chunk, rd .batch, wr .chunk, send (.retry i) .chunk])], wr .batch])]]

/-- The retry worker of worker `i` (writer/retryworker.go:88-121): what it receives goes into its queue, and it reads (sends to InfluxDB)
what is in the queue. -/
def retryWorker (i : Nat) : Prog := loop [.alt (block [recv (.retry i) .buf, move .buf .queue]) (rd .queue)]

/-- The worker of subject `i` of the downsampler (downsampler/downsampler.go:139-180): it reads the message, and its buckets keep
references into it (the string values, downsampler/avgbucket.go:194-196, 243-259) that are read when a window is published. -/
def downWorker (i : Nat) : Prog := loop [opt (block [recv (.input i) .msg, loop [rd .msg], move .msg .kept]), loop [rd .kept]]

/-- A filter with `n` workers and its subscription. filter/filter.go:70-97. -/
def filter (n : Nat) : List Prog := callback .jobs :: List.replicate n filterWorker

/-- A writer with `subs` subscriptions and `n` workers, each with its retry worker. writer/writer.go:83-110. -/
def writer (subs n : Nat) : List Prog :=
  List.replicate subs (callback .jobs) ++ (List.range n).flatMap fun i => [writerWorker i, retryWorker i]

/-- A downsampler with `n` subjects. downsampler/downsampler.go:80-94. -/
def downsampler (n : Nat) : List Prog := (List.range n).flatMap fun i => [callback (.input i), downWorker i]

end Spout.Handover
