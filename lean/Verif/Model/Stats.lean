import Verif.Go
import Verif.Model.Downsampler

/-! # Model of package `stats` (counters shared by goroutines)

Every `atomic` operation is one indivisible step; between two steps of a call
any other calls may make steps.  Each call has its own identity; which
goroutine makes it does not matter, because a goroutine that makes calls one
after the other only restricts the interleavings. -/

namespace Spout.Counters

/-- 2^64: the counters are `uint64`. stats/anonstats.go:31. -/
abbrev twoTo64 : Nat := 18446744073709551616

/-- A call of a method of `AnonStats`.  `snapshot order` reads the counters in
the given order. stats/anonstats.go:36-69. -/
inductive Op where
  | get (i : Nat)
  | inc (i : Nat)
  | max (i : Nat) (newVal : Nat)
  | snapshot (order : List Nat)
  deriving DecidableEq, Repr

/-- What a call returns. stats/anonstats.go:36-69. -/
inductive Res where
  | val (v : Nat)
  | vals (vs : List Nat)
  deriving DecidableEq, Repr

/-- Where a call is. stats/anonstats.go:36-69. -/
inductive PC where
  /-- before the atomic load of `Get`, stats/anonstats.go:37 -/
  | get (i : Nat)
  /-- before the atomic add of `Inc`, stats/anonstats.go:43 -/
  | inc (i : Nat)
  /-- before the atomic load of `Max`, stats/anonstats.go:51 -/
  | maxLoad (i newVal : Nat)
  /-- before the compare-and-swap of `Max`, stats/anonstats.go:55 -/
  | maxCas (i newVal curVal : Nat)
  /-- in the loop of `Snapshot`, stats/anonstats.go:65-67 or
  stats/stats.go:79-81: counters still to read, values read -/
  | snap (todo : List Nat) (out : List Nat)
  /-- about to return -/
  | done (r : Res)
  /-- has returned -/
  | gone
  deriving DecidableEq, Repr

/-- Entry of a call. stats/anonstats.go:36-69. -/
def Op.start : Op → PC
  | .get i => .get i
  | .inc i => .inc i
  | .max i v => .maxLoad i v
  | .snapshot order => .snap order []

/-- `counts[i]`, which panics out of range. stats/anonstats.go:37, 43, 49. -/
def counter (counts : List Nat) (i : Nat) : Go Nat :=
  match counts[i]? with
  | some v => .ok v
  | none => .panic

/-- The next atomic step of a call: the counters and where the call is
afterwards. stats/anonstats.go:36-69. -/
def action (counts : List Nat) : PC → Go (List Nat × PC)
  | .get i => do                                               -- anonstats.go:36-38
    let v ← counter counts i
    return (counts, .done (.val v))
  | .inc i => do                                               -- anonstats.go:42-44
    let v ← counter counts i
    let v := (v + 1) % twoTo64
    return (counts.set i v, .done (.val v))
  | .maxLoad i newVal => do                                    -- anonstats.go:49-54
    let curVal ← counter counts i
    if newVal ≤ curVal then return (counts, .done (.val curVal))
    else return (counts, .maxCas i newVal curVal)
  | .maxCas i newVal curVal => do                              -- anonstats.go:55-57
    let v ← counter counts i
    if v = curVal then return (counts.set i newVal, .done (.val newVal))
    else return (counts, .maxLoad i newVal)
  | .snap [] out => return (counts, .done (.vals out))         -- anonstats.go:68
  | .snap (i :: todo) out => do                                -- anonstats.go:65-67
    let v ← counter counts i
    return (counts, .snap todo (out ++ [v]))
  | .done r => return (counts, .done r)
  | .gone => return (counts, .gone)

/-- Counters and calls. stats/anonstats.go:30-32 and the calls in progress. -/
structure St where
  counts : List Nat
  pc : Nat → Option PC

/-- `NewAnon`, stats/anonstats.go:22-26. -/
def newAnon (size : Nat) : St := ⟨List.replicate size 0, fun _ => none⟩

/-- Set the place of call `id`. Go semantics. -/
def St.at (s : St) (id : Nat) (p : PC) : St := { s with pc := fun j => if j = id then some p else s.pc j }

/-- What happens: a call begins, makes an atomic step, or returns. stats/anonstats.go:36-69. -/
inductive Ev where
  | inv (id : Nat) (op : Op)
  | act (id : Nat)
  | ret (id : Nat) (r : Res)
  deriving DecidableEq, Repr

/-- One event. stats/anonstats.go:36-69. -/
inductive Step : St → Ev → St → Prop
  | inv {s : St} {id : Nat} (op : Op) : s.pc id = none → Step s (.inv id op) (s.at id op.start)
  | act {s : St} {id : Nat} {p p' : PC} {counts' : List Nat} : s.pc id = some p → (∀ r, p ≠ .done r) → p ≠ .gone →
      action s.counts p = .ok (counts', p') → Step s (.act id) (({ s with counts := counts' } : St).at id p')
  | ret {s : St} {id : Nat} {r : Res} : s.pc id = some (.done r) → Step s (.ret id r) (s.at id .gone)

/-- An interleaving of calls: the events in order. Any schedule of stats/anonstats.go:36-69. -/
inductive Exec (s0 : St) : List Ev → St → Prop
  | nil : Exec s0 [] s0
  | snoc {H : List Ev} {s s' : St} {e : Ev} : Exec s0 H s → Step s e s' → Exec s0 (H ++ [e]) s'

/-! ## stats.go: counters with names -/

/-- `New`, stats/stats.go:22-31: the index of every name (a later occurrence of
a name replaces an earlier one); there are as many counters as arguments. -/
def newIndex (names : List Bytes) : List (Bytes × Nat) :=
  (names.zipIdx).foldl (fun m e => mset m e.1 e.2) []

/-- `Stats.lookup`, stats/stats.go:58-64: panics on unknown names. -/
def lookup (nameIndex : List (Bytes × Nat)) (name : Bytes) : Go Nat :=
  match mget nameIndex name with
  | some i => .ok i
  | none => .panic

/-- The calls of the methods of `Stats`. stats/stats.go:42-83. -/
inductive NOp where
  | get (name : Bytes)
  | inc (name : Bytes)
  | max (name : Bytes) (newVal : Nat)
  | snapshot (ord : MapOrder)

/-- `Stats.Get`, `Inc`, `Max`, `Snapshot`, stats/stats.go:42-56, 77-83: the
call made on the `AnonStats`.  (`Snapshot` reads the counters in map order.) -/
def NOp.toOp (nameIndex : List (Bytes × Nat)) : NOp → Go Op
  | .get name => do return .get (← lookup nameIndex name)
  | .inc name => do return .inc (← lookup nameIndex name)
  | .max name v => do return .max (← lookup nameIndex name) v
  | .snapshot ord => return .snapshot ((ord.order nameIndex).map (·.2))

/-- The pairs returned by `Stats.Snapshot`, stats/stats.go:79-81, from the
values read. -/
def snapshotPairs (nameIndex : List (Bytes × Nat)) (ord : MapOrder) (vs : List Nat) : List (Bytes × Nat) :=
  ((ord.order nameIndex).map (·.1)).zip vs

end Spout.Counters
