import Verif.Go

/-! # Model of the probes: probes/probes.go

The HTTP server and its goroutines are those of the standard library: requests
may be served at the same time as each other and as the calls of the component.
`atomic.Value` is sequentially consistent, so an execution is a sequence of
atomic steps: the stores of `SetAlive` and `SetReady`, and for each request its
arrival, the load of the value, and the answer.

Not modelled: that `ServeMux` redirects paths that are not clean, and that the
listener needs a moment to be bound (errors of `ListenAndServe` are ignored by
the code). -/

namespace Spout.Probes

/-- `listener`, probes/probes.go:78-83, and the server's requests: those that
have arrived with their path, those that have loaded a value, and (ghost) the
answers given. -/
structure Listener where
  alive : Bool
  ready : Bool
  serving : Bool
  arrived : List (Nat × Bytes)
  loaded : List (Nat × Nat)
  answers : List (Nat × Nat)
  deriving DecidableEq, Repr

/-- What `Listen` returns: a listener or the do-nothing instance. probes/probes.go:49-83, 108. -/
inductive Probes where
  | null
  | listener (l : Listener)
  deriving DecidableEq, Repr

/-- `Listen`, probes/probes.go:49-76. -/
def listen (port : Int) : Probes :=
  if port ≤ 0 then .null
  else .listener ⟨true, false, true, [], [], []⟩

/-- One atomic step. probes/probes.go:49-112. -/
inductive Step where
  /-- `SetAlive`, 85-87 -/
  | setAlive (b : Bool)
  /-- `SetReady`, 89-91 -/
  | setReady (b : Bool)
  /-- `Close`, 93-96: the server stops serving -/
  | close
  /-- a request arrives -/
  | arrive (id : Nat) (path : Bytes)
  /-- its handler loads the value, 100 -/
  | load (id : Nat)
  /-- it is answered -/
  | answer (id : Nat)
  deriving DecidableEq, Repr

/-- The first element with the given key, and the others. A helper: requests and calls in progress. Nothing in /repo. -/
def take {α : Type} (id : Nat) : List (Nat × α) → Option (α × List (Nat × α))
  | [] => none
  | (k, a) :: rest => if k = id then some (a, rest) else
    match take id rest with
    | some (b, rest') => some (b, (k, a) :: rest')
    | none => none

/-- The handler, probes/probes.go:98-106, chosen by the `ServeMux` of lines
64-67: the status given the values at the moment of the load. -/
def status (l : Listener) (path : Bytes) : Nat :=
  if path = b!"/healthz" then (if l.alive then 200 else 503)
  else if path = b!"/readyz" then (if l.ready then 200 else 503)
  else 404

/-- The effect of a step on a listener; `none` if it cannot happen. probes/probes.go:49-106. -/
def stepListener (l : Listener) : Step → Option Listener
  | .setAlive b => some { l with alive := b }
  | .setReady b => some { l with ready := b }
  | .close => some { l with serving := false, arrived := [], loaded := [] }
  | .arrive id path => if l.serving then some { l with arrived := l.arrived ++ [(id, path)] } else none
  | .load id => match take id l.arrived with
    | none => none
    | some (path, rest) => some { l with arrived := rest, loaded := l.loaded ++ [(id, status l path)] }
  | .answer id => match take id l.loaded with
    | none => none
    | some (st, rest) => some { l with loaded := rest, answers := l.answers ++ [(id, st)] }

/-- The effect of a step: the do-nothing instance (108-112) ignores calls and
nothing is served. probes/probes.go:49-112. -/
def step (p : Probes) (s : Step) : Option Probes :=
  match p with
  | .listener l => (stepListener l s).map .listener
  | .null => match s with
    | .setAlive _ => some .null
    | .setReady _ => some .null
    | .close => some .null
    | _ => none

/-- An execution. probes/probes.go:49-112. -/
def run (p : Probes) : List Step → Option Probes
  | [] => some p
  | s :: ss => match step p s with
    | none => none
    | some p => run p ss

end Spout.Probes
