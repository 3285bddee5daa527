import Verif.Spec.HappensBefore

/-! # Goroutines that share memory

A program says in which order a goroutine accesses shared memory, uses mutexes and starts goroutines;
what it computes is left out.  `Verif.Model.Sharing` has the programs of the components. -/

namespace Spout.Threads
open Spec

/-- An operation; `go k` starts a goroutine of kind `k`. Go semantics of the functions cited in `Model/Sharing.lean`. -/
inductive Op (V M K : Type) where
  | rd (v : V)
  | wr (v : V)
  | atom (v : V)
  | lock (m : M)
  | unlock (m : M)
  | go (k : K)
  deriving DecidableEq

/-- A program: `alt` is a branch on something not modelled, `star` any number of iterations. Go semantics of the functions cited in `Model/Sharing.lean`. -/
inductive Prog (V M K : Type) where
  | skip
  | op (o : Op V M K)
  | seq (p q : Prog V M K)
  | alt (p q : Prog V M K)
  | star (p : Prog V M K)

variable {V M K : Type}

/-- The sequences of operations of a program. Go semantics of the functions cited in `Model/Sharing.lean`. -/
inductive Words : Prog V M K → List (Op V M K) → Prop
  | skip : Words .skip []
  | op (o : Op V M K) : Words (.op o) [o]
  | seq {p q : Prog V M K} {a b : List (Op V M K)} : Words p a → Words q b → Words (.seq p q) (a ++ b)
  | left {p q : Prog V M K} {a : List (Op V M K)} : Words p a → Words (.alt p q) a
  | right {p q : Prog V M K} {a : List (Op V M K)} : Words q a → Words (.alt p q) a
  | done {p : Prog V M K} : Words (.star p) []
  | again {p : Prog V M K} {a b : List (Op V M K)} : Words p a → Words (.star p) b → Words (.star p) (a ++ b)

/-- A goroutine: its kind and what it has still to do. Go semantics of the functions cited in `Model/Sharing.lean`. -/
structure Thread (V M K : Type) where
  kind : K
  code : List (Op V M K)

/-- The goroutines (a goroutine's number is its position), who holds each mutex, and the execution so far. Go semantics of the functions cited in `Model/Sharing.lean`. -/
structure St (V M K : Type) where
  threads : List (Thread V M K)
  holder : M → Option Nat
  trace : List (Ev V M)

/-- Goroutine `g` continues with `code`. Go semantics of the functions cited in `Model/Sharing.lean`. -/
def St.cont (s : St V M K) (g : Nat) (k : K) (code : List (Op V M K)) : List (Thread V M K) := s.threads.set g ⟨k, code⟩

/-- The holder of a mutex changes (`sync.Mutex`). Go semantics. -/
def setHolder [DecidableEq M] (h : M → Option Nat) (m : M) (x : Option Nat) : M → Option Nat := fun m' => if m' = m then x else h m'

/-- A step of some goroutine. Go semantics of the functions cited in `Model/Sharing.lean`. -/
inductive Step [DecidableEq M] (prog : K → Prog V M K) : St V M K → St V M K → Prop
  | rd {s : St V M K} {g : Nat} {k : K} {v : V} {l : List (Op V M K)} : s.threads[g]? = some ⟨k, .rd v :: l⟩ →
      Step prog s ⟨s.cont g k l, s.holder, s.trace ++ [⟨g, .rd v⟩]⟩
  | wr {s : St V M K} {g : Nat} {k : K} {v : V} {l : List (Op V M K)} : s.threads[g]? = some ⟨k, .wr v :: l⟩ →
      Step prog s ⟨s.cont g k l, s.holder, s.trace ++ [⟨g, .wr v⟩]⟩
  | atom {s : St V M K} {g : Nat} {k : K} {v : V} {l : List (Op V M K)} : s.threads[g]? = some ⟨k, .atom v :: l⟩ →
      Step prog s ⟨s.cont g k l, s.holder, s.trace ++ [⟨g, .atom v⟩]⟩
  | lock {s : St V M K} {g : Nat} {k : K} {m : M} {l : List (Op V M K)} : s.threads[g]? = some ⟨k, .lock m :: l⟩ → s.holder m = none →
      Step prog s ⟨s.cont g k l, setHolder s.holder m (some g), s.trace ++ [⟨g, .lock m⟩]⟩
  | unlock {s : St V M K} {g : Nat} {k : K} {m : M} {l : List (Op V M K)} : s.threads[g]? = some ⟨k, .unlock m :: l⟩ →
      Step prog s ⟨s.cont g k l, setHolder s.holder m none, s.trace ++ [⟨g, .unlock m⟩]⟩
  | go {s : St V M K} {g : Nat} {k k' : K} {l w : List (Op V M K)} : s.threads[g]? = some ⟨k, .go k' :: l⟩ → Words (prog k') w →
      Step prog s ⟨s.cont g k l ++ [⟨k', w⟩], s.holder, s.trace ++ [⟨g, .go s.threads.length⟩]⟩

/-- The states reached from a first goroutine of kind `main`. Go semantics of the functions cited in `Model/Sharing.lean`. -/
inductive Reach [DecidableEq M] (prog : K → Prog V M K) (main : K) : St V M K → Prop
  | start {w : List (Op V M K)} : Words (prog main) w → Reach prog main ⟨[⟨main, w⟩], fun _ => none, []⟩
  | step {s s' : St V M K} : Reach prog main s → Step prog s s' → Reach prog main s'

/-! ## A discipline that can be checked -/

/-- How a location is protected once goroutines that use it have been started: by a mutex, by not being written any more, by
atomic operations only, or by belonging to the only goroutine of a kind. Part of the checker, nothing in /repo. -/
inductive Cls (M K : Type) where
  | guarded (m : M)
  | init
  | atomic
  | owned (k : K)
  deriving DecidableEq

/-- A discipline: the protection of each location, and `acc k v`: goroutines of kind `k`, or goroutines that they
start, may access `v`. Part of the checker, nothing in /repo. -/
structure Disc (V M K : Type) where
  main : K
  locs : List V
  cls : V → Cls M K
  acc : K → V → Bool

variable [DecidableEq V] [DecidableEq M] [DecidableEq K]

/-- May kind `k`, holding the mutexes `held`, access `v` so (`rd`, `wr`, `at`), when the kinds `sp` have been started by the first goroutine?. Part of the checker, nothing in /repo. -/
def okAcc (d : Disc V M K) (k : K) (held : List M) (sp : List K) (v : V) (isRd isAt : Bool) : Bool :=
  (decide (k = d.main) && sp.all fun k' => !d.acc k' v) ||
  ((decide (k = d.main) || d.acc k v) && match d.cls v with
    | .guarded m => held.contains m
    | .init => isRd
    | .atomic => isAt
    | .owned k0 => decide (k = k0))

/-- May kind `k` do this?. Part of the checker, nothing in /repo. -/
def okOp (d : Disc V M K) (k : K) (held : List M) (sp : List K) : Op V M K → Bool
  | .rd v => okAcc d k held sp v true false
  | .wr v => okAcc d k held sp v false false
  | .atom v => okAcc d k held sp v false true
  | .lock m => !held.contains m
  | .unlock m => held.contains m
  | .go k' => !decide (k' = d.main) && d.locs.all fun v =>
      (!d.acc k' v || decide (k = d.main) || d.acc k v) &&
      match d.cls v with
      | .owned k0 => (!d.acc k' v || decide (k' = k0)) && (!decide (k' = k0) || (decide (k = d.main) && !sp.contains k0))
      | _ => true

/-- The mutexes held after an operation: part of the checker, nothing in /repo. -/
def heldAfter (held : List M) : Op V M K → List M
  | .lock m => m :: held
  | .unlock m => held.erase m
  | _ => held

/-- The kinds started after an operation: part of the checker, nothing in /repo. -/
def spAfter (sp : List K) : Op V M K → List K
  | .go k => k :: sp
  | _ => sp

/-- The kinds started by a program. Part of the checker, nothing in /repo. -/
def spawns : Prog V M K → List K
  | .skip => []
  | .op o => spAfter [] o
  | .seq p q => spawns p ++ spawns q
  | .alt p q => spawns p ++ spawns q
  | .star p => spawns p

/-- Check a program of kind `k`. Part of the checker, nothing in /repo. -/
def chk (d : Disc V M K) (k : K) : Prog V M K → List M × List K → Option (List M × List K)
  | .skip, st => some st
  | .op o, (held, sp) => if okOp d k held sp o then some (heldAfter held o, spAfter sp o) else none
  | .seq p q, st => match chk d k p st with
    | some st' => chk d k q st'
    | none => none
  | .alt p q, st => match chk d k p st, chk d k q st with
    | some (h1, s1), some (h2, s2) => if h1 = h2 then some (h1, s1 ++ s2) else none
    | _, _ => none
  | .star p, (held, sp) => match chk d k p (held, spawns p ++ sp) with
    | some (h, _) => if h = held then some (held, spawns p ++ sp) else none
    | none => none

end Spout.Threads
