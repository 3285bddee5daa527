import Verif.Model.Stats

/-! # Specification: counters used by one goroutine, and what concurrency may do -/

namespace Spout.Spec

open Spout.Counters (Op Res Ev twoTo64)

/-- A counter used by a single goroutine: `c[i]` before, the operation, its
result, and the counters afterwards. -/
inductive SeqStep : List Nat → Op → Nat → List Nat → Prop
  | get {c : List Nat} {i v : Nat} : c[i]? = some v → SeqStep c (.get i) v c
  | inc {c : List Nat} {i v : Nat} : c[i]? = some v → SeqStep c (.inc i) ((v + 1) % twoTo64) (c.set i ((v + 1) % twoTo64))
  | max {c : List Nat} {i v : Nat} (x : Nat) : c[i]? = some v → SeqStep c (.max i x) (Nat.max v x) (c.set i (Nat.max v x))

/-- Operations one after the other, each with its result. -/
inductive SeqRun : List Nat → List (Op × Nat) → List Nat → Prop
  | nil {c : List Nat} : SeqRun c [] c
  | cons {c c' c'' : List Nat} {op : Op} {r : Nat} {L : List (Op × Nat)} :
      SeqStep c op r c' → SeqRun c' L c'' → SeqRun c ((op, r) :: L) c''

/-- Call `a` returned before call `b` began. -/
def Before (H : List Ev) (a b : Nat) : Prop :=
  ∃ H1 H2 H3 r op, H = H1 ++ .ret a r :: H2 ++ .inv b op :: H3

/-- `L` explains the history `H` of `n` counters as calls made one after the
other: every call in it is a call of the history, no call occurs twice, every
call of `Get`, `Inc` or `Max` that has returned is in it with the result it
returned, calls that did not overlap are in the order in which they were made,
and the counters now are those at the end. -/
structure Linearization (n : Nat) (H : List Ev) (counts : List Nat) (L : List (Nat × Op × Nat)) : Prop where
  legal : SeqRun (List.replicate n 0) (L.map (·.2)) counts
  once : (L.map (·.1)).Nodup
  called : ∀ e ∈ L, .inv e.1 e.2.1 ∈ H
  returned : ∀ id r, .ret id (.val r) ∈ H → ∃ op, (id, op, r) ∈ L
  realTime : ∀ a b, Before H a b → a ∈ L.map (·.1) → b ∈ L.map (·.1) →
    ∃ L1 L2 L3, L.map (·.1) = L1 ++ a :: L2 ++ b :: L3

/-- The calls of `Inc i`. -/
def incCalls (H : List Ev) (i : Nat) : List Nat :=
  H.filterMap fun e => match e with
    | .inv id (.inc j) => if j = i then some id else none
    | _ => none

/-- The values offered by the calls of `Max i`. -/
def offered (H : List Ev) (i : Nat) : List Nat :=
  H.filterMap fun e => match e with
    | .inv _ (.max j v) => if j = i then some v else none
    | _ => none

/-- The call has returned. -/
def hasReturned (H : List Ev) (id : Nat) : Bool :=
  H.any fun e => match e with
    | .ret j _ => j == id
    | _ => false

/-- No call is in progress. -/
def NoneInProgress (H : List Ev) : Prop := ∀ id op, .inv id op ∈ H → hasReturned H id = true

/-- The largest of some values; 0 if there are none. -/
def largest (l : List Nat) : Nat := l.foldr Max.max 0

/-- Counter `i` cannot have overflowed: even the largest value offered to it
plus all increments stays below 2^64. -/
def NoWrap (H : List Ev) (i : Nat) : Prop := largest (offered H i) + (incCalls H i).length < twoTo64

/-- At some moment while call `id` was in progress, counter `i` was `v`. -/
def ValueDuring (n : Nat) (H : List Ev) (id i v : Nat) : Prop :=
  ∃ H1 H2 s op, H = H1 ++ H2 ∧ Counters.Exec (Counters.newAnon n) H1 s ∧ .inv id op ∈ H1 ∧ (∀ r, .ret id r ∉ H1) ∧
    s.counts[i]? = some v

/-- The calls that may change counter `i`. -/
def changingCalls (H : List Ev) (i : Nat) : List Nat :=
  H.filterMap fun e => match e with
    | .inv id (.inc j) => if j = i then some id else none
    | .inv id (.max j _) => if j = i then some id else none
    | _ => none

/-- Number of atomic steps call `id` has made. -/
def stepsOf (H : List Ev) (id : Nat) : Nat := H.countP fun e => decide (e = .act id)

end Spout.Spec
