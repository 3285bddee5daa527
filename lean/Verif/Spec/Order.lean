import Verif.Model.Deployment
import Verif.Props.Delivery

/-! # Specification: the order of lines

`InOrder`: NATS passes on the messages of a subscription in the order in which they were published (it may drop some).
`KeepsOrder`: the texts can be attributed to the listeners so that those of each listener are in the order of its lines. -/

namespace Spout.Deploy
open Spout Spout.Listener Spout.Pool Spout.Spec

universe u

/-- Messages were added at the end, or the first was passed on, or one was dropped. -/
def Sub.Fifo (a b : Sub) : Prop := (∃ ms, b.pending = a.pending ++ ms) ∨ (∃ m, a.pending = m :: b.pending) ∨ b.lost ≠ a.lost

def Group.Fifo {W : Type u} (c c' : Group W) : Prop := ∀ (i : Nat) (a b : Sub), c.subs[i]? = some a → c'.subs[i]? = some b → a.Fifo b

variable {d : Setup}

/-- NATS keeps the order for filters and writers. -/
structure InOrder (s s' : State d) : Prop where
  filters : s.filters.Fifo s'.filters
  writers : ∀ (j : Nat) (x x' : WComp), s.writers[j]? = some x → s'.writers[j]? = some x' → x.inp.Fifo x'.inp

/-- Steps of running processes, with NATS keeping the order. -/
inductive OrderedRun (d : Setup) (s0 : State d) : State d → Prop
  | refl : OrderedRun d s0 s0
  | step {s s' : State d} : OrderedRun d s0 s → Step d s s' → InOrder s s' → OrderedRun d s0 s'

/-- One process with one worker. -/
def Group.OneWorker {W : Type u} (c : Group W) : Prop := ∃ (q : Pool) (k : W), c.members = [⟨q, [k]⟩]

/-- The texts of `all`, in this order, can be attributed to sources (each text to the source with the number beside it), so that those attributed to the `i`-th are, in
this order, among `source i`. -/
def KeepsOrder (n : Nat) (source : Nat → List Bytes) (all : List Bytes) : Prop :=
  ∃ att : List (Nat × Bytes), att.map (·.2) = all ∧ (∀ a ∈ att, a.1 < n) ∧
    ∀ i, ((att.filter fun a => decide (a.1 = i)).map (·.2)).Sublist (source i)

/-- The lines of a listener: of a UDP listener those of the datagrams, of an HTTP listener those that it has published. -/
def LComp.lines : LComp → List Bytes
  | .udp _ got => Delivery.sentLines got
  | .http l _ _ _ => (Delivery.publishedL l).flatMap linesOf

/-- The texts for `sub` of the lines of the `i`-th listener. -/
def State.textsFrom (s : State d) (sub : Bytes) (i : Nat) : List Bytes :=
  match s.listeners[i]? with
  | some y => y.lines.filterMap (Delivery.textTo d.S d.rules d.junk sub)
  | none => []

end Spout.Deploy
