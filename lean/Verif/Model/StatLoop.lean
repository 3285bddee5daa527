import Verif.Model.Statistician

/-! # Model of the loop of a statistician

All components have the same loop: a round of statistics is published, then the goroutine waits for `stats_interval`. -/

namespace Spout.Prom

/-- A component's counters and its statistician, which waits for a timer that fires at `due`. listener/listener.go:417-429, filter/filter.go:164-195, downsampler/downsampler.go:185-215, writer/writer.go:247-285. -/
structure StatSys where
  now : Int
  counters : List (Bytes × Nat)
  due : Int
  /-- ghost: the rounds published so far, with the time and the counters -/
  rounds : List (Int × List (Bytes × Nat))

/-- The statistician has been started: the first round is due at once, listener/listener.go:417-421. -/
def StatSys.start (counters : List (Bytes × Nat)) (t0 : Int) : StatSys := ⟨t0, counters, t0, []⟩

/-- `Inc` or `Max` somewhere in the component (stats/stats.go:48-56): the counter `n` grows by `k`. -/
def bump (n : Bytes) (k : Nat) (cs : List (Bytes × Nat)) : List (Bytes × Nat) := cs.map fun c => if c.1 = n then (c.1, c.2 + k) else c

/-- A step.  `D` bounds how long the goroutine is delayed after its timer has fired.  Simplified: the snapshot is taken at one moment (C60 says what holds if it is not), and the component is not stopped.  `time.After` of a negative duration fires at once. listener/listener.go:419-428. -/
inductive StatStep (interval D : Int) : StatSys → StatSys → Prop
  | tick (s : StatSys) (t : Int) (h : s.now ≤ t) (hd : t ≤ s.due + D) : StatStep interval D s { s with now := t }
  | inc (s : StatSys) (n : Bytes) (k : Nat) : StatStep interval D s { s with counters := bump n k s.counters }
  | round (s : StatSys) (h : s.due ≤ s.now) : StatStep interval D s { s with due := s.now + max 0 interval, rounds := s.rounds ++ [(s.now, s.counters)] }

/-- Any number of steps. listener/listener.go:419-428. -/
inductive StatReach (interval D : Int) : StatSys → StatSys → Prop
  | refl (s : StatSys) : StatReach interval D s s
  | step {a b c : StatSys} : StatReach interval D a b → StatStep interval D b c → StatReach interval D a c

end Spout.Prom
