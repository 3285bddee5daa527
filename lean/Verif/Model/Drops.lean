import Verif.Model.Statistician
import Verif.Model.Stats

/-! # Model of the `nats_dropped` statistics over time

The statisticians of the filter and the downsampler run in a loop; in every round they ask the
NATS client how many messages it has dropped and keep the largest number in a counter. -/

namespace Spout.Prom

/-- `uint64(dropped)` of an `int`. filter/filter.go:203, downsampler/downsampler.go:222. -/
def toUint64 (d : Int) : Nat := (d % 18446744073709551616).toNat

/-- `Max` on a counter that only the statistician changes (stats/anonstats.go:48-59; that this is the
effect of the atomic steps is `maxCounter_action`), with a reading of `Dropped`, `none` if
it failed: filter/filter.go:197-204, downsampler/downsampler.go:217-224. -/
def updateDropped (cur : Nat) (reading : Option Int) : Nat :=
  match reading with
  | none => cur
  | some d => if toUint64 d ≤ cur then cur else toUint64 d

/-- What a round of the filter's statistician sees: the reading, the other counters, the rule
counters and the time. filter/filter.go:168-194. -/
structure FilterRound where
  reading : Option Int
  others : List (Bytes × Nat)
  ruleCounts : List Nat
  now : Int

/-- Rounds of the loop of filter/filter.go:168-193 with `nats_dropped` at `cur`: the messages of
each round. -/
def filterRounds (S : Sorter) (ord : MapOrder) (name hostname : Bytes) (subjects : List Bytes) :
    (cur : Nat) → List FilterRound → List (List Bytes)
  | _, [] => []
  | cur, r :: rs =>
    let cur := updateDropped cur r.reading                                             -- 169
    filterStats S ord name hostname (r.others ++ [(b!"nats_dropped", cur)]) subjects r.ruleCounts r.now ::
      filterRounds S ord name hostname subjects cur rs

/-- What a round of the downsampler's statistician sees: one reading per subscription, the counters
and the time. downsampler/downsampler.go:189-213. -/
structure DownsamplerRound where
  readings : List (Option Int)
  snap : List (Bytes × Nat)
  now : Int

/-- `updateNATSDropped`, downsampler/downsampler.go:216-226: one counter for each subscription. -/
def updateDrops (curs : List Nat) (readings : List (Option Int)) : List Nat :=
  (curs.zip readings).map fun e => updateDropped e.1 e.2

/-- Rounds of the loop of downsampler/downsampler.go:189-213. -/
def downsamplerRounds (S : Sorter) (ord : MapOrder) (name hostname : Bytes) (subjects : List Bytes) :
    (curs : List Nat) → List DownsamplerRound → List (List Bytes)
  | _, [] => []
  | curs, r :: rs =>
    let curs := updateDrops curs r.readings                                            -- 192
    downsamplerStats S ord name hostname r.snap subjects curs r.now ::
      downsamplerRounds S ord name hostname subjects curs rs

end Spout.Prom
