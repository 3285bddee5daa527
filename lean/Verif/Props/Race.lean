import Verif.Model.Sharing
import Verif.Lemmas.Threads

/-! # C91: no data races -/

namespace Spout.Sharing
open Threads Spec

/-! ## Disciplines -/

/-- Does a program access `v`? -/
def touches (v : Loc) : P → Bool
  | .skip => false
  | .op (.rd w) => decide (w = v)
  | .op (.wr w) => decide (w = v)
  | .op (.atom w) => decide (w = v)
  | .op _ => false
  | .seq p q => touches v p || touches v q
  | .alt p q => touches v p || touches v q
  | .star p => touches v p

/-- Does a goroutine of kind `k`, or one that it starts (to some depth), access `v`? -/
def accesses (pr : Kind → P) : Nat → Kind → Loc → Bool
  | 0, k, v => touches v (pr k)
  | n + 1, k, v => touches v (pr k) || (spawns (pr k)).any fun k' => accesses pr n k' v

/-- How the components protect what they share. -/
def cls : Component → Loc → Cls Mu Kind
  | _, .counters => .atomic
  | _, .ruleCounters => .atomic
  | _, .dropCounters => .atomic
  | _, .alive => .atomic
  | _, .ready => .atomic
  | .udpListener, .batchData => .owned .udp
  | .httpListener, .batchData => .guarded .mu
  | .filter, .workBatches => .owned .theWorker
  | .writerWorker, .queue => .owned .retry
  | .monitor, .metricSet => .guarded .mu
  | _, _ => .init

def disc (c : Component) : Disc Loc Mu Kind := ⟨.main, Loc.all, cls c, accesses (prog c) 4⟩

theorem all_locs (v : Loc) : v ∈ Loc.all := by cases v <;> decide

theorem checked (c : Component) (k : Kind) : (chk (disc c) k (prog c k) ([], [])).isSome = true := by
  cases c <;> cases k <;> decide +kernel

/-! ## C91 -/

/-- C91.  No execution of a component has a data race: whatever the number of its workers, the order in which the goroutines run, the
messages and requests that arrive and the moment at which it is stopped, of two accesses by different goroutines to the same memory,
at least one of which writes and not both of which are atomic, one happens before the other. -/
theorem C91_race_free_partial (c : Component) {s : St Loc Mu Kind} (h : Reach (prog c) .main s) : RaceFree s.trace :=
  race_free (d := disc c) all_locs (checked c) h

/-- Hence at no moment are two goroutines both about to make such accesses. -/
theorem C91_exclusive_partial (c : Component) {s : St Loc Mu Kind} (h : Reach (prog c) .main s) {g g' : Nat} {k k' : Kind} {o o' : Op Loc Mu Kind}
    {l l' : List (Op Loc Mu Kind)} {a a' : Act Loc Mu} (hg : g ≠ g') (h1 : s.threads[g]? = some ⟨k, o :: l⟩)
    (h2 : s.threads[g']? = some ⟨k', o' :: l'⟩) (ha : o.access = some a) (ha' : o'.access = some a') : ¬ Conflict a a' :=
  exclusive (fun _ => C91_race_free_partial c) h hg h1 h2 ha ha'

/-- The batches of a writer are reused as soon as `http.Client.Do` has returned.  If a goroutine of net/http may still be reading the
body then, which net/http allows after an error or an early answer, it races with the worker's next use of the batch. -/
theorem C91_body_race : ∃ s : St Loc Mu Kind, Reach asyncProg .main s ∧ ¬ RaceFree s.trace := by
  have h : exec asyncProg [(0, 11, []), (1, 1, [])] (first asyncProg .main [1, 1, 1, 0, 1, 1]) ≠ none := by decide +kernel
  cases he : exec asyncProg [(0, 11, []), (1, 1, [])] (first asyncProg .main [1, 1, 1, 0, 1, 1]) with
  | none => exact absurd he h
  | some s =>
    refine ⟨s, exec_reach _ (first_reach _ _ _) he, ?_⟩
    have ht : (exec asyncProg [(0, 11, []), (1, 1, [])] (first asyncProg .main [1, 1, 1, 0, 1, 1])).map (fun s => s.trace) =
        some ([⟨0, .wr .conf⟩, ⟨0, .rd .conf⟩, ⟨0, .wr .client⟩, ⟨0, .wr .batchData⟩, ⟨0, .rd .conf⟩, ⟨0, .rd .batchData⟩,
          ⟨0, .rd .batchData⟩, ⟨0, .rd .batchData⟩, ⟨0, .rd .client⟩, ⟨0, .go 1⟩] ++ [⟨0, .wr .batchData⟩] ++ [⟨1, .rd .batchData⟩]) := by
      decide +kernel
    rw [he] at ht
    injection ht with ht
    dsimp only at ht
    rw [ht]
    exact adjacent_race (by decide) ⟨⟨.batchData, rfl, rfl⟩, fun h => h.1, fun h => h.1⟩

/-- An execution of the HTTP listener: a request (goroutine 5) puts its body into the batch, then the goroutine that sends old batches
(goroutine 1) looks at it.  These accesses conflict. -/
def raceSchedule : List (Nat × Nat × List Nat) :=
  [(0, 12, []), (0, 1, [1, 1]), (0, 5, []), (3, 1, [1, 1]), (4, 2, []), (4, 1, [1, 0, 1, 1]), (5, 6, []), (1, 6, [])]

theorem raceSchedule_trace : (exec (prog .httpListener) raceSchedule (first (prog .httpListener) .main [1, 1, 1])).map (fun s => (s.trace[26]?, s.trace[31]?)) =
    some (some ⟨5, .wr .batchData⟩, some ⟨1, .rd .batchData⟩) := by decide +kernel

example : ∃ s : St Loc Mu Kind, Reach (prog .httpListener) .main s ∧ HB s.trace 26 31 := by
  have ht := raceSchedule_trace
  cases he : exec (prog .httpListener) raceSchedule (first (prog .httpListener) .main [1, 1, 1]) with
  | none => rw [he] at ht; cases ht
  | some s =>
    rw [he] at ht
    injection ht with ht
    injection ht with h1 h2
    have hr := exec_reach _ (first_reach _ _ _) he
    exact ⟨s, hr, C91_race_free_partial .httpListener hr 26 31 _ _ (by decide) h1 h2 (by decide)
      ⟨⟨.batchData, rfl, rfl⟩, fun h => h.1, fun h => h.1⟩⟩

/-- Without the mutex in the handler the check fails. -/
example : (chk (disc .httpListener) .httpHandler (block [rd .hserver, loop [rd .batch, wr .batchData]]) ([], [])).isSome = false := by decide +kernel

end Spout.Sharing
