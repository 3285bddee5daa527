import Verif.Spec.Series
import Verif.Spec.Line
import Verif.Lemmas.Downsampler

/-! # Specification: a downsampler of period `p`

A history is a list of operations with their outputs.  `Legal` says which histories a correct
downsampler may have: it tracks three adjacent windows of width `p`, the oldest ending
at `e`; see the rules. -/

namespace Spout.Spec

/-- An operation: a line arrives (while the clock shows `now`), or the output is requested. -/
inductive AOp where
  | line (now : Int) (l : Bytes)
  | tick (now : Int) (ord : MapOrder)

/-- Its output: the errors for the line, or the emitted text. -/
inductive AOut where
  | errs (es : List DErr)
  | text (t : Bytes)
  deriving DecidableEq

/-- A line handed to a window: its time, the line without timestamp, the errors reported. -/
structure Got where
  ts : Int
  body : Bytes
  errs : List DErr

/-- An emission: the end of the window, the time it happened, the text. -/
structure Emission where
  wend : Int
  now : Int
  text : Bytes

/-- `line` carries the time `ts`, and is `body` without it.  Lines without timestamp are of the
current time. -/
inductive Stamped (now : Int) (line : Bytes) : Int → Bytes → Prop
  | own (ts off : Int) : HasTs line ts off → Stamped now line ts (line.take (off - 1).toNat)
  | none : (∀ v off, ¬ HasTs line v off) → Stamped now line now line

/-- The lines of the window `[w - p, w)`, in order of arrival. -/
def window (p w : Int) (got : List Got) : List (Bytes × List DErr) :=
  (got.filter fun g => decide (w - p ≤ g.ts ∧ g.ts < w)).map fun g => (g.body, g.errs)

/-- `text` is the aggregation of the lines of the window `[w - p, w)`: one row per series, in some order. -/
def WindowText (fo : FloatOps) (p w : Int) (got : List Got) (text : Bytes) : Prop :=
  ∃ rows, Aggregates fo (keptFrom [] (window p w got)) rows ∧ text = rows.flatMap (Row.text (wrap64 w))

/-- The windows are aligned to multiples of the period since the zero time. -/
def Aligned (p t : Int) : Prop := (t + zeroTimeOffset) % p = 0

/-- The legal histories, with the end `e` of the oldest tracked window, the lines handed to windows,
and the emissions. -/
inductive Legal (fo : FloatOps) (p now0 : Int) :
    (e : Int) → List Got → List Emission → List (AOp × AOut) → Prop
  /-- at the start, the middle window is the one containing the current time -/
  | start (e : Int) : Aligned p e → e ≤ now0 → now0 < e + p → Legal fo p now0 e [] [] []
  | empty : Legal fo p now0 e got em h → Legal fo p now0 e got em (h ++ [(.line now [], .errs [])])
  | old : Legal fo p now0 e got em h → l ≠ [] → Stamped now l ts body → ts < e - p →
      Legal fo p now0 e got em (h ++ [(.line now l, .errs [.tooOld])])
  | new : Legal fo p now0 e got em h → l ≠ [] → Stamped now l ts body → e + 2 * p ≤ ts →
      Legal fo p now0 e got em (h ++ [(.line now l, .errs [.tooNew])])
  | accept : Legal fo p now0 e got em h → l ≠ [] → Stamped now l ts body → e - p ≤ ts → ts < e + 2 * p →
      (∀ x ∈ errs, x.isTimestamp = false) →
      Legal fo p now0 e (got ++ [⟨ts, body, errs⟩]) em (h ++ [(.line now l, .errs errs)])
  | early : Legal fo p now0 e got em h → now < e + p →
      Legal fo p now0 e got em (h ++ [(.tick now ord, .text [])])
  | emit : Legal fo p now0 e got em h → e + p ≤ now → WindowText fo p e got text →
      Legal fo p now0 (e + p) got (em ++ [⟨e, now, text⟩]) (h ++ [(.tick now ord, .text text)])

end Spout.Spec
