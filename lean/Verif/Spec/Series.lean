import Verif.Model.Downsampler
import Verif.Spec.Decimal

/-! # Specification: series lines and their aggregation

A line without timestamp is a series key and a list of `name=value` fields; a value is a
quoted string or a bare token.  `aggText` says what a field of the aggregated line must
read, given the samples of the period. -/

namespace Spout.Spec

/-- A sample of a field: was it quoted, and its contents. -/
structure Sample where
  quoted : Bool
  content : Bytes
  deriving DecidableEq, Repr

/-- A string in quotes, with quotes inside escaped. -/
def quote (s : Bytes) : Bytes := DQ :: s.flatMap (fun b => if b = DQ then [BS, DQ] else [b]) ++ [DQ]

/-- How a producer writes a sample. -/
def Sample.text (s : Sample) : Bytes := if s.quoted then quote s.content else s.content

/-- A line: series key (measurement and tags as written) and fields. -/
structure SLine where
  key : Bytes
  fields : List (Bytes × Sample)
  deriving DecidableEq, Repr

/-- Comma separated `name=value` texts. -/
def fieldsText (fs : List (Bytes × Bytes)) : Bytes :=
  ((fs.map fun f => f.1 ++ [EQ] ++ f.2).intersperse [COMMA]).flatten

/-- The text of a line without timestamp and newline. -/
def SLine.text (l : SLine) : Bytes :=
  l.key ++ [SP] ++ fieldsText (l.fields.map fun f => (f.1, f.2.text))

/-- Non-empty, every character `d` is preceded by a backslash, and the last character is not a
backslash: such a text can be followed by the delimiter `d`. -/
def Delimitable (d : Byte) (s : Bytes) : Prop :=
  s ≠ [] ∧ s.getLast? ≠ some BS ∧ ∀ pre post, s = pre ++ d :: post → pre.getLast? = some BS

/-- A well-formed sample. -/
def Sample.WF (s : Sample) : Prop :=
  if s.quoted then s.content.getLast? ≠ some BS ∧ (DQ ∉ s.content ∨ BS ∉ s.content)
  else s.content ≠ [] ∧ COMMA ∉ s.content ∧ BS ∉ s.content ∧ s.content.head? ≠ some DQ

/-- A well-formed line. -/
def SLine.WF (l : SLine) : Prop :=
  Delimitable SP l.key ∧ l.fields ≠ [] ∧ ∀ f ∈ l.fields, Delimitable EQ f.1 ∧ f.2.WF

/-- An integer sample: decimal digits with an optional minus sign, followed by `i`.  (Numbers of 20 and
more digits are read modulo 2^64, see C04.) -/
def intLit (s : Bytes) : Option Int :=
  if s.getLast? = some 105 then
    let t := s.dropLast
    let ds := if t.head? = some MINUS then t.tail else t
    let n : Nat := digitsVal ds % 2 ^ 64
    if ds ≠ [] ∧ ∀ d ∈ ds, IsDigit d then
      if t.head? = some MINUS then (if n ≤ 2 ^ 63 then some (-(n : Int)) else none)
      else if n < 2 ^ 63 then some (n : Int) else none
    else none
  else none

/-- The incremental integer mean the code documents ("Update incremental average"): after
the k-th sample `s`, `avg + (s - avg) / k` in int64 arithmetic. -/
def runningMean (avg : Int) (count : Int) : List Int → Int
  | [] => avg
  | s :: ss => runningMean (wrap64 (avg + (wrap64 (s - avg)).tdiv (count + 1))) (count + 1) ss

/-- The same for floats. -/
def runningMeanF (fo : FloatOps) (avg : fo.F) (count : Int) : List fo.F → fo.F
  | [] => avg
  | s :: ss => runningMeanF fo (fo.step avg s (count + 1)) (count + 1) ss

/-- The text of a field of the aggregated line.  The first sample decides how the field is
aggregated: integers and floats are averaged over the samples that are integers
(floats), strings and other tokens keep the last sample. -/
def aggText (fo : FloatOps) : List Sample → Bytes
  | [] => []
  | s :: ss =>
    let last := ((s :: ss).getLast (by simp)).content
    if s.quoted then quote last
    else match intLit s.content with
      | some v => itoa (runningMean v 1 (ss.filterMap fun x => intLit x.content)) ++ b!"i"
      | none => match fo.parse s.content with
        | some v => fo.print (runningMeanF fo v 1 (ss.filterMap fun x => fo.parse x.content))
        | none => last

/-- A row of the aggregated output. -/
structure Row where
  key : Bytes
  fields : List (Bytes × Bytes)
  deriving DecidableEq, Repr

/-- The text of a row with the time `ts` (nanoseconds). -/
def Row.text (ts : Int) (r : Row) : Bytes :=
  r.key ++ [SP] ++ (if r.fields = [] then [] else fieldsText r.fields ++ [SP]) ++ itoa ts ++ [NL]

/-- The samples of field `name` of series `key`, in order. -/
def samplesOf (key name : Bytes) (ls : List SLine) : List Sample :=
  ls.flatMap fun l => if l.key = key then (l.fields.filter (fun f => f.1 = name)).map (·.2) else []

/-- `rows` is the aggregation of the lines `ls`: one row per series, fields in strictly
ascending order of name, one field for each field name sampled, with the aggregated value. -/
def Aggregates (fo : FloatOps) (ls : List SLine) (rows : List Row) : Prop :=
  (rows.map (·.key)).Nodup ∧ (∀ k, k ∈ rows.map (·.key) ↔ k ∈ ls.map (·.key)) ∧
  ∀ r ∈ rows, (r.fields.map (·.1)).Pairwise (fun a b => bytesLt a b = true) ∧
    ∀ n v, (n, v) ∈ r.fields ↔ samplesOf r.key n ls ≠ [] ∧ v = aggText fo (samplesOf r.key n ls)

end Spout.Spec
