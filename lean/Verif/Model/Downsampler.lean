import Verif.Model.Influx
import Verif.Model.Filter
import Verif.Model.Splitter
import Verif.Model.Listener

/-! # Model of package `downsampler`

Times are Unix nanoseconds as unbounded integers.  Floating point parsing, arithmetic
and printing are a parameter (`FloatOps`).  A Go map is a list of entries with distinct
keys; the iteration order is an arbitrary permutation (`MapOrder`). -/

namespace Spout

/-! ## Maps -/

/-- `m[k]`, `v, ok := m[k]`. Go maps; downsampler/avgbucket.go:36, 87. -/
def mget (m : List (Bytes × α)) (k : Bytes) : Option α := (m.find? (fun e => e.1 == k)).map (·.2)

/-- `m[k] = v`. Go maps; downsampler/avgbucket.go:36, 87. -/
def mset (m : List (Bytes × α)) (k : Bytes) (v : α) : List (Bytes × α) :=
  if m.any (fun e => e.1 == k) then m.map (fun e => if e.1 == k then (k, v) else e)
  else m ++ [(k, v)]

/-- The order of one `for … range` over a map: any permutation of the entries. Go maps; downsampler/avgbucket.go:66, 152. -/
structure MapOrder where
  order : {α : Type} → List α → List α
  perm : ∀ {α : Type} (l : List α), (order l).Perm l

/-! ## avgbucket.go -/

/-- float64 operations: `strconv.ParseFloat`, `avg + (b-avg)/float64(count)`,
`strconv.AppendFloat(…,'g',-1,64)` (downsampler/avgbucket.go:185, 228, 235, 240). -/
structure FloatOps where
  F : Type
  parse : Bytes → Option F
  step : (average b : F) → (count : Int) → F
  print : F → Bytes

/-- The `fieldValue` implementations, downsampler/avgbucket.go:198-259. -/
inductive FieldValue (fo : FloatOps) where
  | int (average : Int) (count : Int)
  | float (average : fo.F) (count : Int)
  | str (b : Bytes)
  | raw (b : Bytes)

/-- What `v[:len(v)-1]` parses to if `v` has at least two bytes and ends in `i`
(downsampler/avgbucket.go:177-178, 204-207). -/
def intText (v : Bytes) : Option Int :=
  if v.length < 2 ∨ v.getLast? ≠ some 105 then none
  else match toInt v.dropLast with
    | .ok n => some n
    | .error _ => none

/-- `newFieldValue`, downsampler/avgbucket.go:176-192. -/
def newFieldValue (fo : FloatOps) (v : Bytes) : FieldValue fo :=
  match intText v with
  | some iv => .int iv 1
  | none =>
    match fo.parse v with
    | some fv => .float fv 1
    | none => .raw v

/-- The errors of a line (downsampler/avgbucket.go:103, 110, 118, 205-209, 230). -/
inductive DErr where
  | invalidField | missingValue | badString (e : QErr) | wrongInt | wrongFloat
  | tooOld | tooNew
  deriving DecidableEq, Repr

/-- `update` of the field values, downsampler/avgbucket.go:203-216, 227-237, 245-248, 255-258.
`count` is not wrapped (2^63 samples). -/
def FieldValue.update {fo : FloatOps} : FieldValue fo → Bytes → FieldValue fo × Option DErr
  | .int average count, b =>
    match intText b with
    | none => (.int average count, some .wrongInt)
    | some bi =>
      let count := count + 1
      (.int (wrap64 (average + (wrap64 (bi - average)).tdiv count)) count, none)
  | .float average count, b =>
    match fo.parse b with
    | none => (.float average count, some .wrongFloat)
    | some bf => (.float (fo.step average bf (count + 1)) (count + 1), none)
  | .str _, b => (.str b, none)
  | .raw _, b => (.raw b, none)

/-- `bytes` of the field values, downsampler/avgbucket.go:218-220, 239-241, 249-251, 259. -/
def FieldValue.bytes {fo : FloatOps} : FieldValue fo → Bytes
  | .int average _ => itoa average ++ [105]
  | .float average _ => fo.print average
  | .str b => escapeQuotedString b
  | .raw b => b

/-- `fieldPairs`, downsampler/avgbucket.go:86-88. -/
abbrev Fields (fo : FloatOps) := List (Bytes × FieldValue fo)

/-- One value for field `name`, downsampler/avgbucket.go:123-130 and 134-141. -/
def setField {fo : FloatOps} (fs : Fields fo) (name : Bytes) (fresh : FieldValue fo) (rawValue : Bytes) :
    Fields fo × List DErr :=
  match mget fs name with
  | none => (mset fs name fresh, [])
  | some v => let (v', e) := v.update rawValue; (mset fs name v', e.toList)

/-- `fieldPairs.update`, downsampler/avgbucket.go:94-144; returns the updated map and the
errors.  (The map is updated in place also when there are errors.) -/
def updateFields {fo : FloatOps} : (fuel : Nat) → Fields fo → Bytes → Go (Fields fo × List DErr)
  | 0, _, _ => .panic
  | fuel + 1, fs, raw =>
    if raw.length = 0 then .ok (fs, [])                                      -- 96-98
    else do
      let raw ← sliceFrom raw 1                                              -- 99
      let (name, raw) ← tokenEscaped raw b!"="                               -- 101
      if raw.length = 0 then return (fs, [.invalidField])                    -- 102-105
      else
        let c ← idx raw 0
        if c ≠ EQ then return (fs, [.invalidField])
        else
          let raw ← sliceFrom raw 1                                          -- 108
          if raw.length = 0 then return (fs, [.missingValue])                -- 109-112
          else
            let c ← idx raw 0
            if c = DQ then                                                   -- 116-130
              match ← quotedString raw with
              | .error e => return (fs, [.badString e])
              | .ok (value, raw) =>
                let (fs, errs) := setField fs name (.str value) value
                let (fs, more) ← updateFields fuel fs raw
                return (fs, errs ++ more)
            else                                                             -- 133-141
              let (value, raw) ← tokenU raw b!","
              let (fs, errs) := setField fs name (newFieldValue fo value) value
              let (fs, more) ← updateFields fuel fs raw
              return (fs, errs ++ more)

/-- `fieldPairs.bytes`, downsampler/avgbucket.go:146-169. -/
def fieldsBytes {fo : FloatOps} (S : Sorter) (fs : Fields fo) : Bytes :=
  (((S.sort id (fs.map (·.1))).map fun name =>
    name ++ [EQ] ++ (match mget fs name with | some v => v.bytes | none => [])).intersperse [COMMA]).flatten

/-- `avgBucket`, downsampler/avgbucket.go:35-38. -/
structure Bucket (fo : FloatOps) where
  lines : List (Bytes × Fields fo)
  ts : Int

/-- `newAvgBucket`, downsampler/avgbucket.go:28-33. -/
def Bucket.new (fo : FloatOps) (ts : Int) : Bucket fo := ⟨[], ts⟩

/-- `AddLine`, downsampler/avgbucket.go:44-60.  The entry of a known series is a pointer,
so it is updated even if errors are returned. -/
def Bucket.addLine {fo : FloatOps} (b : Bucket fo) (line : Bytes) : Go (Bucket fo × List DErr) := do
  let (key, rest) ← tokenEscaped line b!" "
  match mget b.lines key with
  | some fields =>
    let (fields, errs) ← updateFields (rest.length + 1) fields rest
    return ({ b with lines := mset b.lines key fields }, errs)
  | none =>
    let (fields, errs) ← updateFields (rest.length + 1) ([] : Fields fo) rest
    if errs.length > 0 then return (b, errs)
    else return ({ b with lines := mset b.lines key fields }, [])

/-- `Bytes`, downsampler/avgbucket.go:62-78; `ord` is the iteration order of the map. -/
def Bucket.bytes {fo : FloatOps} (S : Sorter) (ord : MapOrder) (b : Bucket fo) : Bytes :=
  (ord.order b.lines).flatMap fun e =>
    e.1 ++ [SP] ++
    (let fb := fieldsBytes S e.2; if fb.length > 0 then fb ++ [SP] else []) ++
    itoa (wrap64 b.ts) ++ [NL]

/-! ## assigner.go -/

/-- Nanoseconds from the zero time (year 1) to the Unix epoch. Package `time`, used in downsampler/assigner.go:145, 149. -/
def zeroTimeOffset : Int := 62135596800000000000

/-- `time.Time.Truncate` (standard library): round down to a multiple of `d` since the
zero time; unchanged if `d ≤ 0`. Used in downsampler/assigner.go:145, 149. -/
def truncateTime (t d : Int) : Int := if d ≤ 0 then t else t - (t + zeroTimeOffset) % d

/-- `assigner`, downsampler/assigner.go:82-88. -/
structure Assigner (fo : FloatOps) where
  period : Int
  prev : Bucket fo
  curr : Bucket fo
  next : Bucket fo
  tmin : Int

/-- `prevT`, downsampler/assigner.go:144-146. -/
def prevT (period t : Int) : Int := truncateTime (t + -period) period
/-- `nextT`, downsampler/assigner.go:148-150. -/
def nextT (period t : Int) : Int := truncateTime (t + period) period

/-- `newAssigner`, downsampler/assigner.go:41-55. -/
def Assigner.new (fo : FloatOps) (period now : Int) : Assigner fo :=
  let tc := nextT period now
  let tp := prevT period tc
  let tn := nextT period tc
  ⟨period, .new fo tp, .new fo tc, .new fo tn, tp + -period⟩

/-- Which bucket. downsampler/assigner.go:59-63. -/
inductive Slot where
  | prev | curr | next
  deriving DecidableEq, Repr

/-- `findBucket`, downsampler/assigner.go:152-162. -/
def Assigner.findBucket {fo : FloatOps} (a : Assigner fo) (ts : Int) : Except DErr Slot :=
  if ts < a.tmin then .error .tooOld
  else if ts < a.prev.ts then .ok .prev
  else if ts < a.curr.ts then .ok .curr
  else if ts < a.next.ts then .ok .next
  else .error .tooNew

/-- `extractTimestamp`, downsampler/assigner.go:167-173. -/
def dsTimestamp (now : Int) (line : Bytes) : Go (Int × Bytes) := do
  let (nanos, offset) ← extractTimestamp line
  if offset < 0 then return (now, line)
  else
    let l ← sliceTo line (offset - 1).toNat
    return (nanos, l)

/-- `b.AddLine(line)` on the chosen bucket. downsampler/assigner.go:108. -/
def Assigner.addTo {fo : FloatOps} (a : Assigner fo) (s : Slot) (line : Bytes) : Go (Assigner fo × List DErr) :=
  match s with
  | .prev => do let (b, e) ← a.prev.addLine line; return ({ a with prev := b }, e)
  | .curr => do let (b, e) ← a.curr.addLine line; return ({ a with curr := b }, e)
  | .next => do let (b, e) ← a.next.addLine line; return ({ a with next := b }, e)

/-- The body of the loop of `Update`, downsampler/assigner.go:97-111. -/
def Assigner.updateLine {fo : FloatOps} (a : Assigner fo) (now : Int) (line : Bytes) :
    Go (Assigner fo × List DErr) :=
  if line.length < 1 then .ok (a, [])
  else do
    let (ts, l) ← dsTimestamp now line
    match a.findBucket ts with
    | .error e => return (a, [e])
    | .ok s => a.addTo s l

/-- The loop of `Update`, downsampler/assigner.go:96-113.  `clk i` is the clock reading made
while processing the i-th line, if one is made. -/
def Assigner.updateLines {fo : FloatOps} (clk : Nat → Int) :
    Nat → Assigner fo → List Bytes → Go (Assigner fo × List DErr)
  | _, a, [] => .ok (a, [])
  | i, a, line :: lines => do
    let (a, errs) ← a.updateLine (clk i) line
    let (a, more) ← Assigner.updateLines clk (i + 1) a lines
    return (a, errs ++ more)

/-- `Update`, downsampler/assigner.go:95-114. -/
def Assigner.update {fo : FloatOps} (a : Assigner fo) (clk : Nat → Int) (lines : Bytes) :
    Go (Assigner fo × List DErr) := Assigner.updateLines clk 0 a (splitNL lines)

/-- `Bytes`, downsampler/assigner.go:121-132. -/
def Assigner.bytes {fo : FloatOps} (S : Sorter) (ord : MapOrder) (now : Int) (a : Assigner fo) :
    Assigner fo × Bytes :=
  if now < a.curr.ts then (a, [])
  else
    ({ a with prev := a.curr, curr := a.next, next := .new fo (nextT a.period a.next.ts),
              tmin := a.curr.ts + -a.period }, a.prev.bytes S ord)

/-- `UntilNext`, downsampler/assigner.go:136-142. -/
def Assigner.untilNext {fo : FloatOps} (a : Assigner fo) (now : Int) : Int :=
  if a.curr.ts - now < 0 then 0 else a.curr.ts - now

/-! ## downsampler.go -/

/-- `isTimestampError`, downsampler/assigner.go:188-194. -/
def DErr.isTimestamp : DErr → Bool
  | .tooOld => true
  | .tooNew => true
  | _ => false

/-- The counters, downsampler/downsampler.go:32-36. -/
structure DStats where
  received : Nat
  sent : Nat
  invalidLines : Nat
  invalidTimestamps : Nat
  failedPublish : Nat
  deriving DecidableEq, Repr

/-- A worker: its assigner, the shared counters, ghost list of publishes. downsampler/downsampler.go:139-143. -/
structure DWorker (fo : FloatOps) where
  a : Assigner fo
  stats : DStats
  pubs : List LPub

/-- What the `select` of the worker loop delivers. downsampler/downsampler.go:145-162. -/
inductive DInput where
  | msg (lines : Bytes) (clk : Nat → Int)
  | timeout

/-- One iteration: the input, then the clock, map order and publish outcomes of the
emission. downsampler/downsampler.go:144-179. -/
structure DEvent where
  input : DInput
  now : Int
  ord : MapOrder
  fail : Nat → Bool

/-- downsampler/downsampler.go:146-159. -/
def DWorker.receive {fo : FloatOps} (w : DWorker fo) : DInput → Go (DWorker fo)
  | .timeout => .ok w
  | .msg lines clk => do
    let (a, errs) ← w.a.update clk lines
    return { w with
      a := a
      stats := { w.stats with
        received := w.stats.received + 1
        invalidTimestamps := w.stats.invalidTimestamps + errs.countP (·.isTimestamp)
        invalidLines := w.stats.invalidLines + errs.countP (fun e => !e.isTimestamp) } }

/-- downsampler/downsampler.go:164-178. -/
def DWorker.emit {fo : FloatOps} (S : Sorter) (w : DWorker fo) (e : DEvent) : Go (DWorker fo) := do
  let (a, buf) := w.a.bytes S e.ord e.now
  let w := { w with a := a }
  if buf.length > 0 then
    let chunks ← splitAll buf maxNATSMsgSize
    let pubs := chunks.zipIdx.map fun x => (⟨x.1, e.fail x.2⟩ : LPub)
    return { w with
      stats := { w.stats with sent := w.stats.sent + 1,
                              failedPublish := w.stats.failedPublish + pubs.countP (·.failed) }
      pubs := w.pubs ++ pubs }
  else return w

/-- One iteration of `worker`, downsampler/downsampler.go:144-179. -/
def DWorker.step {fo : FloatOps} (S : Sorter) (w : DWorker fo) (e : DEvent) : Go (DWorker fo) := do
  let w ← w.receive e.input
  w.emit S e

/-- `worker` over a history. downsampler/downsampler.go:144-179. -/
def DWorker.run {fo : FloatOps} (S : Sorter) : DWorker fo → List DEvent → Go (DWorker fo)
  | w, [] => .ok w
  | w, e :: es => do DWorker.run S (← w.step S e) es

/-- A starting worker, downsampler/downsampler.go:143. -/
def DWorker.new (fo : FloatOps) (period now : Int) : DWorker fo :=
  ⟨.new fo period now, ⟨0, 0, 0, 0, 0⟩, []⟩

end Spout
