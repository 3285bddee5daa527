import Verif.Model.Convert

/-! # Model of package `influx`

Index loops are transliterated with an explicit iteration budget `fuel`
(structural recursion); running out of budget is `panic`, and the no-panic
theorems (C14) show that this never happens with the budget used. -/

namespace Spout

/-! ## escape.go -/

/-- `containsByte`, influx/escape.go:106-109. -/
def containsByte (s : Bytes) (b : Byte) : Bool := s.contains b

/-- `countBytes`, influx/escape.go:87-95. -/
def countBytes (s chars : Bytes) : Nat :=
  s.foldl (fun count c => if containsByte chars c then count + 1 else count) 0

/-- `Escape`, influx/escape.go:61-83. -/
def escape (s chars : Bytes) : Bytes :=
  if chars.length = 0 then s                           -- 62-65
  else if countBytes s chars = 0 then s                -- 66-70
  else s.foldl (fun out b =>                           -- 76-81
    let out := if containsByte chars b then out ++ [BS] else out
    out ++ [b]) []

/-- `EscapeTagPart`, influx/escape.go:23-25. -/
def escapeTagPart (s : Bytes) : Bytes := escape s b!",= "

/-- `EscapeMeasurement`, influx/escape.go:29-31. -/
def escapeMeasurement (s : Bytes) : Bytes := escape s b!", "

/-- `EscapeQuotedString`, influx/escape.go:35-58. -/
def escapeQuotedString (s : Bytes) : Bytes :=
  if countBytes s [DQ] = 0 then                        -- 36-44
    DQ :: s ++ [DQ]
  else                                                 -- 48-57
    (s.foldl (fun out b =>
      let out := if b = DQ then out ++ [BS] else out
      out ++ [b]) [DQ]) ++ [DQ]

/-! ## unescape.go -/

/-- `out[j] = b; j++` on the preallocated buffer of `inLen` bytes
(influx/unescape.go:37, 48-49, 53-54); `out` is the part written so far. -/
def putByte (inLen : Nat) (out : Bytes) (b : Byte) : Go Bytes :=
  if out.length < inLen then .ok (out ++ [b]) else .panic

/-- The loop of `Unescape`, influx/unescape.go:40-55. -/
def unescapeLoop (s : Bytes) : (fuel i : Nat) → (out : Bytes) → Go Bytes
  | 0, _, _ => .panic
  | fuel + 1, i, out =>
    if i ≥ s.length then .ok out                       -- 41-43, 56
    else do
      let ii := i + 1
      let c ← idx s i
      if c = BS ∧ ii < s.length then
        let d ← idx s ii
        if d = COMMA ∨ d = DQ ∨ d = SP ∨ d = EQ then   -- 46-50
          let out ← putByte s.length out d
          unescapeLoop s fuel (i + 2) out
        else
          let out ← putByte s.length out c             -- 53-54
          unescapeLoop s fuel ii out
      else
        let out ← putByte s.length out c               -- 53-54
        unescapeLoop s fuel ii out

/-- `Unescape`, influx/unescape.go:26-57. -/
def unescape (s : Bytes) : Go Bytes :=
  if ¬ s.contains BS then .ok s                        -- 27-29
  else unescapeLoop s (s.length + 1) 0 []

/-! ## token.go -/

/-- The loop of `token`, influx/token.go:49-67. -/
def tokenLoop (s til : Bytes) : (fuel i : Nat) → (escaped : Bool) → Go (Bytes × Bytes × Bool)
  | 0, _, _ => .panic
  | fuel + 1, i, escaped =>
    let i := i + 1                                     -- 50
    if i ≥ s.length then .ok (s, [], escaped)          -- 51-53
    else do
      let p ← idx s (i - 1)
      if p = BS then tokenLoop s til fuel i true       -- 55-59
      else
        let c ← idx s i
        if c ∈ til then                                -- 61-66
          let out ← sliceTo s i
          let rem ← sliceFrom s i
          return (out, rem, escaped)
        else tokenLoop s til fuel i escaped

/-- `token`, influx/token.go:36-68. -/
def token (s til : Bytes) : Go (Bytes × Bytes × Bool) :=
  if s.length = 1 then do                              -- 38-45
    let c ← idx s 0
    if c ∈ til then return ([], s, false) else return (s, [], false)
  else tokenLoop s til (s.length + 1) 0 false

/-- `Token`, influx/token.go:21-27. -/
def tokenU (s til : Bytes) : Go (Bytes × Bytes) := do
  let (tok, rem, escaped) ← token s til
  if escaped then
    let tok ← unescape tok
    return (tok, rem)
  else return (tok, rem)

/-- `TokenEscaped`, influx/token.go:31-34. -/
def tokenEscaped (s til : Bytes) : Go (Bytes × Bytes) := do
  let (tok, rem, _) ← token s til
  return (tok, rem)

/-- Errors of `QuotedString` (influx/token.go:77, 80, 88). -/
inductive QErr where
  | tooShort | firstChar | missingTrailing
  deriving DecidableEq, Repr

/-- The loop of `QuotedString`, influx/token.go:85-101. -/
def quotedLoop (s : Bytes) : (fuel i : Nat) → (escaped : Bool) → Go (Except QErr (Bytes × Bytes))
  | 0, _, _ => .panic
  | fuel + 1, i, escaped =>
    let i := i + 1
    if i ≥ s.length then .ok (.error .missingTrailing) -- 87-89
    else do
      let c ← idx s i
      if c = DQ then
        let p ← idx s (i - 1)
        if p = BS then quotedLoop s fuel i true        -- 91-94
        else
          let out ← slice s 1 i                        -- 95
          let out ← if escaped then unescape out else .ok out
          let rem ← sliceFrom s (i + 1)
          return .ok (out, rem)
      else quotedLoop s fuel i escaped

/-- `QuotedString`, influx/token.go:74-102. -/
def quotedString (s : Bytes) : Go (Except QErr (Bytes × Bytes)) :=
  if s.length < 2 then .ok (.error .tooShort)          -- 76-78
  else do
    let c ← idx s 0
    if c ≠ DQ then return .error .firstChar            -- 79-81
    else quotedLoop s (s.length + 1) 0 false

/-! ## tags.go -/

/-- `Tag`, influx/tags.go:31-34. -/
structure Tag where
  key : Bytes
  value : Bytes
  deriving DecidableEq, Repr

/-- `TagSet.Less` on two elements, influx/tags.go:41. -/
def Tag.less (a b : Tag) : Bool := bytesLt a.key b.key

/-- The inner loop of `SubsetOf`, influx/tags.go:53-61, over the pairs of `t`
and `found`; returns the updated `found` and the number of newly found tags.
The early `return true` (57-59) is taken as soon as `foundCount` reaches
`numTags`; it is modelled by testing the count once after the inner loop, which
is equivalent because `found` is not observable afterwards. -/
def subsetInner (o : Tag) : List (Tag × Bool) → List (Tag × Bool) × Nat
  | [] => ([], 0)
  | (tag, found) :: rest =>
    let (rest', n) := subsetInner o rest
    if !found && tag.key == o.key && tag.value == o.value then ((tag, true) :: rest', n + 1)
    else ((tag, found) :: rest', n)

/-- The outer loop of `SubsetOf`, influx/tags.go:52-63. -/
def subsetOuter (numTags : Nat) : List Tag → List (Tag × Bool) → Nat → Bool
  | [], _, _ => false
  | o :: os, st, foundCount =>
    let (st', n) := subsetInner o st
    if foundCount + n = numTags ∧ n > 0 then true
    else subsetOuter numTags os st' (foundCount + n)

/-- `SubsetOf`, influx/tags.go:44-64. -/
def subsetOf (t other : List Tag) : Bool :=
  if t.length = 0 then true
  else subsetOuter t.length other (t.map fun x => (x, false)) 0

/-- `TagSet.Bytes`, influx/tags.go:68-92.  (The capacity estimate 74-81 has no
observable effect.) -/
def tagBytes : List Tag → Bytes
  | [] => []
  | [t] => escapeTagPart t.key ++ [EQ] ++ escapeTagPart t.value
  | t :: u :: ts => escapeTagPart t.key ++ [EQ] ++ escapeTagPart t.value ++ [COMMA] ++ tagBytes (u :: ts)

/-- Result of `ParseTags` without error: measurement, tags, remainder. influx/tags.go:99-132, `ParseTags`. -/
structure Parsed where
  measurement : Bytes
  tags : List Tag
  rest : Bytes
  deriving DecidableEq, Repr

/-- The loop of `ParseTags`, influx/tags.go:109-131; `none` is the error
"invalid tag". -/
def parseTagsLoop (m : Bytes) : (fuel : Nat) → (line : Bytes) → (tags : List Tag) → Go (Option Parsed)
  | 0, _, _ => .panic
  | fuel + 1, line, tags =>
    if line.length = 0 then .ok (some ⟨m, tags, []⟩)                  -- 110-112
    else do
      let c ← idx line 0
      if c = SP then                                                  -- 113-115
        let r ← sliceFrom line 1
        return some ⟨m, tags, r⟩
      else
        let l1 ← sliceFrom line 1
        let (key, line) ← tokenU l1 b!"= ,"                           -- 117
        if line.length = 0 then return none                           -- 118
        else
          let e ← idx line 0
          if e ≠ EQ then return none                                  -- 118-120
          else
            let l2 ← sliceFrom line 1
            let (value, line) ← tokenU l2 b!", "                      -- 122
            if value.length = 0 then return none                      -- 123-125
            else parseTagsLoop m fuel line (tags ++ [⟨key, value⟩])   -- 127-130

/-- `ParseTags`, influx/tags.go:99-132. -/
def parseTags (line : Bytes) : Go (Option Parsed) := do
  let (m, line) ← tokenU line b!", "
  if line.length = 0 then return some ⟨m, [], []⟩
  else parseTagsLoop m (line.length + 1) line []

/-! ## timestamps.go -/

/-- `minNanoTime`, influx/timestamps.go:39. -/
def minNanoTime : Int := -9223372036854775806
/-- `maxNanoTime`, influx/timestamps.go:49. -/
def maxNanoTime : Int := 9223372036854775806
/-- `MaxTsLen = len(fmt.Sprint(maxNanoTime))`, influx/timestamps.go:54
(`maxTsLen_eq` proves that it is the length of the printed constant). -/
def maxTsLen : Nat := 19

/-- Common result of the extraction loops on finding a space at `i`,
influx/timestamps.go:81-85 and 117-121. -/
def tsAt (line : Bytes) (i : Nat) : Go (Int × Int) := do
  let t ← sliceFrom line (i + 1)
  match toInt t with
  | .error _ => return (-1, -1)
  | .ok out => return (out, (i : Int) + 1)

/-- Removal of one trailing newline, influx/timestamps.go:69-73 and 104-108. -/
def dropTrailingNL (line : Bytes) : Go Bytes := do
  let c ← idx line (line.length - 1)
  if c = NL then sliceTo line (line.length - 1) else return line

/-- The loop of `ExtractTimestamp`, influx/timestamps.go:79-89; the first
argument is `i + 1`. -/
def extractBack (line : Bytes) (to : Nat) : Nat → Go (Int × Int)
  | 0 => .ok (-1, -1)
  | i + 1 =>
    if i ≥ to then do
      let c ← idx line i
      if c = SP then tsAt line i else extractBack line to i
    else .ok (-1, -1)

/-- `ExtractTimestamp`, influx/timestamps.go:63-90.  `to` is clamped at 0
(75-78) by natural number subtraction. -/
def extractTimestamp (line : Bytes) : Go (Int × Int) :=
  if line.length < 6 then .ok (-1, -1)
  else do
    let line ← dropTrailingNL line
    extractBack line (line.length - maxTsLen - 1) line.length

/-- The loop of `ExtractNanos`, influx/timestamps.go:115-124. -/
def extractFwd (line : Bytes) : (fuel i : Nat) → Go (Int × Int)
  | 0, _ => .panic
  | fuel + 1, i =>
    if i < line.length then do
      let c ← idx line i
      if c = SP then tsAt line i else extractFwd line fuel (i + 1)
    else .ok (-1, -1)

/-- `ExtractNanos`, influx/timestamps.go:97-125. -/
def extractNanos (line : Bytes) : Go (Int × Int) :=
  if line.length < 6 then .ok (-1, -1)
  else do
    let line ← dropTrailingNL line
    extractFwd line (line.length + 1) (line.length - maxTsLen - 1)

/-- `getPrecisionMultiplier`, influx/timestamps.go:141-156 (nanoseconds). -/
def precisionMultiplier (p : Bytes) : Int :=
  if p = b!"u" then 1000
  else if p = b!"ms" then 1000000
  else if p = b!"s" then 1000000000
  else if p = b!"m" then 60000000000
  else if p = b!"h" then 3600000000000
  else 1

/-- `safeSignedMult`, influx/timestamps.go:159-168.  Go division truncates
towards zero (`Int.tdiv`); `b` is never 0 at the division. -/
def safeSignedMult (a b : Int) : Int × Bool :=
  if a = 0 ∨ b = 0 ∨ a = 1 ∨ b = 1 then (wrap64 (a * b), true)
  else if a = minNanoTime ∨ b = maxNanoTime then (0, false)
  else
    let c := wrap64 (a * b)
    (c, c.tdiv b == a)

/-- `SafeCalcTime`, influx/timestamps.go:129-138; `none` is ErrTimeOutOfRange. -/
def safeCalcTime (ts : Int) (precision : Bytes) : Option Int :=
  let (t, ok) := safeSignedMult ts (precisionMultiplier precision)
  if ok then
    if t < minNanoTime ∨ t > maxNanoTime then none else some t
  else none

end Spout
