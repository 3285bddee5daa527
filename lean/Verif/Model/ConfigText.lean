import Verif.Model.Config
import Verif.Model.Float64

/-! # Model of the texts of durations and sizes in a configuration file

`Duration.UnmarshalText` (config/duration.go:33-37) calls `time.ParseDuration`; sizes are `datasize.ByteSize`
(config/config.go:52, 60, 61), decoded by its `UnmarshalText`.  Neither function is in /repo; they are modelled from the sources of Go 1.15 and of
`github.com/c2h5oh/datasize` v0.0.0-20200825124411-48ed595a09d2 (the versions of go.mod).  A number that stands in the file without quotes is decoded as its text. -/

namespace Spout

/-- `x * y`, rounded to nearest. IEEE-754; used by `time.ParseDuration`, config/duration.go:35. -/
def F64.mul : F64 → F64 → F64
  | .nan, _ => .nan
  | _, .nan => .nan
  | .inf s, .inf t => .inf (s != t)
  | .inf s, .fin t l => if magN l = 0 then .nan else .inf (s != t)
  | .fin s k, .inf t => if magN k = 0 then .nan else .inf (s != t)
  | .fin s k, .fin t l => .round (s != t) (magN k * magN l) oneN

/-- `int64(x)`: towards zero, for a finite number in the range of `int64` (for others Go leaves the result open). Used by `time.ParseDuration`, config/duration.go:35. -/
def F64.toInt64 : F64 → Int
  | .fin s k => if s then -((magN k / oneN : Nat) : Int) else ((magN k / oneN : Nat) : Int)
  | _ => 0

namespace Conf

/-- `1<<63 - 1`. `time.ParseDuration`, called at config/duration.go:35. -/
def maxI64 : Int := 9223372036854775807

/-- Is the byte not a decimal digit? `time.leadingInt`, called by `time.ParseDuration`, config/duration.go:35. -/
abbrev notDigit (c : Byte) : Prop := c < 48 ∨ 57 < c

/-- `time.leadingInt`: the leading digits as a number (`x` are those before) and the rest, or an error on overflow. Called by `time.ParseDuration`, config/duration.go:35. -/
def leadingInt (x : Int) : Bytes → Option (Int × Bytes)
  | [] => some (x, [])
  | c :: s =>
    if notDigit c then some (x, c :: s)
    else if x > maxI64 / 10 then none
    else
      let y := wrap64 (x * 10 + (c.toNat : Int) - 48)
      if y < 0 then none else leadingInt y s

/-- `time.leadingFraction`: the digits after the point as a number, the power of ten to divide by, and the rest; digits that do not fit are skipped. Called by `time.ParseDuration`, config/duration.go:35. -/
def leadingFraction (x : Int) (scale : F64) (overflow : Bool) : Bytes → Int × F64 × Bytes
  | [] => (x, scale, [])
  | c :: s =>
    if notDigit c then (x, scale, c :: s)
    else if overflow then leadingFraction x scale true s
    else if x > maxI64 / 10 then leadingFraction x scale true s
    else
      let y := wrap64 (x * 10 + (c.toNat : Int) - 48)
      if y < 0 then leadingFraction x scale true s else leadingFraction y (scale.mul (.ofInt 10)) false s

/-- `time.unitMap`, in nanoseconds; the two spellings of microseconds with a Greek letter are U+00B5 and U+03BC. Used by `time.ParseDuration`, config/duration.go:35. -/
def unitMap (u : Bytes) : Option Int :=
  if u = b!"ns" then some 1
  else if u = b!"us" then some 1000
  else if u = [0xC2, 0xB5, 115] then some 1000
  else if u = [0xCE, 0xBC, 115] then some 1000
  else if u = b!"ms" then some 1000000
  else if u = b!"s" then some 1000000000
  else if u = b!"m" then some 60000000000
  else if u = b!"h" then some 3600000000000
  else none

/-- Does the byte belong to a unit? `time.ParseDuration`, called at config/duration.go:35. -/
def unitByte (c : Byte) : Bool := !(c == 46 || !decide (notDigit c))

/-- A number with its unit: `v` before the point, `f / scale` after it. `time.ParseDuration`, called at config/duration.go:35. -/
def inUnit (v f : Int) (scale : F64) (unit : Int) : Option Int :=
  if v > maxI64 / unit then none
  else
    let v := v * unit
    if f > 0 then
      let v := wrap64 (v + ((F64.ofInt f).mul ((F64.ofInt unit).div scale)).toInt64)
      if v < 0 then none else some v
    else some v

/-- The part after the point, if there is a point: the digits, the power of ten, the rest, and whether there were digits. `time.ParseDuration`, called at config/duration.go:35. -/
def afterPoint (s : Bytes) : Int × F64 × Bytes × Bool :=
  match s with
  | [] => (0, .ofInt 1, [], false)
  | c :: s' =>
    if c = 46 then
      let r := leadingFraction 0 (.ofInt 1) false s'
      (r.1, r.2.1, r.2.2, decide (s'.length ≠ r.2.2.length))
    else (0, .ofInt 1, c :: s', false)

/-- One pass of the loop of `time.ParseDuration`, called at config/duration.go:35: the nanoseconds, and the rest of the text. -/
def parsePart (s : Bytes) : Option (Int × Bytes) :=
  match s with
  | [] => none
  | c :: _ =>
    if ¬ (c = 46 ∨ ¬ notDigit c) then none
    else
      match leadingInt 0 s with
      | none => none
      | some (v, s1) =>
        let pre := decide (s.length ≠ s1.length)
        let (f, scale, s2, post) := afterPoint s1
        if !pre && !post then none
        else
          let u := s2.takeWhile unitByte
          let s3 := s2.dropWhile unitByte
          if u = [] then none
          else
            match unitMap u with
            | none => none
            | some unit => (inUnit v f scale unit).map fun v => (v, s3)

/-- The loop of `time.ParseDuration`, called at config/duration.go:35.  Each pass takes at least one byte, so that `fuel` at least the length of the text is enough. -/
def parseParts (fuel : Nat) (d : Int) (s : Bytes) : Option Int :=
  if s = [] then some d
  else
    match fuel with
    | 0 => none
    | fuel + 1 =>
      match parsePart s with
      | none => none
      | some (v, rest) =>
        let d' := wrap64 (d + v)
        if d' < 0 then none else parseParts fuel d' rest

/-- `time.ParseDuration`, called at config/duration.go:35: nanoseconds, or `none` if there is an error. -/
def parseDuration (s : Bytes) : Option Int :=
  let (neg, s) := splitSign s
  if s = b!"0" then some 0
  else if s = [] then none
  else (parseParts s.length 0 s).map fun d => if neg then wrap64 (-d) else d

/-! ## Sizes -/

/-- `strings.TrimSpace`, `strings.ToLower`, and the units that `datasize` knows besides those of README.md:104-109 (such as `kilobyte`).  For ASCII texts
they do what is expected; nothing is assumed about others. Used by `ByteSize.UnmarshalText`, called for config/config.go:52, 60, 61. -/
structure SizeOps where
  trim : Bytes → Bytes
  lower : Bytes → Bytes
  longUnit : Bytes → Option Nat

/-- White space in ASCII. `strings.TrimSpace`, used by `ByteSize.UnmarshalText`, called for config/config.go:52, 60, 61. -/
def isSpace (c : Byte) : Bool := decide ((9 ≤ c ∧ c ≤ 13) ∨ c = 32)

/-- `strings.TrimSpace` of an ASCII text. Used by `ByteSize.UnmarshalText`, called for config/config.go:52, 60, 61. -/
def trimAscii (s : Bytes) : Bytes := ((s.dropWhile isSpace).reverse.dropWhile isSpace).reverse

/-- The digits at the start, `val` those before; `none`: too large. `ByteSize.UnmarshalText`, called for config/config.go:52, 60, 61; `val` is a `uint64`, of which `cutoff` is a tenth. -/
def sizeDigits (val : Nat) : Bytes → Option (Nat × Bytes)
  | [] => some (val, [])
  | c :: s =>
    if 48 ≤ c ∧ c ≤ 57 then
      if val > 18446744073709551615 / 10 then none
      else
        let v := wrapU64 (val * 10)
        if v > wrapU64 (v + (c.toNat - 48)) then none else sizeDigits (wrapU64 (v + (c.toNat - 48))) s
    else some (val, c :: s)

/-- How many bytes a unit (in lower case) is. `ByteSize.UnmarshalText`, called for config/config.go:52, 60, 61. -/
def sizeUnit (T : SizeOps) (u : Bytes) : Option Nat :=
  if u = [] ∨ u = b!"b" then some 1
  else if u = b!"k" ∨ u = b!"kb" then some (2 ^ 10)
  else if u = b!"m" ∨ u = b!"mb" then some (2 ^ 20)
  else if u = b!"g" ∨ u = b!"gb" then some (2 ^ 30)
  else if u = b!"t" ∨ u = b!"tb" then some (2 ^ 40)
  else if u = b!"p" ∨ u = b!"pb" then some (2 ^ 50)
  else if u = b!"e" ∨ u = b!"eb" then some (2 ^ 60)
  else T.longUnit u

/-- `ByteSize.UnmarshalText`, called for config/config.go:52, 60, 61; `none` is an error. -/
def parseSize (T : SizeOps) (t : Bytes) : Option Nat :=
  match sizeDigits 0 t with
  | none => none
  | some (val, rest) =>
    if t ≠ [] ∧ rest = t then none                                    -- no digit
    else
      let unit := T.trim rest
      if unit = b!"Kb" ∨ unit = b!"Mb" ∨ unit = b!"Gb" ∨ unit = b!"Tb" ∨ unit = b!"Pb" ∨ unit = b!"Eb" then none   -- bits
      else
        match sizeUnit T (T.lower unit) with
        | none => none
        | some m => if val > 18446744073709551615 / m then none else some (wrapU64 (val * m))

/-! ## In a file -/

/-- The texts of the durations and sizes in a file: the keys that are present. config/config.go:52-68. -/
structure Texts where
  batchMaxSize : Option Bytes := none
  batchMaxAge : Option Bytes := none
  writeTimeout : Option Bytes := none
  writerRetryInterval : Option Bytes := none
  writerRetryTimeout : Option Bytes := none
  readBufferSize : Option Bytes := none
  natsMaxPendingSize : Option Bytes := none
  maxTimeDelta : Option Bytes := none
  statsInterval : Option Bytes := none
  downsamplePeriod : Option Bytes := none
  deriving DecidableEq, Repr

/-- A key with a text: absent, or decoded, or an error. `toml.DecodeReader`, config/config.go:291. -/
def decodeText {α : Type} (parse : Bytes → Option α) : Option Bytes → Option (Option α)
  | none => some none
  | some t => (parse t).map some

/-- Decoding the texts of a file whose other keys are in `l`; `none` is an error. `toml.DecodeReader`, config/config.go:291, with config/duration.go:33-37. -/
def decodeTexts (T : SizeOps) (l : Layer) (t : Texts) : Option Layer := do
  let batchMaxSize ← decodeText (parseSize T) t.batchMaxSize
  let batchMaxAge ← decodeText parseDuration t.batchMaxAge
  let writeTimeout ← decodeText parseDuration t.writeTimeout
  let writerRetryInterval ← decodeText parseDuration t.writerRetryInterval
  let writerRetryTimeout ← decodeText parseDuration t.writerRetryTimeout
  let readBufferSize ← decodeText (parseSize T) t.readBufferSize
  let natsMaxPendingSize ← decodeText (parseSize T) t.natsMaxPendingSize
  let maxTimeDelta ← decodeText parseDuration t.maxTimeDelta
  let statsInterval ← decodeText parseDuration t.statsInterval
  let downsamplePeriod ← decodeText parseDuration t.downsamplePeriod
  return { l with
    batchMaxSize := batchMaxSize
    batchMaxAge := batchMaxAge
    writeTimeout := writeTimeout
    writerRetryInterval := writerRetryInterval
    writerRetryTimeout := writerRetryTimeout
    readBufferSize := readBufferSize
    natsMaxPendingSize := natsMaxPendingSize
    maxTimeDelta := maxTimeDelta
    statsInterval := statsInterval
    downsamplePeriod := downsamplePeriod }

/-- A file with these keys and texts. config/config.go:291. -/
def fileWith (T : SizeOps) (l : Layer) (t : Texts) (err : Bytes) : FileState :=
  match decodeTexts T l t with
  | some l => .decoded l
  | none => .invalid err

end Conf
end Spout
