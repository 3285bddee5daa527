import Verif.Model.Downsampler
import Verif.Spec.Decimal

/-! # Model of the float64 arithmetic of the downsampler

`float64` and package `strconv` are not in /repo; they are modelled from the Go specification
(IEEE-754 binary64, round to nearest, ties to even) and the documentation of `strconv`.  Go may fuse a multiplication with
an addition, but the only expression here (downsampler/avgbucket.go:235) has no multiplication.

A finite number is a sign and the 63 remaining bits of its representation, as a natural number: that number orders the magnitudes, and
plus one is the next float64.  Magnitudes are counted in units of 2^-1074, the smallest positive float64, of which every float64 is
a whole multiple. -/

namespace Spout

/-- The magnitude, in units of 2^-1074, of the float64 with the bits `k`.  The upper bits `k / 2^52` are the biased exponent, the lower 52 the
fraction; with exponent 0 there is no leading one bit.  IEEE-754 binary64; `float64` in downsampler/avgbucket.go:223. -/
def magN (k : Nat) : Nat := if k < 2 ^ 52 then k else (2 ^ 52 + k % 2 ^ 52) * 2 ^ (k / 2 ^ 52 - 1)

/-- `a / d` rounded to the nearest whole number, ties to even. IEEE-754, roundTiesToEven; downsampler/avgbucket.go:235. -/
def divEven (a d : Nat) : Nat :=
  if 2 * (a % d) < d then a / d
  else if d < 2 * (a % d) then a / d + 1
  else if a / d % 2 = 0 then a / d else a / d + 1

/-- The bits of the float64 nearest to `a / b` units: the number is cut after 53 bits, or at the unit.  If it is too large the bits are those
of infinity or more. IEEE-754, roundTiesToEven; downsampler/avgbucket.go:235. -/
def nearest (a b : Nat) : Nat :=
  let s := Nat.log2 (a / b) - 52
  s * 2 ^ 52 + divEven a (b * 2 ^ s)

/-- One, in units. IEEE-754 binary64; `float64` in downsampler/avgbucket.go:223. -/
def oneN : Nat := 2 ^ 1074

/-- The bits of infinity. IEEE-754 binary64; `float64` in downsampler/avgbucket.go:223. -/
def infBits : Nat := 2047 * 2 ^ 52

/-- A float64. downsampler/avgbucket.go:223. -/
inductive F64 where
  | nan
  | inf (neg : Bool)
  | fin (neg : Bool) (k : Fin infBits)
  deriving DecidableEq, Repr

/-- The float64 nearest to `±a / b` units. IEEE-754, roundTiesToEven; downsampler/avgbucket.go:235. -/
def F64.round (neg : Bool) (a b : Nat) : F64 :=
  if h : nearest a b < infBits then .fin neg ⟨nearest a b, h⟩ else .inf neg

/-- The value of a finite number in units of 2^-1074. IEEE-754 binary64; `float64` in downsampler/avgbucket.go:223. -/
def F64.units : F64 → Int
  | .fin neg k => if neg then -(magN k : Int) else magN k
  | _ => 0

/-- The float64 nearest to `u` units; an exact zero gets the sign `negZero`. IEEE-754, roundTiesToEven; downsampler/avgbucket.go:235. -/
def F64.ofUnits (negZero : Bool) (u : Int) : F64 :=
  .round (if u = 0 then negZero else decide (u < 0)) u.natAbs 1

/-- `x + y`, the outer operation of downsampler/avgbucket.go:235. -/
def F64.add : F64 → F64 → F64
  | .nan, _ => .nan
  | _, .nan => .nan
  | .inf s, .inf t => if s = t then .inf s else .nan
  | .inf s, .fin _ _ => .inf s
  | .fin _ _, .inf t => .inf t
  | .fin s k, .fin t l => .ofUnits (s && t) ((F64.fin s k).units + (F64.fin t l).units)

/-- `-x`. IEEE-754; part of the subtraction in downsampler/avgbucket.go:235. -/
def F64.neg : F64 → F64
  | .nan => .nan
  | .inf s => .inf (!s)
  | .fin s k => .fin (!s) k

/-- `x - y`, the inner operation of downsampler/avgbucket.go:235. -/
def F64.sub (x y : F64) : F64 := x.add y.neg

/-- `x / y`, the division of downsampler/avgbucket.go:235. -/
def F64.div : F64 → F64 → F64
  | .nan, _ => .nan
  | _, .nan => .nan
  | .inf _, .inf _ => .nan
  | .inf s, .fin t _ => .inf (s != t)
  | .fin s _, .inf t => .fin (s != t) ⟨0, by decide⟩
  | .fin s k, .fin t l =>
    if magN l = 0 then (if magN k = 0 then .nan else .inf (s != t))
    else .round (s != t) (magN k * oneN) (magN l)

/-- `float64(n)`, downsampler/avgbucket.go:235. -/
def F64.ofInt (n : Int) : F64 := .ofUnits false (n * oneN)

/-- `average + ((b - average) / float64(count))`, downsampler/avgbucket.go:235. -/
def F64.step (average b : F64) (count : Int) : F64 := average.add ((b.sub average).div (.ofInt count))

/-! ## strconv.ParseFloat -/

/-- An optional sign. `strconv.ParseFloat`, not in /repo; used in downsampler/avgbucket.go:185, 228. -/
def splitSign : Bytes → Bool × Bytes
  | 45 :: s => (true, s)
  | 43 :: s => (false, s)
  | s => (false, s)

/-- The leading digits and the rest. `strconv.ParseFloat`, not in /repo; used in downsampler/avgbucket.go:185, 228. -/
def splitDigits (s : Bytes) : Bytes × Bytes :=
  (s.takeWhile fun c => decide (Spec.IsDigit c), s.dropWhile fun c => decide (Spec.IsDigit c))

/-- An optional exponent, up to the end. `strconv.ParseFloat`, not in /repo; used in downsampler/avgbucket.go:185, 228. -/
def parseExponent : Bytes → Option Int
  | [] => some 0
  | c :: s =>
    if c = 101 ∨ c = 69 then
      let (neg, s) := splitSign s
      let (ds, rest) := splitDigits s
      if ds = [] ∨ rest ≠ [] then none
      else some (if neg then -(Spec.digitsVal ds : Int) else Spec.digitsVal ds)
    else none

/-- An optional point and the digits after it. `strconv.ParseFloat`, not in /repo; used in downsampler/avgbucket.go:185, 228. -/
def splitPoint (s : Bytes) : Bytes × Bytes := if s.head? = some 46 then splitDigits s.tail else ([], s)

/-- A decimal number without sign: digits with at most one point, optional exponent: all its digits as a number, and the power of ten
it is to be multiplied with. `strconv.ParseFloat`, not in /repo; used in downsampler/avgbucket.go:185, 228. -/
def parseUnsigned (s : Bytes) : Option (Nat × Int) :=
  let (whole, s) := splitDigits s
  let (frac, s) := splitPoint s
  if whole ++ frac = [] then none
  else (parseExponent s).map fun e => (Spec.digitsVal (whole ++ frac), e - frac.length)

/-- The same with an optional sign. `strconv.ParseFloat`, not in /repo; used in downsampler/avgbucket.go:185, 228. -/
def parseDecimal (s : Bytes) : Option (Bool × Nat × Int) :=
  (parseUnsigned (splitSign s).2).map fun x => ((splitSign s).1, x.1, x.2)

/-- The float64 nearest to `±n * 10^e`. `strconv.ParseFloat`, not in /repo; used in downsampler/avgbucket.go:185, 228. -/
def F64.ofDecimal (neg : Bool) (n : Nat) (e : Int) : F64 :=
  if 0 ≤ e then .round neg (n * 10 ^ e.toNat * oneN) 1 else .round neg (n * oneN) (10 ^ (-e).toNat)

/-- Lower case. `strconv.ParseFloat`, not in /repo; used in downsampler/avgbucket.go:185, 228. -/
def lowerByte (c : Byte) : Byte := if 65 ≤ c ∧ c ≤ 90 then c + 32 else c

/-- `inf`, `infinity`, `nan` in any case. `strconv.ParseFloat`, not in /repo; used in downsampler/avgbucket.go:185, 228. -/
def parseSpecial (s : Bytes) : Option F64 :=
  if s.map lowerByte = b!"nan" then some .nan
  else
    let (neg, s) := splitSign s
    if s.map lowerByte = b!"inf" ∨ s.map lowerByte = b!"infinity" then some (.inf neg) else none

/-- `strconv.ParseFloat(s, 64)`, `none` if there is an error (also if the number is too large); used in downsampler/avgbucket.go:185, 228.
Numbers in hexadecimal or with underscores, which Go accepts since version 1.13, are left to the parameter `other`. -/
def parseFloat (other : Bytes → Option F64) (s : Bytes) : Option F64 :=
  match parseDecimal s with
  | some (neg, n, e) =>
    match F64.ofDecimal neg n e with
    | .fin s k => some (.fin s k)
    | _ => none
  | none =>
    match parseSpecial s with
    | some x => some x
    | none => other s

/-! ## strconv.AppendFloat -/

/-- Powers of ten are counted from 10^-400, which is smaller than any float64. A simplification in the model; `strconv.AppendFloat` is not in /repo, see downsampler/avgbucket.go:240. -/
def tenN : Nat := 10 ^ 400

/-- How many decimal digits before the point, plus 400, the magnitude of the positive number with the bits `k` has. `strconv.AppendFloat`, not in /repo; used in downsampler/avgbucket.go:240. -/
def pointPlace (k : Nat) : Nat := (natDigits (magN k * tenN / oneN)).length

/-- Is `d * 10^(j-400)` read as the number with the bits `k`? `strconv.AppendFloat`, not in /repo; used in downsampler/avgbucket.go:240. -/
def readsAs (k d j : Nat) : Bool := nearest (d * 10 ^ j * oneN) tenN == k

/-- The best of the numbers of `n` digits, if one is read as the number with the bits `k`: the digits and the exponent plus 400. `strconv.AppendFloat`, not in /repo; used in downsampler/avgbucket.go:240. -/
def digitsOf (k n : Nat) : Option (Nat × Nat) :=
  let j := pointPlace k - n
  let d := magN k * tenN / (oneN * 10 ^ j)
  let r := magN k * tenN % (oneN * 10 ^ j)
  let down := readsAs k d j
  let up := readsAs k (d + 1) j
  if down ∧ (¬ up ∨ 2 * r < oneN * 10 ^ j ∨ 2 * r = oneN * 10 ^ j ∧ d % 2 = 0) then some (d, j)
  else if up then some (d + 1, j) else none

/-- The shortest digits that are read as the number with the bits `k` (17 always are enough, see `shortest_found`). `strconv.AppendFloat(…, 'g', -1, 64)`, not in /repo; used in downsampler/avgbucket.go:240. -/
def shortestDigits (k : Nat) : Nat × Nat :=
  (((List.range 17).map (· + 1)).findSome? (digitsOf k)).getD (0, 0)

/-- Without trailing zeros. `strconv.AppendFloat`, not in /repo; used in downsampler/avgbucket.go:240. -/
def stripZeros (ds : Bytes) : Bytes := (ds.reverse.dropWhile (· = 48)).reverse

/-- The exponent, with at least two digits. `strconv.AppendFloat`, not in /repo; used in downsampler/avgbucket.go:240. -/
def formatExp (e : Int) : Bytes :=
  (if e < 0 then b!"e-" else b!"e+") ++ (if e.natAbs < 10 then b!"0" else []) ++ natDigits e.natAbs

/-- The number with the digits `ds` and the point after `dp` of them: with an exponent if it is less than -4 or more than 5, as `%e` or as `%f`. `strconv.AppendFloat(…, 'g', -1, 64)`, not in /repo; used in downsampler/avgbucket.go:240. -/
def formatDigits (ds : Bytes) (dp : Int) : Bytes :=
  if dp - 1 < -4 ∨ 6 ≤ dp - 1 then
    ds.take 1 ++ (if ds.length > 1 then 46 :: ds.drop 1 else []) ++ formatExp (dp - 1)
  else if dp ≤ 0 then
    b!"0." ++ List.replicate (-dp).toNat 48 ++ ds
  else if ds.length ≤ dp.toNat then ds ++ List.replicate (dp.toNat - ds.length) 48
  else ds.take dp.toNat ++ 46 :: ds.drop dp.toNat

/-- The number with the bits `k`, without sign. `strconv.AppendFloat`, not in /repo; used in downsampler/avgbucket.go:240. -/
def printMag (k : Nat) : Bytes :=
  if k = 0 then b!"0"
  else formatDigits (stripZeros (natDigits (shortestDigits k).1)) (((natDigits (shortestDigits k).1).length : Int) + (shortestDigits k).2 - 400)

/-- `strconv.AppendFloat(nil, x, 'g', -1, 64)`, not in /repo; used in downsampler/avgbucket.go:240. -/
def printFloat : F64 → Bytes
  | .nan => b!"NaN"
  | .inf neg => if neg then b!"-Inf" else b!"+Inf"
  | .fin neg k => (if neg then b!"-" else []) ++ printMag k.val

/-- The floats of the downsampler: downsampler/avgbucket.go:185, 228, 235, 240. -/
def binary64 (other : Bytes → Option F64) : FloatOps where
  F := F64
  parse := parseFloat other
  step := F64.step
  print := printFloat

end Spout
