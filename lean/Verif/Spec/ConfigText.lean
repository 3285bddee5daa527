import Mathlib.Algebra.Order.Field.Rat
import Mathlib.Algebra.Order.Group.Unbundled.Abs
import Verif.Model.ConfigText
import Verif.Spec.Float

/-! # Specification: durations and sizes in a configuration file

A duration is an optional sign and one or more parts, such as `1h30m` or `1.5h`; a part is a decimal number and a unit.  A size is a whole number and
an optional unit, such as `2048KB` or `2 mb`. -/

namespace Spout.Spec

/-- The units of time, in nanoseconds. -/
def timeUnits : List (Bytes × Nat) :=
  [(b!"ns", 1), (b!"us", 1000), ([0xC2, 0xB5, 115], 1000), ([0xCE, 0xBC, 115], 1000), (b!"ms", 1000 * 1000), (b!"s", 1000 * 1000 * 1000),
   (b!"m", 60 * 1000 * 1000 * 1000), (b!"h", 60 * 60 * 1000 * 1000 * 1000)]

/-- A part of a duration: digits before the point, the point and the digits after it (if there is a point), unit, nanoseconds in the unit. -/
structure DurPart where
  whole : Bytes
  frac : Option Bytes
  unit : Bytes
  ns : Nat

/-- The digits after the point. -/
def DurPart.decimals (p : DurPart) : Bytes := p.frac.getD []

/-- The text of a part. -/
def DurPart.text (p : DurPart) : Bytes := p.whole ++ (match p.frac with | none => [] | some ds => 46 :: ds) ++ p.unit

/-- Digits, at least one, and a known unit. -/
structure DurPart.Ok (p : DurPart) : Prop where
  digits : ∀ c ∈ p.whole ++ p.decimals, IsDigit c
  some : p.whole ++ p.decimals ≠ []
  unit : (p.unit, p.ns) ∈ timeUnits

/-- The nanoseconds that a part stands for. -/
def DurPart.value (p : DurPart) : Rat := ((digitsVal p.whole : Rat) + (digitsVal p.decimals : Rat) / 10 ^ p.decimals.length) * p.ns

/-- The text is a duration with these parts. -/
def DurationText (s : Bytes) (neg : Bool) (ps : List DurPart) : Prop :=
  ∃ sign : Bytes, SignText sign neg ∧ ps ≠ [] ∧ (∀ p ∈ ps, p.Ok) ∧ s = sign ++ ps.flatMap (·.text)

/-- The nanoseconds without sign. -/
def durValue (ps : List DurPart) : Rat := (ps.map (·.value)).sum

/-- With sign. -/
def signed (neg : Bool) (q : Rat) : Rat := if neg then -q else q

/-- How many parts have digits after the point. -/
def fracCount (ps : List DurPart) : Nat := ps.countP fun p => decide (p.decimals ≠ [])

/-- The text of a duration stands for `d` nanoseconds: it is `0`, or it has parts whose sum is `d`, up to at most 1.1 nanoseconds for each part with digits after the
point (without such parts, exactly). -/
def DurationMeans (s : Bytes) (d : Int) : Prop :=
  (∃ (sign : Bytes) (neg : Bool), SignText sign neg ∧ s = sign ++ b!"0" ∧ d = 0) ∨
  ∃ (neg : Bool) (ps : List DurPart), DurationText s neg ps ∧ |(d : Rat) - signed neg (durValue ps)| ≤ 11 / 10 * fracCount ps

/-- The units of size: their names in lower case, and how many bytes they are. -/
def sizeUnits : List (Bytes × Nat) :=
  [([], 1), (b!"b", 1), (b!"k", 1024), (b!"kb", 1024), (b!"m", 1024 ^ 2), (b!"mb", 1024 ^ 2), (b!"g", 1024 ^ 3), (b!"gb", 1024 ^ 3), (b!"t", 1024 ^ 4), (b!"tb", 1024 ^ 4),
   (b!"p", 1024 ^ 5), (b!"pb", 1024 ^ 5), (b!"e", 1024 ^ 6), (b!"eb", 1024 ^ 6)]

/-- White space. -/
def IsSpace (c : Byte) : Prop := (9 ≤ c ∧ c ≤ 13) ∨ c = 32

/-- A multiple of bits, such as `Kb`. -/
def IsBits (u : Bytes) : Prop := u ∈ [b!"Kb", b!"Mb", b!"Gb", b!"Tb", b!"Pb", b!"Eb"]

/-- The text is a number of bytes `n`: digits, white space, a unit in any case (not one of bits), white space. -/
def SizeText (s : Bytes) (n : Nat) : Prop :=
  ∃ (ds sp1 u sp2 : Bytes) (m : Nat), s = ds ++ sp1 ++ u ++ sp2 ∧ (∀ c ∈ ds, IsDigit c) ∧ ds ≠ [] ∧ (∀ c ∈ sp1, IsSpace c) ∧ (∀ c ∈ sp2, IsSpace c) ∧
    (u.map lowerByte, m) ∈ sizeUnits ∧ ¬ IsBits u ∧ n = digitsVal ds * m

/-- The text of a size stands for `n` bytes: it is empty, or a number with a unit of `sizeUnits` or a longer name of a unit, which `long` gives. -/
def SizeMeans (long : Bytes → Option Nat) (s : Bytes) (n : Nat) : Prop :=
  (s = [] ∧ n = 0) ∨ SizeText s n ∨
  ∃ (ds sp1 u sp2 : Bytes) (m : Nat), s = ds ++ sp1 ++ u ++ sp2 ∧ (∀ c ∈ ds, IsDigit c) ∧ ds ≠ [] ∧ (∀ c ∈ sp1, IsSpace c) ∧ (∀ c ∈ sp2, IsSpace c) ∧
    long (u.map lowerByte) = some m ∧ n = digitsVal ds * m

/-- On ASCII texts, white space is trimmed and letters are made small. -/
structure SizeOpsOk (T : Conf.SizeOps) : Prop where
  trim : ∀ s : Bytes, (∀ c ∈ s, c < 128) → T.trim s = Conf.trimAscii s
  lower : ∀ s : Bytes, (∀ c ∈ s, c < 128) → T.lower s = s.map lowerByte

end Spout.Spec
