import Mathlib.Algebra.Order.Field.Rat
import Verif.Model.Float64
import Verif.Spec.Series

/-! # Specification: numbers, their decimal texts and their mean

`F64.val` is the value of a float64; `NumText s q` says that the text `s` is the number `q` in decimal notation, with an
optional sign, point and exponent. -/

namespace Spout

/-- The value of a finite float64.  (`oneN` is 2^1074.) -/
def F64.val (x : F64) : Rat := (x.units : Rat) / (oneN : Rat)

/-- A finite number: neither an infinity nor "not a number". -/
def F64.IsFinite : F64 → Prop
  | .fin _ _ => True
  | _ => False

/-- The last bit of the binary representation is zero. -/
def F64.LastBitZero : F64 → Prop
  | .fin _ k => k.val % 2 = 0
  | _ => False

namespace Spec

/-- An optional sign. -/
def SignText (s : Bytes) (neg : Bool) : Prop := (s = [] ∧ neg = false) ∨ (s = [43] ∧ neg = false) ∨ (s = [45] ∧ neg = true)

/-- Nothing, or a point and digits `ds`. -/
def FracText (s ds : Bytes) : Prop := (s = [] ∧ ds = []) ∨ s = 46 :: ds

/-- Nothing, or `e` or `E`, an optional sign and at least one digit: the exponent `e`. -/
def ExpText (s : Bytes) (e : Int) : Prop :=
  (s = [] ∧ e = 0) ∨
  ∃ (c : Byte) (sign ds : Bytes) (neg : Bool), (c = 101 ∨ c = 69) ∧ SignText sign neg ∧ ds ≠ [] ∧ (∀ d ∈ ds, IsDigit d) ∧ s = c :: (sign ++ ds) ∧
    e = if neg then -(digitsVal ds : Int) else digitsVal ds

/-- The text `s` is the decimal number `q`. -/
def NumText (s : Bytes) (q : Rat) : Prop :=
  ∃ (sign whole frac ds ex : Bytes) (neg : Bool) (e : Int), s = sign ++ whole ++ frac ++ ex ∧ SignText sign neg ∧ FracText frac ds ∧
    (∀ d ∈ whole ++ ds, IsDigit d) ∧ whole ++ ds ≠ [] ∧ ExpText ex e ∧
    q = (if neg then -1 else 1) * (digitsVal (whole ++ ds) : Rat) * 10 ^ (e - ds.length)

/-- The mean of numbers. -/
def mean (qs : List Rat) : Rat := qs.sum / qs.length

/-- The numbers among the samples, as the float64 they are read as. -/
def floatsOf (other : Bytes → Option F64) (ss : List Sample) : List F64 := ss.filterMap fun x => parseFloat other x.content

/-- Half the largest float64: (2^53 - 1) * 2^970. -/
def halfMax : Rat := (2 ^ 53 - 1) * 2 ^ 970

end Spec
end Spout
