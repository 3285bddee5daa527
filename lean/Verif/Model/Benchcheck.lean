import Verif.Spec.Decimal

/-! # Model of `cmd/benchcheck` -/

namespace Spout.Bench
open Spout.Spec

/-- `s` is a number with sign and two decimal places, as printed by the verb `%+.2f` (which
benchstat uses for the differences), of `n` hundredths. The `Delta` of a row, cmd/benchcheck/benchcheck.go:86-89; printed by benchstat, which is not in /repo. -/
def Hundredths (s : Bytes) (n : Int) : Prop :=
  ∃ (whole : Bytes) (a b : Byte), whole ≠ [] ∧ (∀ d ∈ whole ++ [a, b], IsDigit d) ∧
    ((s = b!"+" ++ whole ++ b!"." ++ [a, b] ∧ n = digitsVal (whole ++ [a, b])) ∨
     (s = b!"-" ++ whole ++ b!"." ++ [a, b] ∧ n = -(digitsVal (whole ++ [a, b]) : Int)))

/-- `float64` with `strconv.ParseFloat` and `>`: arbitrary, but numbers with two decimal places (and
below 10^11, so that different ones are different floating point numbers) are parsed and compared
properly.  `val n` is the number closest to `n` hundredths. cmd/benchcheck/benchcheck.go:89, 93. -/
structure Floats where
  F : Type
  parse : Bytes → Option F
  gt : F → F → Bool
  val : Int → F
  parse_val : ∀ s n, Hundredths s n → n.natAbs ≤ 10 ^ 13 → parse s = some (val n)
  gt_val : ∀ n m : Int, n.natAbs ≤ 10 ^ 13 → m.natAbs ≤ 10 ^ 13 → (gt (val n) (val m) = true ↔ m < n)

/-- `strings.TrimRight(s, "%")`. cmd/benchcheck/benchcheck.go:89. -/
def trimPercent (s : Bytes) : Bytes := (s.reverse.dropWhile (· == 37)).reverse

/-- The inner loop of `findProblems` (cmd/benchcheck/benchcheck.go:85-96) over the `Delta` texts of
the rows of a table; `none` means that the loop ends without returning. -/
def rowsProblem (fl : Floats) (maxDelta : fl.F) : List Bytes → Option (Except Unit Bool)
  | [] => none
  | delta :: rest =>
    if delta = b!"~" then rowsProblem fl maxDelta rest               -- 86-88
    else match fl.parse (trimPercent delta) with                     -- 89
      | none => some (.error ())                                     -- 90-92
      | some d =>
        if fl.gt d maxDelta then some (.ok true)                     -- 93-95
        else rowsProblem fl maxDelta rest

/-- `findProblems`, cmd/benchcheck/benchcheck.go:83-99: a table is given by the `Delta` texts of its
rows. -/
def findProblems (fl : Floats) (maxDelta : fl.F) : List (List Bytes) → Except Unit Bool
  | [] => .ok false                                                  -- 98
  | t :: ts => match rowsProblem fl maxDelta t with                  -- 84-85
    | some r => r
    | none => findProblems fl maxDelta ts

/-- The exit status of `main`, cmd/benchcheck/benchcheck.go:41-81, once both files have been read and
compared: `log.Fatal` exits with status 1 (66-68), as does a regression (75-77). -/
def exitStatus (fl : Floats) (maxDelta : fl.F) (tables : List (List Bytes)) : Nat :=
  match findProblems fl maxDelta tables with
  | .error () => 1
  | .ok true => 1
  | .ok false => 0

end Spout.Bench
