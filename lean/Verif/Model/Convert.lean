import Verif.Go

/-! # Model of package `convert` -/

namespace Spout

/-- The errors of `ToInt` (convert/convert.go:29, 37, 46, 53, 58). -/
inductive ConvErr where
  | empty | tooShort | invalidChar | overflow
  deriving DecidableEq, Repr

/-- The digit loop of `ToInt`, convert/convert.go:41-49.  `n` is the `uint64`
accumulator, so `n*10 + c` wraps modulo 2^64. -/
def toIntLoop : Bytes → Nat → Option Nat
  | [], n => some n
  | c :: cs, n =>
    if 48 ≤ c ∧ c ≤ 57 then toIntLoop cs (wrapU64 (n * 10 + (c - 48).toNat))
    else none

/-- `ToInt`, convert/convert.go:27-61. -/
def toInt (s : Bytes) : Except ConvErr Int :=
  match s with
  | [] => .error .empty                                  -- 28-30
  | c :: rest =>
    let negative := c = MINUS                            -- 32-34
    let s := if negative then rest else c :: rest
    if negative ∧ s.length < 1 then .error .tooShort     -- 36-38
    else match toIntLoop s 0 with
      | none => .error .invalidChar                      -- 43-47
      | some n =>
        if negative then
          if n > 9223372036854775808 then .error .overflow   -- 52-54
          else .ok (wrap64 (-(wrap64 n)))                    -- 55
        else if n > 9223372036854775807 then .error .overflow -- 57-59
        else .ok (wrap64 n)                                  -- 60

end Spout
