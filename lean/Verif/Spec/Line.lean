import Verif.Spec.Decimal

/-! # Specification: the trailing timestamp of a line -/

namespace Spout.Spec

/-- The line without one trailing newline. -/
def stripNL (line : Bytes) : Bytes :=
  if line.getLast? = some NL then line.dropLast else line

/-- `line` (without its newline) is some text `pre`, a space and a decimal
int64 `v` of at most 19 characters starting at offset `off`.  Lines shorter
than 6 bytes (which cannot hold measurement, field and timestamp) have none. -/
def HasTs (line : Bytes) (v off : Int) : Prop :=
  6 ≤ line.length ∧ ∃ pre ts, stripNL line = pre ++ SP :: ts ∧ ts.length ≤ 19 ∧
    Decimal ts v ∧ InInt64 v ∧ off = pre.length + 1

end Spout.Spec
