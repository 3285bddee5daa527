import Verif.Go

/-! # Specification: decimal notation of integers -/

namespace Spout.Spec

/-- An ASCII digit. -/
def IsDigit (b : Byte) : Prop := 48 ≤ b ∧ b ≤ 57

instance (b : Byte) : Decidable (IsDigit b) := by unfold IsDigit; infer_instance

/-- The value of a digit string (place value, most significant first). -/
def digitsVal (ds : Bytes) : Nat := ds.foldl (fun n c => n * 10 + (c.toNat - 48)) 0

/-- `s` is an optional minus sign and at least one digit, with value `v`. -/
def Decimal (s : Bytes) (v : Int) : Prop :=
  ∃ ds : Bytes, ds ≠ [] ∧ (∀ d ∈ ds, IsDigit d) ∧
    ((s = ds ∧ v = digitsVal ds) ∨ (s = MINUS :: ds ∧ v = -(digitsVal ds : Int)))

end Spout.Spec
