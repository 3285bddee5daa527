import Verif.Spec.Series

/-! # Specification: the kind of a field value -/

namespace Spout.Spec

/-- What a value is: a quoted string, an integer (digits and `i`), a number, or something else. -/
inductive Kind where
  | string | integer | float | other
  deriving DecidableEq

def Sample.kind (fo : FloatOps) (s : Sample) : Kind :=
  if s.quoted then .string
  else if (intLit s.content).isSome then .integer
  else if (fo.parse s.content).isSome then .float
  else .other

/-- No line has a field twice, and the values of a field of a series are all of the same kind. -/
structure OneKind (fo : FloatOps) (ls : List SLine) : Prop where
  names : ∀ l ∈ ls, (l.fields.map (·.1)).Nodup
  kinds : ∀ l ∈ ls, ∀ m ∈ ls, l.key = m.key → ∀ f ∈ l.fields, ∀ g ∈ m.fields, f.1 = g.1 → f.2.kind fo = g.2.kind fo

end Spout.Spec
