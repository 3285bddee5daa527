import Verif.Go

/-! # Specification: the lines of a text -/

namespace Spout

/-- The lines of a message: its newline-terminated pieces and a non-empty rest. -/
def linesOf (batch : Bytes) : List Bytes := (splitAfterNL batch).filter (fun l => l ≠ [])

end Spout
