import Verif.Spec.Windows

/-! # Specification: what a downsampler may refuse

The clock readings of a history, and when a line is late, early or on time. -/

namespace Spout.Spec

/-- What the clock shows when the operation is carried out. -/
def AOp.now : AOp → Int
  | .line now _ => now
  | .tick now _ => now

/-- The clock never goes back. -/
def Steady (now0 : Int) (ops : List AOp) : Prop := (now0 :: ops.map AOp.now).Pairwise (· ≤ ·)

/-- When the output was last looked for; `last` if it never was. -/
def lastLook (last : Int) : List AOp → Int
  | [] => last
  | .line _ _ :: ops => lastLook last ops
  | .tick now _ :: ops => lastLook now ops

/-- Nothing happens more than `p` after the output was last looked for: the worker is never held up
for longer than `p`. -/
def Punctual (p last : Int) : List AOp → Prop
  | [] => True
  | .line now _ :: ops => now ≤ last + p ∧ Punctual p last ops
  | .tick now _ :: ops => now ≤ last + p ∧ Punctual p now ops

/-- The start of the window of width `p` containing `t`. -/
def startOf (p t : Int) : Int := t - (t + zeroTimeOffset) % p

/-- Everything happens before the end of the window that follows the one in which the output was last looked for (this is so if the
worker is never held up for longer than `p`, see `punctual_attentive`). -/
def Attentive (p last : Int) : List AOp → Prop
  | [] => True
  | .line now _ :: ops => now < startOf p last + 2 * p ∧ Attentive p last ops
  | .tick now _ :: ops => now < startOf p last + 2 * p ∧ Attentive p now ops

/-- All the lines carry times between `p` before their arrival and their arrival. -/
def AllOnTime (p : Int) (ops : List AOp) : Prop :=
  ∀ now l ts body, .line now l ∈ ops → l ≠ [] → Stamped now l ts body → now - p ≤ ts ∧ ts ≤ now

/-- The time of every line is in the window in which the output was last looked for, or in the one before or after it. -/
def InReach (p now0 : Int) (ops : List AOp) : Prop :=
  ∀ pre post now l ts body, ops = pre ++ .line now l :: post → l ≠ [] → Stamped now l ts body →
    startOf p (lastLook now0 pre) - p ≤ ts ∧ ts < startOf p (lastLook now0 pre) + 2 * p

/-- In the history `h`, after the operations `before`, the line `l` arrives while the clock shows `c`, and the errors `es`
are reported. -/
def LineAt (h : List (AOp × AOut)) (before : List AOp) (c : Int) (l : Bytes) (es : List DErr) : Prop :=
  ∃ pre post, h = pre ++ (.line c l, .errs es) :: post ∧ before = pre.map (·.1)

end Spout.Spec
