import Verif.Spec.Writer
import Verif.Spec.Lines

/-! # What InfluxDB stores

InfluxDB keeps, for each field of each point, the value that was written last; a point is given by its series and its
timestamp, a line without timestamp getting the time at which InfluxDB handles it.  Here `sets t line` are the
assignments of values to keys (series, timestamp and field) that a line makes when it is handled at time `t`; it is a
parameter, so nothing is assumed about the syntax that InfluxDB accepts. -/

namespace Spout.Spec

/-- The value of a key after some lines were handled, each at a time: that of the last assignment. -/
def stored {K V : Type} [DecidableEq K] (sets : Int → Bytes → List (K × V)) (ws : List (Bytes × Int)) (k : K) : Option V :=
  (ws.flatMap fun w => sets w.2 w.1).foldl (fun acc a => if a.1 = k then some a.2 else acc) none

/-- A request with the body `d` has been made that was not, or not at once, answered with success: the first write of a
chunk that failed, or a retry. -/
def Pending (h : List WEv) (d : Bytes) : Prop :=
  (∃ i r t, .first i d r t ∈ h ∧ ¬ Resp.Ok r) ∨ ∃ i t, .attempt i d t ∈ h

/-- `ws` are lines that InfluxDB may have handled, in this order, when `h` has happened.

A first write that is answered with success has been handled line by line.  A request that failed may have been handled
nevertheless, wholly or in part, even later and repeatedly; the same holds of a retry, but all its lines have been
handled once it is answered with success. -/
inductive Handled : List WEv → List (Bytes × Int) → Prop
  | nil : Handled [] []
  | firstOk {h : List WEv} {ws : List (Bytes × Int)} (i : Nat) (d : Bytes) (r : Resp) (t : Int) : Handled h ws → Resp.Ok r →
      Handled (h ++ [.first i d r t]) (ws ++ (linesOf d).map fun l => (l, t))
  | retryOk {h : List WEv} {ws : List (Bytes × Int)} (i : Nat) (r : Resp) (t : Int) : Handled h ws → Resp.Ok r →
      (∀ d t0, .attempt i d t0 ∈ h → ∀ line ∈ linesOf d, ∃ t', (line, t') ∈ ws) → Handled (h ++ [.result i r t]) ws
  | other {h : List WEv} {ws : List (Bytes × Int)} (e : WEv) : Handled h ws →
      (∀ i d r t, e = .first i d r t → ¬ Resp.Ok r) → (∀ i r t, e = .result i r t → ¬ Resp.Ok r) → Handled (h ++ [e]) ws
  | late {h : List WEv} {ws : List (Bytes × Int)} (d line : Bytes) (t : Int) : Handled h ws → Pending h d →
      line ∈ linesOf d → Handled h (ws ++ [(line, t)])

/-- Chunk `i` was accepted by InfluxDB at some attempt. -/
def Accepted (h : List WEv) (i : Nat) : Prop :=
  (∃ d r t, .first i d r t ∈ h ∧ Resp.Ok r) ∨ ∃ r t, .result i r t ∈ h ∧ Resp.Ok r

/-- The lines carry their own timestamps: what they set does not depend on when they are handled. -/
def Timestamped {K V : Type} (sets : Int → Bytes → List (K × V)) (lines : List Bytes) : Prop :=
  ∀ line ∈ lines, ∀ t t', sets t line = sets t' line

/-- No two lines give different values to the same field of the same point. -/
def Consistent {K V : Type} (sets : Int → Bytes → List (K × V)) (lines : List Bytes) : Prop :=
  ∀ l ∈ lines, ∀ l' ∈ lines, ∀ t t' k v v', (k, v) ∈ sets t l → (k, v') ∈ sets t' l' → v = v'

end Spout.Spec
