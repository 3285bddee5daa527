import Verif.Model.Writer
import Verif.Spec.Lines

/-! # Specification: histories of a writer worker

Everything here is about the list of observed events only. -/

namespace Spout.Spec

/-- InfluxDB accepted the write. -/
def Resp.Ok (r : Resp) : Prop := ∃ code, r = .status code ∧ 200 ≤ code ∧ code ≤ 299

/-- The write can never succeed: the request is invalid or InfluxDB answers with a 4xx status. -/
def Resp.Permanent (r : Resp) : Prop := r = .badRequest ∨ ∃ code, r = .status code ∧ 400 ≤ code ∧ code ≤ 499

/-- The event takes chunk `i` out of the retry queue. -/
def Leaves (i : Nat) : WEv → Prop
  | .evicted j _ => j = i
  | .expired j _ => j = i
  | .result j r _ => j = i ∧ (Resp.Ok r ∨ Resp.Permanent r)
  | _ => False

/-- Chunk `i` is held for retry: it was put in the queue and has not left it. -/
def Held (h : List WEv) (i : Nat) : Prop := (∃ t, .queued i t ∈ h) ∧ ∀ e ∈ h, ¬ Leaves i e

/-- The event is an attempt to write chunk `i` again. -/
def IsAttempt (i : Nat) : WEv → Prop
  | .attempt j _ _ => j = i
  | _ => False

/-- The event does not concern the retry queue. -/
def Quiet : WEv → Prop
  | .recv _ _ => True
  | .flush _ _ => True
  | .first _ _ _ _ => True
  | _ => False

/-- The event is a first attempt. -/
def isFirst : WEv → Bool
  | .first _ _ _ _ => true
  | _ => false

/-- `n` different chunks are held. -/
def HeldCount (h : List WEv) (n : Nat) : Prop := ∃ l : List Nat, l.Nodup ∧ l.length = n ∧ ∀ i, i ∈ l ↔ Held h i

/-- A property of each event and what came before it. -/
def Always (P : List WEv → WEv → Prop) (h : List WEv) : Prop := ∀ h1 e h2, h = h1 ++ e :: h2 → P h1 e

/-- When may an event of the retry worker happen? -/
def RetryRule (c : WConf) (h : List WEv) : WEv → Prop
  /- only a chunk whose first write failed is queued, once, and at most `retryBatches` are held -/
  | .queued i _ => (∃ d r t, .first i d r t ∈ h ∧ ¬ Resp.Ok r) ∧ (∀ t, .queued i t ∉ h) ∧
      (∀ e ∈ h, ¬ Leaves i e) ∧ ∃ n : Nat, HeldCount h n ∧ (n : Int) < c.retryBatches
  /- a chunk is evicted only when the queue is full, and none was queued at an earlier time -/
  | .evicted i _ => Held h i ∧ (∃ n : Nat, HeldCount h n ∧ (n : Int) = c.retryBatches) ∧
      ∀ j ti tj, Held h j → .queued i ti ∈ h → .queued j tj ∈ h → ti ≤ tj
  /- a chunk expires when it has been queued for longer than the timeout -/
  | .expired i t => Held h i ∧ ∀ tq, .queued i tq ∈ h → tq + c.retryTimeout < t
  /- a chunk is attempted only while held, with the data of its first attempt, not after the timeout, and
  not within the retry interval of any earlier attempt; since its last attempt every chunk that was
  held then has been attempted or has left -/
  | .attempt i d t => Held h i ∧ (∃ r t0, .first i d r t0 ∈ h) ∧ (∀ tq, .queued i tq ∈ h → t ≤ tq + c.retryTimeout) ∧
      (∀ j d' t', .attempt j d' t' ∈ h → t' + c.retryInterval ≤ t) ∧
      ∀ h1 d' t' h2, h = h1 ++ .attempt i d' t' :: h2 → (∀ e ∈ h2, ¬ IsAttempt i e) →
        ∀ j, j ≠ i → Held h1 j → ∃ e ∈ h2, IsAttempt j e ∨ Leaves j e
  /- an attempt ends before anything else happens to the queue -/
  | .result i _ _ => Held h i ∧ ∃ h1 d t h2, h = h1 ++ .attempt i d t :: h2 ∧
      ∀ e ∈ h2, Quiet e
  /- chunks are numbered in order of their first attempts -/
  | .first i _ _ _ => i = h.countP isFirst
  | _ => True

/-! ## The writer's own part -/

/-- The data of the first attempts, in order. -/
def firstData (h : List WEv) : Bytes := h.flatMap fun e => match e with | .first _ d _ _ => d | _ => []

/-- The messages received, in order. -/
def received (h : List WEv) : List Bytes := h.flatMap fun e => match e with | .recv d _ => [d] | _ => []

/-- The data of the batches flushed. -/
def flushed (h : List WEv) : List Bytes := h.flatMap fun e => match e with | .flush d _ => [d] | _ => []

end Spout.Spec
