import Verif.Model.Writer

/-! # Running the writer's transition system on concrete schedules (for the examples) -/

namespace Spout

/-- The choices in a schedule. -/
inductive WAct where
  | tick (t : Int) | stop | recv (data : Bytes) | gotWrite | gotError | wake | quit | check | first (r : Resp)
  | handoff | sent | arm | input | fire | finish (r : Resp) | retryQuit
  deriving Repr

/-- The effect of one choice; `none` if it is not possible. -/
def wAct (c : WConf) (s : WSys) : WAct → Option WSys
  | .tick t => if s.now ≤ t then some { s with now := t } else none
  | .stop => some { s with stop := true }
  | .recv data =>
    match s.phase, batchAppend c.rules s.batch data s.now with
    | .select _, .ok b => some { s with phase := .check, batch := b, hist := s.hist ++ [.recv data s.now],
                                        stats := { s.stats with received := s.stats.received + 1 } }
    | _, _ => none
  | .gotWrite =>
    match s.phase, s.writesCh with
    | .select _, n + 1 => some { s with phase := .check, writesCh := n,
                                        stats := { s.stats with writeRequests := s.stats.writeRequests + 1 } }
    | _, _ => none
  | .gotError =>
    match s.phase, s.errsCh with
    | .select _, n + 1 => some { s with phase := .check, errsCh := n,
                                        stats := { s.stats with failedWrites := s.stats.failedWrites + 1 } }
    | _, _ => none
  | .wake =>
    match s.phase with
    | .select w => if w ≤ s.now then some { s with phase := .check } else none
    | _ => none
  | .quit =>
    match s.phase with
    | .select _ => if s.stop = true then some { s with phase := .stopped } else none
    | _ => none
  | .check =>
    match s.phase with
    | .check =>
      if wShouldSend c s.batch s.now = true then
        match splitAll s.batch.bytes c.batchMaxSize with
        | .ok chunks => some { s with phase := .sending chunks, hist := s.hist ++ [.flush s.batch.bytes s.now],
                                      stats := { s.stats with writeRequests := s.stats.writeRequests + 1 } }
        | .panic => none
      else some { s with phase := .select (s.now + second) }
    | _ => none
  | .first r =>
    match s.phase with
    | .sending (chunk :: rest) =>
      match writeError r with
      | none => some { s with phase := .sending rest, nextId := s.nextId + 1,
                              hist := s.hist ++ [.first s.nextId chunk r s.now] }
      | some _ => some { s with phase := if c.retryBatches > 0 then .handoff s.nextId chunk rest else .sending rest,
                                nextId := s.nextId + 1, hist := s.hist ++ [.first s.nextId chunk r s.now],
                                stats := { s.stats with failedWrites := s.stats.failedWrites + 1 } }
    | _ => none
  | .handoff =>
    match s.phase, s.ch with
    | .handoff i chunk rest, none => some { s with phase := .sending rest, ch := some (i, chunk) }
    | _, _ => none
  | .sent =>
    match s.phase with
    | .sending [] => some { s with phase := .select (s.now + second), batch := s.batch.reset s.now }
    | _ => none
  | .arm =>
    match s.rphase with
    | .top => some { s with rphase := .select,
                            nextSend := if s.nextSend = none ∧ s.queue.length > 0 then some (s.now + c.retryInterval)
                                        else s.nextSend }
    | _ => none
  | .input =>
    match s.rphase, s.ch with
    | .select, some (i, buf) =>
      match queueAdd c.retryBatches c.retryTimeout s.now s.queue i buf with
      | (q, gone) => some { s with rphase := .top, ch := none, queue := q,
                                   hist := s.hist ++ (gone.toList.map fun g => .evicted g.id s.now) ++ [.queued i s.now] }
    | _, _ => none
  | .fire =>
    match s.rphase, s.nextSend with
    | .select, some d =>
      if d ≤ s.now then
        match queueFront s.now s.queue with
        | (gone, []) => some { s with rphase := .top, nextSend := none, queue := [],
                                      hist := s.hist ++ gone.map fun g => .expired g.id s.now }
        | (gone, b :: q) => some (WSys.reportWrite c
            { s with rphase := .writing b.id, nextSend := none, queue := b :: q,
                     hist := s.hist ++ (gone.map fun g => .expired g.id s.now) ++ [.attempt b.id b.buf s.now] })
      else none
    | _, _ => none
  | .finish r =>
    match s.rphase with
    | .writing i => some (WSys.finishRetry c { s with rphase := .top, hist := s.hist ++ [.result i r s.now] } r)
    | _ => none
  | .retryQuit =>
    match s.rphase, s.phase with
    | .select, .stopped => some { s with rphase := .stopped }
    | _, _ => none

theorem wAct_sound {c : WConf} {s s' : WSys} {a : WAct} (h : wAct c s a = some s') : WStep c s s' := by
  cases a with
  | tick t =>
    simp only [wAct] at h
    split at h
    · injection h with h; subst h; exact .tick s t ‹_›
    · cases h
  | stop => simp only [wAct] at h; injection h with h; subst h; exact .stop s
  | recv data =>
    simp only [wAct] at h
    split at h
    · injection h with h; subst h; exact .recv s _ data _ ‹_› ‹_›
    · cases h
  | gotWrite =>
    simp only [wAct] at h
    split at h
    · injection h with h; subst h; exact .gotWrite s _ _ ‹_› ‹_›
    · cases h
  | gotError =>
    simp only [wAct] at h
    split at h
    · injection h with h; subst h; exact .gotError s _ _ ‹_› ‹_›
    · cases h
  | wake =>
    simp only [wAct] at h
    split at h
    · split at h
      · injection h with h; subst h; exact .wake s _ ‹_› ‹_›
      · cases h
    · cases h
  | quit =>
    simp only [wAct] at h
    split at h
    · split at h
      · injection h with h; subst h; exact .quit s _ ‹_› ‹_›
      · cases h
    · cases h
  | check =>
    simp only [wAct] at h
    split at h
    · split at h
      · split at h
        · injection h with h; subst h; exact .flush s _ ‹_› ‹_› ‹_›
        · cases h
      · rename_i hs
        injection h with h; subst h
        exact .keep s ‹_› (by simpa using hs)
    · cases h
  | first r =>
    simp only [wAct] at h
    split at h
    · split at h
      · injection h with h; subst h; exact .firstOk s _ _ r ‹_› ‹_›
      · injection h with h; subst h; exact .firstFail s _ _ r _ ‹_› ‹_›
    · cases h
  | handoff =>
    simp only [wAct] at h
    split at h
    · injection h with h; subst h; exact .handoff s _ _ _ ‹_› ‹_›
    · cases h
  | sent =>
    simp only [wAct] at h
    split at h
    · injection h with h; subst h; exact .sent s ‹_›
    · cases h
  | arm =>
    simp only [wAct] at h
    split at h
    · injection h with h; subst h; exact .arm s ‹_›
    · cases h
  | input =>
    simp only [wAct] at h
    split at h
    · injection h with h; subst h; exact .input s _ _ _ _ ‹_› ‹_› rfl
    · cases h
  | fire =>
    simp only [wAct] at h
    split at h
    · split at h
      · split at h
        · injection h with h; subst h; exact .fireEmpty s _ _ ‹_› ‹_› ‹_› ‹_›
        · injection h with h; subst h; exact .fire s _ _ _ _ ‹_› ‹_› ‹_› ‹_›
      · cases h
    · cases h
  | finish r =>
    simp only [wAct] at h
    split at h
    · injection h with h; subst h; exact .finish s _ r ‹_›
    · cases h
  | retryQuit =>
    simp only [wAct] at h
    split at h
    · injection h with h; subst h; exact .retryQuit s ‹_› ‹_›
    · cases h

/-- A schedule. -/
def wActs (c : WConf) (s : WSys) : List WAct → Option WSys
  | [] => some s
  | a :: as => (wAct c s a).bind fun s => wActs c s as

theorem wActs_sound {c : WConf} {s0 s s' : WSys} {as : List WAct} (h0 : WReach c s0 s) (h : wActs c s as = some s') :
    WReach c s0 s' := by
  induction as generalizing s with
  | nil => simp only [wActs] at h; injection h with h; subst h; exact h0
  | cons a as ih =>
    simp only [wActs] at h
    cases ha : wAct c s a with
    | none => rw [ha] at h; cases h
    | some s1 => rw [ha] at h; exact ih (h0.step (wAct_sound ha)) h

end Spout
