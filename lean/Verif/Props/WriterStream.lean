import Verif.Props.WriterBatch

set_option linter.unusedSimpArgs false

/-! # What the writer sends, and when (C34, C35, C69, C70) -/

namespace Spout
open Spec

theorem finishRetry_same (c : WConf) (s : WSys) (r : Resp) :
    (s.finishRetry c r).phase = s.phase ∧ (s.finishRetry c r).hist = s.hist ∧ (s.finishRetry c r).batch = s.batch ∧
    (s.finishRetry c r).now = s.now ∧ (s.finishRetry c r).ch = s.ch ∧ (s.finishRetry c r).rphase = s.rphase ∧
    (s.finishRetry c r).stop = s.stop ∧ (s.finishRetry c r).writesCh = s.writesCh ∧
    (s.finishRetry c r).lostWrites = s.lostWrites ∧ (s.finishRetry c r).stats = s.stats := by
  unfold WSys.finishRetry WSys.reportError
  cases writeError r with
  | none => simp
  | some e =>
    dsimp only
    cases isPermanentError (some e) <;> simp only [Bool.false_eq_true, if_false, if_true] <;> split <;> simp

theorem reportWrite_same (c : WConf) (s : WSys) :
    (s.reportWrite c).phase = s.phase ∧ (s.reportWrite c).hist = s.hist ∧ (s.reportWrite c).batch = s.batch ∧
    (s.reportWrite c).now = s.now ∧ (s.reportWrite c).ch = s.ch ∧ (s.reportWrite c).rphase = s.rphase ∧
    (s.reportWrite c).stop = s.stop ∧ (s.reportWrite c).errsCh = s.errsCh ∧
    (s.reportWrite c).lostErrs = s.lostErrs ∧ (s.reportWrite c).stats = s.stats := by
  unfold WSys.reportWrite
  split <;> simp

/-! ## C34 -/

/-- What the worker still has to send: the chunks left of the batch being sent, or the batch. -/
def unsentBytes (s : WSys) : Bytes :=
  match s.phase with
  | .sending rest => rest.flatten
  | .handoff _ _ rest => rest.flatten
  | _ => s.batch.bytes

theorem WRun.unsent {c : WConf} {s : WSys} (h : WRun c s) :
    unsentBytes s = (unsent s.phase).flatten ++ dataOf (pending c.rules s.hist) := by
  have I := h.binv
  have h1 := I.settled
  have h2 := I.sending
  unfold unsentBytes
  cases hp : s.phase <;> rw [hp] at h1 h2 <;> simp [Spout.unsent, isSending, dataOf] at h1 h2 ⊢
  · exact h1.1
  · exact h1.1
  · simp [h2]
  · simp [h2]
  · exact h1.1

/-- **C34.** Without rules: the data of the first attempts, in order, followed by what is still to be sent, is the
concatenation of the messages received: nothing is lost, duplicated or reordered. -/
theorem C34_every_byte_once (c : WConf) (s : WSys) (h : WRun c s) (hr : c.rules = []) :
    firstData s.hist ++ unsentBytes s = (received s.hist).flatten := by
  rw [h.unsent, ← List.append_assoc, h.binv.stream]
  unfold accepted
  rw [hr]
  have : ∀ l : List Bytes, (l.flatMap fun d => pieces [] d) = l := by
    intro l
    induction l with
    | nil => rfl
    | cons x l ih => rw [List.flatMap_cons, ih]; rfl
  rw [this]

/-- **C34.** With rules the same holds of the matching lines. -/
theorem C34_every_matching_line_once (c : WConf) (s : WSys) (h : WRun c s) :
    firstData s.hist ++ unsentBytes s = ((received s.hist).flatMap fun d => pieces c.rules d).flatten := by
  rw [h.unsent, ← List.append_assoc, h.binv.stream]
  rfl

/-- Two messages batched together and cut into chunks of at most 13 bytes, one of them failing. -/
def exStreamConf : WConf := ⟨2, 12, 10, [], 1, 5, 100⟩

/-- The run used below. -/
def exStream : List WAct :=
  [.recv b!"cpu v=1 1\n", .check, .recv b!"mem v=2 2\nx", .check, .first (.status 204), .first .transport, .handoff]

example : ∃ s, WRun exStreamConf s ∧ exStreamConf.rules = [] ∧ received s.hist = [b!"cpu v=1 1\n", b!"mem v=2 2\nx"] ∧
    firstData s.hist = b!"cpu v=1 1\nmem v=2 2\nx" ∧ s.hist.length = 5 := by
  obtain ⟨s, h1, h2⟩ := wRun_hist (fun s => (received s.hist, firstData s.hist, s.hist.length))
    ([b!"cpu v=1 1\n", b!"mem v=2 2\nx"], b!"cpu v=1 1\nmem v=2 2\nx", 5) (c := exStreamConf) 100000 0 exStream
    (by decide +kernel)
  simp only [Prod.mk.injEq] at h2
  exact ⟨s, h1, rfl, h2⟩

/-! ## C35 -/

/-- **C35.** Whenever the worker waits for the next event (since the time `w - 1s`, its timer being set to `w`), its
batch is empty or was then below each of the three limits. -/
theorem C35_waiting_below_limits (c : WConf) (s : WSys) (h : WRun c s) (w : Int) (hp : s.phase = .select w) :
    (s.batch.writes = 0 ∧ s.batch.bytes = []) ∨
    ((s.batch.writes : Int) < c.batchMaxCount ∧ s.batch.size < c.batchMaxSize ∧ s.batch.age (w - second) < c.batchMaxAge) := by
  have I := h.binv
  obtain ⟨h1, h2, -⟩ := I.settled (by rw [hp]; rfl)
  rcases (I.below w hp).2 with h0 | h0
  · rw [h0] at h1 h2
    exact Or.inl ⟨h2, h1⟩
  · right
    rw [← shouldSend_iff I (by rw [hp]; rfl)] at h0
    unfold wShouldSend at h0
    simp only [Bool.or_eq_true, decide_eq_true_eq, not_or] at h0
    omega

/-- **C35.** A batch is sent only when one of the limits is reached, and what is sent is everything accepted since the
previous one, so that it starts again empty. -/
theorem C35_sent_at_limit (c : WConf) (s : WSys) (h : WRun c s) (h1 h2 : List WEv) (d : Bytes) (t : Int)
    (hs : s.hist = h1 ++ .flush d t :: h2) :
    d = dataOf (pending c.rules h1) ∧ LimitReached c (pending c.rules h1) t ∧ pending c.rules (h1 ++ [.flush d t]) = [] := by
  obtain ⟨a, b⟩ := h.binv.flushes h1 _ h2 hs
  exact ⟨a, b, by rw [pending_snoc]⟩

/-- **C35.** When a limit is reached by what was received, the worker, having processed an event, does send. -/
theorem C35_limit_reached_sends (c : WConf) (s s' : WSys) (h : WRun c s) (hp : s.phase = .check)
    (hl : LimitReached c (pending c.rules s.hist) s.now) (hst : WStep c s s') (hw : s'.phase ≠ .check) :
    s'.hist = s.hist ++ [.flush (dataOf (pending c.rules s.hist)) s.now] ∧ (unsent s'.phase).flatten = dataOf (pending c.rules s.hist) := by
  have I := h.binv
  have hss := (shouldSend_iff I (by rw [hp]; rfl) s.now).2 hl
  have hb := (I.settled (by rw [hp]; rfl)).1
  cases hst with
  | tick t ht => exact absurd hp hw
  | stop => exact absurd hp hw
  | recv w data b hp' hb => rw [hp] at hp'; cases hp'
  | gotWrite w n hp' hn => rw [hp] at hp'; cases hp'
  | gotError w n hp' hn => rw [hp] at hp'; cases hp'
  | wake w hp' hw => rw [hp] at hp'; cases hp'
  | quit w hp' hs => rw [hp] at hp'; cases hp'
  | keep hp' h => rw [hss] at h; cases h
  | flush chunks hp' h hc =>
    refine ⟨?_, ?_⟩
    · dsimp only; rw [show s.batch.bytes = s.batch.buf from rfl, hb]
    · rw [show Spout.unsent (.sending chunks) = chunks from rfl, splitAll_flatten hc]; exact hb
  | firstOk chunk rest r hp' hr => rw [hp] at hp'; cases hp'
  | firstFail chunk rest r e hp' hr => rw [hp] at hp'; cases hp'
  | handoff i chunk rest hp' hc => rw [hp] at hp'; cases hp'
  | sent hp' => rw [hp] at hp'; cases hp'
  | arm hp' => exact absurd hp hw
  | input i buf q gone hp' hc hq => exact absurd hp hw
  | fireEmpty d gone hp' hd ht hf => exact absurd hp hw
  | fire d gone b q hp' hd ht hf =>
    exfalso; apply hw
    unfold WSys.reportWrite
    split <;> exact hp
  | finish i r hp' =>
    exfalso; apply hw
    unfold WSys.finishRetry WSys.reportError
    cases writeError r with
    | none => exact hp
    | some e =>
      dsimp only
      cases isPermanentError (some e) <;> simp only [Bool.false_eq_true, if_false, if_true] <;> split <;> exact hp
  | retryQuit hp' hw' => exact absurd hp hw

/-- A worker with one message waiting and one that reached the limit of two. -/
example : ∃ s w, WRun exStreamConf s ∧ s.phase = .select w ∧ s.batch.writes = 1 := by
  obtain ⟨s, h1, h2⟩ := wRun_hist (fun s => (s.phase, s.batch.writes)) (.select second, 1)
    (c := exStreamConf) 100000 0 (exStream.take 2) (by decide +kernel)
  simp only [Prod.mk.injEq] at h2
  exact ⟨s, _, h1, h2⟩

example : ∃ s, WRun exStreamConf s ∧ s.phase = .check ∧ LimitReached exStreamConf (pending [] s.hist) s.now := by
  obtain ⟨s, h1, h2⟩ := wRun_hist (fun s => (s.phase, wShouldSend exStreamConf s.batch s.now)) (.check, true)
    (c := exStreamConf) 100000 0 (exStream.take 3) (by decide +kernel)
  simp only [Prod.mk.injEq] at h2
  exact ⟨s, h1, h2.1, (shouldSend_iff h1.binv (by rw [h2.1]; rfl) s.now).1 h2.2⟩

/-! ## What is lost on Stop -/

theorem pending_expired (rules : List Rule) (h : List WEv) (gone : List RItem) (now : Int) :
    pending rules (h ++ gone.map fun g => .expired g.id now) = pending rules h := by
  induction gone generalizing h with
  | nil => simp
  | cons g gone ih =>
    have := ih (h ++ [.expired g.id now])
    rw [pending_snoc rules h] at this
    rw [List.map_cons, show h ++ .expired g.id now :: gone.map (fun g => WEv.expired g.id now) =
      (h ++ [.expired g.id now]) ++ gone.map (fun g => WEv.expired g.id now) by simp]
    exact this

/-- Less than one batch is left. -/
def LessThanOne (c : WConf) (p : List (Bytes × Int)) : Prop :=
  p = [] ∨ ((p.length : Int) < c.batchMaxCount ∧ (dataOf p).length < c.batchMaxSize)

theorem stopped_below {c : WConf} {s0 s : WSys} (h0 : s0.phase ≠ .stopped) (I0 : BInv c s0) (h : WReach c s0 s) :
    s.phase = .stopped → LessThanOne c (pending c.rules s.hist) := by
  induction h with
  | refl => intro h; exact absurd h h0
  | @step b d hab hst ih =>
    have Ib : BInv c b := by
      clear ih hst
      induction hab with
      | refl => exact I0
      | step _ hst ih => exact bInv_step ih hst
    intro hp
    have same : pending c.rules d.hist = pending c.rules b.hist → b.phase = .stopped →
        LessThanOne c (pending c.rules d.hist) := fun e hb => by rw [e]; exact ih hb
    cases hst with
    | tick t ht => exact ih hp
    | stop => exact ih hp
    | recv w data b hp' hb => cases hp
    | gotWrite w n hp' hn => cases hp
    | gotError w n hp' hn => cases hp
    | wake w hp' hw => cases hp
    | quit w hp' hs =>
      rcases (Ib.below w hp').2 with h | h
      · exact Or.inl h
      · right
        unfold LimitReached at h
        simp only [not_or] at h
        dsimp only
        omega
    | keep hp' h => cases hp
    | flush chunks hp' h hc => cases hp
    | firstOk chunk rest r hp' hr => cases hp
    | firstFail chunk rest r e hp' hr => dsimp only at hp; split at hp <;> cases hp
    | handoff i chunk rest hp' hc => cases hp
    | sent hp' => cases hp
    | arm hp' => exact ih hp
    | input i buf q gone hp' hc hq =>
      apply same _ hp
      dsimp only
      rw [pending_snoc]
      cases gone with
      | none => simp
      | some g => exact pending_snoc c.rules b.hist _
    | fireEmpty d gone hp' hd ht hf =>
      apply same _ hp
      dsimp only
      exact pending_expired c.rules b.hist gone b.now
    | fire d gone b' q hp' hd ht hf =>
      have hp2 : b.phase = .stopped := by
        unfold WSys.reportWrite at hp
        split at hp <;> exact hp
      apply same _ hp2
      have : pending c.rules (b.hist ++ (gone.map fun g => .expired g.id b.now) ++ [.attempt b'.id b'.buf b.now]) = pending c.rules b.hist := by
        rw [pending_snoc]
        exact pending_expired c.rules b.hist gone b.now
      unfold WSys.reportWrite
      split <;> exact this
    | finish i r hp' =>
      have : pending c.rules (b.hist ++ [.result i r b.now]) = pending c.rules b.hist := by rw [pending_snoc]
      obtain ⟨f1, f2, -⟩ := finishRetry_same c { b with rphase := .top, hist := b.hist ++ [.result i r b.now] } r
      rw [f1] at hp
      rw [f2]
      dsimp only
      rw [this]
      exact ih hp
    | retryQuit hp' hw' => exact ih hp

/-- **C34.** A worker that has stopped has sent everything but less than one batch: fewer than `batch_max_count`
pieces and fewer than `batch_max_size` bytes (these are lost). -/
theorem C34_lost_on_stop (c : WConf) (s : WSys) (h : WRun c s) (hp : s.phase = .stopped) :
    firstData s.hist ++ s.batch.bytes = ((received s.hist).flatMap fun d => pieces c.rules d).flatten ∧
    (s.batch.bytes = [] ∨ ((s.batch.writes : Int) < c.batchMaxCount ∧ s.batch.size < c.batchMaxSize)) := by
  have I := h.binv
  obtain ⟨h1, h2, -⟩ := I.settled (by rw [hp]; rfl)
  refine ⟨?_, ?_⟩
  · have := C34_every_matching_line_once c s h
    unfold unsentBytes at this
    rw [hp] at this
    exact this
  · obtain ⟨pages, now, h⟩ := h
    rcases stopped_below (by simp [WSys.start]) (bInv_start c pages now) h hp with h0 | h0
    · rw [h0] at h1; exact Or.inl h1
    · rw [← h2, ← h1] at h0; exact Or.inr h0

example : ∃ s, WRun exStreamConf s ∧ s.phase = .stopped ∧ s.batch.bytes = b!"cpu v=1 1\n" := by
  obtain ⟨s, h1, h2⟩ := wRun_hist (fun s => (s.phase, s.batch.bytes)) (.stopped, b!"cpu v=1 1\n")
    (c := exStreamConf) 100000 0 [.recv b!"cpu v=1 1\n", .check, .stop, .quit] (by decide +kernel)
  simp only [Prod.mk.injEq] at h2
  exact ⟨s, h1, h2⟩

/-! ## C69 -/

/-- **C69.** While the worker waits with data in its batch, its timer is set to before the oldest piece reaches
`batch_max_age` plus one second. -/
theorem C69_timer (c : WConf) (s : WSys) (h : WRun c s) (w : Int) (hp : s.phase = .select w) (x : Bytes × Int)
    (xs : List (Bytes × Int)) (hx : pending c.rules s.hist = x :: xs) : w < x.2 + c.batchMaxAge + 1000000000 := by
  rcases (h.binv.below w hp).2 with h0 | h0
  · rw [hx] at h0; cases h0
  · unfold LimitReached at h0
    simp only [not_or] at h0
    have := h0.2.2
    rw [hx] at this
    simp only [ageOf] at this
    have hsec : second = 1000000000 := rfl
    omega

/-- A run of a worker that is never late: it does not oversleep its timer and checks the limits at once. -/
inductive Prompt (c : WConf) : WSys → WSys → Prop
  | refl (s : WSys) : Prompt c s s
  | step {a b d : WSys} : Prompt c a b → WStep c b d → (∀ w, b.phase = .select w → d.now ≤ max b.now w) →
      (b.phase = .check → d.now = b.now) → Prompt c a d

theorem Prompt.reach {c : WConf} {a b : WSys} (h : Prompt c a b) : WReach c a b := by
  induction h with
  | refl => exact .refl _
  | step _ hst _ _ ih => exact ih.step hst

/-- The oldest waiting piece is not older than `batch_max_age` plus one second. -/
def PromptInv (c : WConf) (s : WSys) : Prop :=
  (∀ w, s.phase = .select w → s.now ≤ w) ∧
  ∀ x xs, pending c.rules s.hist = x :: xs → s.phase ≠ .stopped → s.now ≤ x.2 + c.batchMaxAge + second

theorem PromptInv.same {c : WConf} {s s' : WSys} (I : PromptInv c s) (h1 : s'.phase = s.phase)
    (h2 : pending c.rules s'.hist = pending c.rules s.hist) (h3 : s'.now = s.now) : PromptInv c s' := by
  unfold PromptInv
  rw [h1, h2, h3]
  exact I

/-- Leaving the `select` or the check without touching the batch. -/
theorem PromptInv.rephase {c : WConf} {s s' : WSys} (I : PromptInv c s) (h0 : s.phase ≠ .stopped)
    (h1 : ∀ w, s'.phase = .select w → w = s.now + second)
    (h2 : pending c.rules s'.hist = pending c.rules s.hist) (h3 : s'.now = s.now) : PromptInv c s' := by
  refine ⟨?_, ?_⟩
  · intro w hw
    rw [h1 w hw, h3]
    unfold second
    omega
  · intro x xs hx _
    rw [h2] at hx
    rw [h3]
    exact I.2 x xs hx h0

theorem promptInv {c : WConf} (hage : 0 ≤ c.batchMaxAge) {s0 s : WSys} (I0 : PromptInv c s0) (B0 : BInv c s0)
    (h : Prompt c s0 s) : PromptInv c s ∧ BInv c s := by
  induction h with
  | refl => exact ⟨I0, B0⟩
  | @step b d hab hst hsel hchk ih =>
    obtain ⟨I, B⟩ := ih
    refine ⟨?_, bInv_step B hst⟩
    have hempty : isSending b.phase = true → pending c.rules b.hist = [] := B.sending
    cases hst with
    | tick t ht =>
      dsimp only at hsel hchk
      refine ⟨?_, ?_⟩
      · intro w hw
        have h1 := hsel w hw
        have h2 := I.1 w hw
        dsimp only
        omega
      · intro x xs hx hns
        dsimp only at hx hns ⊢
        cases hp : b.phase with
        | select w =>
          have h1 := hsel w hp
          have h2 := I.1 w hp
          rcases (B.below w hp).2 with h0 | h0
          · rw [hx] at h0; cases h0
          · unfold LimitReached at h0
            simp only [not_or] at h0
            have := h0.2.2
            rw [hx] at this
            simp only [ageOf] at this
            omega
        | check =>
          have h1 := hchk hp
          have h2 := I.2 x xs hx hns
          omega
        | sending rest => rw [hempty (by rw [hp]; rfl)] at hx; cases hx
        | handoff i ch rest => rw [hempty (by rw [hp]; rfl)] at hx; cases hx
        | stopped => exact absurd hp hns
    | stop => exact I.same rfl rfl rfl
    | recv w data b' hp hb =>
      refine ⟨(fun w h => by cases h), ?_⟩
      intro x xs hx _
      dsimp only at hx ⊢
      rw [pending_snoc] at hx
      dsimp only at hx
      cases hpe : pending c.rules b.hist with
      | cons y ys =>
        rw [hpe] at hx
        injection hx with hx _
        rw [← hx]
        exact I.2 y ys hpe (by rw [hp]; intro h; cases h)
      | nil =>
        rw [hpe] at hx
        cases hpc : pieces c.rules data with
        | nil => rw [hpc] at hx; cases hx
        | cons z zs =>
          rw [hpc] at hx
          injection hx with hx _
          rw [← hx]
          dsimp only
          unfold second
          omega
    | gotWrite w n hp hn => exact I.rephase (by rw [hp]; intro h; cases h) (fun w h => by cases h) rfl rfl
    | gotError w n hp hn => exact I.rephase (by rw [hp]; intro h; cases h) (fun w h => by cases h) rfl rfl
    | wake w hp hw => exact I.rephase (by rw [hp]; intro h; cases h) (fun w h => by cases h) rfl rfl
    | quit w hp hs => exact I.rephase (by rw [hp]; intro h; cases h) (fun w h => by cases h) rfl rfl
    | keep hp h => exact I.rephase (by rw [hp]; intro h; cases h) (fun w h => by injection h with h; exact h.symm) rfl rfl
    | flush chunks hp h hc =>
      refine ⟨(fun w h => by cases h), ?_⟩
      intro x xs hx _
      dsimp only at hx
      rw [pending_snoc] at hx
      cases hx
    | firstOk chunk rest r hp hr =>
      exact I.rephase (by rw [hp]; intro h; cases h) (fun w h => by cases h) (by rw [pending_snoc]) rfl
    | firstFail chunk rest r e hp hr =>
      refine I.rephase (by rw [hp]; intro h; cases h) (fun w h => ?_) (by rw [pending_snoc]) rfl
      dsimp only at h
      split at h <;> cases h
    | handoff i chunk rest hp hc => exact I.rephase (by rw [hp]; intro h; cases h) (fun w h => by cases h) rfl rfl
    | sent hp => exact I.rephase (by rw [hp]; intro h; cases h) (fun w h => by injection h with h; exact h.symm) rfl rfl
    | arm hp => exact I.same rfl rfl rfl
    | input i buf q gone hp hc hq =>
      refine I.same rfl ?_ rfl
      dsimp only
      rw [pending_snoc]
      cases gone with
      | none => simp
      | some g => exact pending_snoc c.rules b.hist _
    | fireEmpty dl gone hp hd ht hf => exact I.same rfl (pending_expired c.rules b.hist gone b.now) rfl
    | fire dl gone b' q hp hd ht hf =>
      obtain ⟨f1, f2, -, f4, -⟩ := reportWrite_same c
        { b with rphase := .writing b'.id, nextSend := none, queue := b' :: q, hist := b.hist ++ (gone.map fun g => .expired g.id b.now) ++ [.attempt b'.id b'.buf b.now] }
      refine I.same f1 ?_ f4
      rw [f2]
      dsimp only
      rw [pending_snoc]
      exact pending_expired c.rules b.hist gone b.now
    | finish i r hp =>
      obtain ⟨f1, f2, -, f4, -⟩ := finishRetry_same c { b with rphase := .top, hist := b.hist ++ [.result i r b.now] } r
      refine I.same f1 ?_ f4
      rw [f2]
      dsimp only
      rw [pending_snoc]
    | retryQuit hp hw => exact I.same rfl rfl rfl

/-- What a step does to what is pending. -/
theorem step_pending {c : WConf} {s s' : WSys} (hst : WStep c s s') :
    s.now ≤ s'.now ∧ (pending c.rules s'.hist = pending c.rules s.hist ∨ pending c.rules s'.hist = [] ∨
      ∃ ls : List Bytes, pending c.rules s'.hist = pending c.rules s.hist ++ ls.map fun l => (l, s.now)) := by
  cases hst with
  | tick t ht => exact ⟨ht, Or.inl rfl⟩
  | recv w data b' hp hb => exact ⟨Int.le_refl _, Or.inr (Or.inr ⟨pieces c.rules data, by rw [pending_snoc]⟩)⟩
  | flush chunks hp h hc => exact ⟨Int.le_refl _, Or.inr (Or.inl (by rw [pending_snoc]))⟩
  | firstOk chunk rest r hp hr => exact ⟨Int.le_refl _, Or.inl (by rw [pending_snoc])⟩
  | firstFail chunk rest r e hp hr => exact ⟨Int.le_refl _, Or.inl (by rw [pending_snoc])⟩
  | input i buf q gone hp hc hq =>
    refine ⟨Int.le_refl _, Or.inl ?_⟩
    dsimp only
    rw [pending_snoc]
    cases gone with
    | none => simp
    | some g => exact pending_snoc c.rules s.hist _
  | fireEmpty dl gone hp hd ht hf => exact ⟨Int.le_refl _, Or.inl (pending_expired c.rules s.hist gone s.now)⟩
  | fire dl gone b' q hp hd ht hf =>
    obtain ⟨f1, f2, -, f4, -⟩ := reportWrite_same c
      { s with rphase := .writing b'.id, nextSend := none, queue := b' :: q, hist := s.hist ++ (gone.map fun g => .expired g.id s.now) ++ [.attempt b'.id b'.buf s.now] }
    rw [f2, f4]
    refine ⟨Int.le_refl _, Or.inl ?_⟩
    dsimp only
    rw [pending_snoc]
    exact pending_expired c.rules s.hist gone s.now
  | finish i r hp =>
    obtain ⟨f1, f2, -, f4, -⟩ := finishRetry_same c { s with rphase := .top, hist := s.hist ++ [.result i r s.now] } r
    rw [f2, f4]
    refine ⟨Int.le_refl _, Or.inl ?_⟩
    dsimp only
    rw [pending_snoc]
  | _ => exact ⟨Int.le_refl _, Or.inl rfl⟩

/-- What is pending is in order of arrival. -/
theorem pending_sorted {c : WConf} {s : WSys} (h : WRun c s) :
    (∀ x ∈ pending c.rules s.hist, x.2 ≤ s.now) ∧
    ∀ y ys, pending c.rules s.hist = y :: ys → ∀ x ∈ ys, y.2 ≤ x.2 := by
  obtain ⟨pages, now, h⟩ := h
  induction h with
  | refl => exact ⟨by simp [WSys.start, pending], by simp [WSys.start, pending]⟩
  | @step b d hab hst ih =>
    obtain ⟨h0, h1⟩ := step_pending hst
    rcases h1 with h1 | h1 | ⟨ls, h1⟩
    · rw [h1]
      exact ⟨fun x hx => Int.le_trans (ih.1 x hx) h0, ih.2⟩
    · rw [h1]; simp
    · rw [h1]
      refine ⟨?_, ?_⟩
      · intro x hx
        rcases List.mem_append.1 hx with hx | hx
        · exact Int.le_trans (ih.1 x hx) h0
        · obtain ⟨l, -, rfl⟩ := List.mem_map.1 hx; exact h0
      · intro y ys hy x hx
        cases hpe : pending c.rules b.hist with
        | cons z zs =>
          rw [hpe] at hy
          injection hy with hy1 hy2
          subst hy1; subst hy2
          rcases List.mem_append.1 hx with hx | hx
          · exact ih.2 z zs hpe x hx
          · obtain ⟨l, -, rfl⟩ := List.mem_map.1 hx
            exact ih.1 z (by rw [hpe]; simp)
        | nil =>
          rw [hpe] at hy
          have hall : ∀ z ∈ y :: ys, z.2 = b.now := by
            rw [← hy]
            intro z hz
            rw [List.nil_append] at hz
            obtain ⟨l, -, rfl⟩ := List.mem_map.1 hz
            rfl
          rw [hall y (by simp), hall x (by simp [hx])]
          exact Int.le_refl _

/-- **C69.** If the worker is scheduled promptly, a received piece of data never waits in the batch longer than
`batch_max_age` plus one second: at any time at which the worker has not stopped, whatever is pending is not
older than that. -/
theorem C69_age_bound (c : WConf) (hage : 0 ≤ c.batchMaxAge) (pages : Nat) (now : Int) (s : WSys)
    (h : Prompt c (WSys.start c pages now) s) (hp : s.phase ≠ .stopped) (x : Bytes × Int)
    (hx : x ∈ pending c.rules s.hist) : s.now - x.2 ≤ c.batchMaxAge + 1000000000 := by
  obtain ⟨I, -⟩ := promptInv hage (s0 := WSys.start c pages now) (by
    refine ⟨?_, ?_⟩
    · intro w hw
      simp only [WSys.start, WPhase.select.injEq] at hw ⊢
      unfold second at hw
      omega
    · intro x xs hx; cases hx) (bInv_start c pages now) h
  have hs := (pending_sorted ⟨pages, now, h.reach⟩).2
  cases hpe : pending c.rules s.hist with
  | nil => rw [hpe] at hx; cases hx
  | cons y ys =>
    have h1 := I.2 y ys hpe hp
    rw [hpe] at hx
    rcases List.mem_cons.1 hx with rfl | hx
    have hsec : second = 1000000000 := rfl
    · omega
    · have h2 := hs y ys hpe x hx
      have hsec : second = 1000000000 := rfl
      omega

/-- And then every batch is sent before its oldest piece is older than that. -/
theorem C69_sent_in_time (c : WConf) (hage : 0 ≤ c.batchMaxAge) (pages : Nat) (now : Int) (s s' : WSys)
    (h : Prompt c (WSys.start c pages now) s) (hst : WStep c s s') (d : Bytes) (t : Int)
    (hf : s'.hist = s.hist ++ [.flush d t]) (x : Bytes × Int) (hx : x ∈ pending c.rules s.hist) :
    t - x.2 ≤ c.batchMaxAge + 1000000000 := by
  have hp : s.phase = .check ∧ t = s.now := by
    cases hst with
    | flush chunks hp h hc =>
      simp at hf
      exact ⟨hp, hf.2.symm⟩
    | fire dl gone b' q hp hd ht hq =>
      rw [(reportWrite_same c _).2.1] at hf
      have := List.append_cancel_left (by simpa using hf : s.hist ++ _ = s.hist ++ _)
      have := congrArg List.getLast? this
      simp at this
    | finish i r hp =>
      rw [(finishRetry_same c _ r).2.1] at hf
      simp at hf
    | fireEmpty dl gone hp hd ht hq =>
      exfalso
      have : WEv.flush d t ∈ (gone.map fun g => WEv.expired g.id s.now) := by
        have := List.append_cancel_left hf
        rw [this]; simp
      obtain ⟨g, -, hg⟩ := List.mem_map.1 this
      cases hg
    | input i buf q gone hp hc hq =>
      have := congrArg List.getLast? hf
      simp at this
    | _ => simp at hf
  rw [hp.2]
  exact C69_age_bound c hage pages now s h (by rw [hp.1]; intro h; cases h) x hx

/-- A step is on time. -/
def onTime (b d : WSys) : Bool :=
  match b.phase with
  | .select w => decide (d.now ≤ max b.now w)
  | .check => decide (d.now = b.now)
  | _ => true

/-- Prompt schedules. -/
def pActs (c : WConf) (s : WSys) : List WAct → Option WSys
  | [] => some s
  | a :: as => (wAct c s a).bind fun s' => if onTime s s' = true then pActs c s' as else none

theorem pActs_sound {c : WConf} {s0 s s' : WSys} {as : List WAct} (h0 : Prompt c s0 s) (h : pActs c s as = some s') :
    Prompt c s0 s' := by
  induction as generalizing s with
  | nil => simp only [pActs] at h; injection h with h; subst h; exact h0
  | cons a as ih =>
    simp only [pActs] at h
    cases ha : wAct c s a with
    | none => rw [ha] at h; cases h
    | some s1 =>
      rw [ha] at h
      simp only [Option.bind_some] at h
      split at h
      · rename_i hok
        refine ih (h0.step (wAct_sound ha) ?_ ?_) h
        · intro w hw; unfold onTime at hok; rw [hw] at hok; simpa using hok
        · intro hw; unfold onTime at hok; rw [hw] at hok; simpa using hok
      · cases h

/-- A message waits for two wake-ups and is sent at two seconds, `batch_max_age` being 1.5 seconds. -/
example : ∃ s s' d t x, Prompt (⟨10, 1000, 1500000000, [], 0, 0, 0⟩) (WSys.start (⟨10, 1000, 1500000000, [], 0, 0, 0⟩) 100 0) s ∧
    WStep (⟨10, 1000, 1500000000, [], 0, 0, 0⟩) s s' ∧ s'.hist = s.hist ++ [.flush d t] ∧ x ∈ pending [] s.hist ∧ t - x.2 = 2 * second := by
  have h1 : (pActs (⟨10, 1000, 1500000000, [], 0, 0, 0⟩) (WSys.start (⟨10, 1000, 1500000000, [], 0, 0, 0⟩) 100 0)
      [.recv b!"a v=1\n", .check, .tick 1000000000, .wake, .check, .tick 2000000000, .wake]).map
        (fun s => (s.hist, ((wAct (⟨10, 1000, 1500000000, [], 0, 0, 0⟩) s .check).map fun s => s.hist)))
      = some ([.recv b!"a v=1\n" 0], some [.recv b!"a v=1\n" 0, .flush b!"a v=1\n" 2000000000]) := by decide +kernel
  cases hs : pActs (⟨10, 1000, 1500000000, [], 0, 0, 0⟩) (WSys.start (⟨10, 1000, 1500000000, [], 0, 0, 0⟩) 100 0)
      [.recv b!"a v=1\n", .check, .tick 1000000000, .wake, .check, .tick 2000000000, .wake] with
  | none => rw [hs] at h1; cases h1
  | some s =>
    rw [hs] at h1
    simp only [Option.map_some, Option.some.injEq, Prod.mk.injEq] at h1
    obtain ⟨h2, h3⟩ := h1
    cases hs' : wAct (⟨10, 1000, 1500000000, [], 0, 0, 0⟩) s .check with
    | none => rw [hs'] at h3; cases h3
    | some s' =>
      rw [hs'] at h3
      simp only [Option.map_some, Option.some.injEq] at h3
      refine ⟨s, s', b!"a v=1\n", 2000000000, (b!"a v=1\n", 0), pActs_sound (.refl _) hs, wAct_sound hs', by rw [h3, h2]; rfl, ?_, by decide⟩
      rw [h2]
      simp [pending, pieces]

/-! ## C70 -/

/-- **C70.** Every write to InfluxDB, first attempt or retry, has a body of between 1 and `batch_max_size + 1` bytes. -/
theorem C70_sizes (c : WConf) (hc : 1 ≤ c.batchMaxSize) (s : WSys) (h : WRun c s) (i : Nat) (d : Bytes) (t : Int)
    (hd : (∃ r, .first i d r t ∈ s.hist) ∨ .attempt i d t ∈ s.hist) : d ≠ [] ∧ d.length ≤ c.batchMaxSize + 1 := by
  have hfirst : ∃ i r t, .first i d r t ∈ s.hist := by
    rcases hd with ⟨r, hd⟩ | hd
    · exact ⟨i, r, t, hd⟩
    · obtain ⟨⟨r, t0, h1⟩, -⟩ := C42_same_data c s h i d t hd
      exact ⟨i, r, t0, h1⟩
  obtain ⟨i, r, t, hf⟩ := hfirst
  obtain ⟨h1, h2, hs⟩ := mem_split hf
  exact (h.binv.sizes hc).1 h1 _ h2 hs

/-- The text is a sequence of complete lines. -/
def CompleteText (d : Bytes) : Prop := ∃ ls : List Bytes, (∀ l ∈ ls, NL ∉ l) ∧ d = (ls.map (· ++ [NL])).flatten

/-- **C70.** If every message received consists of complete lines of at most `batch_max_size` bytes (as those
published by the filter do), then every write, first attempt or retry, consists of complete lines, each of
them a line of a received message: no line is ever cut or joined with another. -/
theorem C70_whole_lines (c : WConf) (hc : 1 ≤ c.batchMaxSize) (s : WSys) (h : WRun c s)
    (hw : ∀ m ∈ received s.hist, CompleteText m ∧ ∀ l ∈ linesOf m, l.length ≤ c.batchMaxSize + 1)
    (i : Nat) (d : Bytes) (t : Int) (hd : (∃ r, .first i d r t ∈ s.hist) ∨ .attempt i d t ∈ s.hist) :
    CompleteText d ∧ ∀ l ∈ linesOf d, ∃ m ∈ received s.hist, l ∈ linesOf m := by
  have hcomp : ∀ d : Bytes, CompleteText d → d = [] ∨ d.getLast? = some NL := by
    rintro d ⟨ls, h1, rfl⟩
    rcases List.eq_nil_or_concat ls with rfl | ⟨ls', l, rfl⟩
    · left; rfl
    · right; rw [List.concat_eq_append]; simp [List.getLast?_append]
  have hW : WholeLines c s.hist := fun m hm => ⟨hcomp m (hw m hm).1, (hw m hm).2⟩
  have I := h.binv
  have hfirst : ∃ i r t, .first i d r t ∈ s.hist := by
    rcases hd with ⟨r, hd⟩ | hd
    · exact ⟨i, r, t, hd⟩
    · obtain ⟨⟨r, t0, h1⟩, -⟩ := C42_same_data c s h i d t hd
      exact ⟨i, r, t0, h1⟩
  obtain ⟨i, r, t, hf⟩ := hfirst
  obtain ⟨hl, -⟩ := I.lines hc hW
  have hdl := hl i d r t hf
  refine ⟨complete_lines d (Or.inr hdl), ?_⟩
  intro l hld
  -- the stream of all first attempts
  have hall := C34_every_matching_line_once c s h
  have hps : ∀ p ∈ (received s.hist).flatMap fun d => pieces c.rules d,
      (p = [] ∨ p.getLast? = some NL) ∧ ∀ l ∈ linesOf p, ∃ m ∈ received s.hist, l ∈ linesOf m := by
    intro p hp
    obtain ⟨m, hm, hp⟩ := List.mem_flatMap.1 hp
    unfold pieces at hp
    split at hp
    · simp at hp; subst hp
      exact ⟨(hW p hm).1, fun l hl => ⟨p, hm, hl⟩⟩
    · have hp := (List.mem_filter.1 hp).1
      obtain ⟨body, hb1, rfl⟩ := linesOf_complete m (hW m hm).1 p hp
      refine ⟨Or.inr (by simp), ?_⟩
      intro l hl
      rw [linesOf_single body hb1] at hl
      simp at hl
      subst hl
      exact ⟨m, hm, hp⟩
  have hsplit : ∃ a b, firstData s.hist = a ++ d ++ b ∧ (a = [] ∨ a.getLast? = some NL) := by
    obtain ⟨h1, h2, hs⟩ := mem_split hf
    refine ⟨firstData h1, firstData h2, ?_, ?_⟩
    · rw [hs]; simp [firstData]
    · have : ∀ (g : List WEv), (∀ i d r t, .first i d r t ∈ g → d.getLast? = some NL) →
          firstData g = [] ∨ (firstData g).getLast? = some NL := by
        intro g
        induction g with
        | nil => intro _; left; rfl
        | cons e g ih =>
          intro hg
          have ih := ih (fun i d r t hm => hg i d r t (by simp [hm]))
          have hcons : firstData (e :: g) = (match e with | .first _ d _ _ => d | _ => []) ++ firstData g := by
            cases e <;> rfl
          rw [hcons]
          cases e with
          | first i d r t =>
            have hd := hg i d r t (by simp)
            dsimp only
            rcases ih with ih | ih
            · rw [ih, List.append_nil]; exact Or.inr hd
            · right; rw [List.getLast?_append, ih]; rfl
          | _ => exact ih
      exact this h1 (fun i d r t hm => hl i d r t (by rw [hs]; simp [hm]))
  obtain ⟨a, b, hab, ha⟩ := hsplit
  rw [hab] at hall
  have hlines := congrArg linesOf hall
  rw [linesOf_flatten_complete _ (fun p hp => (hps p hp).1)] at hlines
  rw [show a ++ d ++ b ++ unsentBytes s = a ++ (d ++ (b ++ unsentBytes s)) by simp, linesOf_append a _ ha,
    linesOf_append d _ (Or.inr hdl)] at hlines
  have hm : l ∈ ((received s.hist).flatMap fun d => pieces c.rules d).flatMap linesOf := by
    rw [← hlines]; simp [hld]
  obtain ⟨p, hp, hlp⟩ := List.mem_flatMap.1 hm
  exact (hps p hp).2 l hlp

/-- Two messages of complete lines, the second write failing and being retried. -/
example : ∃ s, WRun exWConf s ∧ (∀ m ∈ received s.hist, CompleteText m ∧ ∀ l ∈ linesOf m, l.length ≤ exWConf.batchMaxSize + 1) ∧
    .attempt 1 b!"b v=1\n" 6 ∈ s.hist := by
  obtain ⟨s, h1, h2⟩ := exHist_run
  refine ⟨s, h1, ?_, by rw [h2]; decide⟩
  rw [h2]
  have hr : received exHist = [b!"a v=1\n", b!"b v=1\n", b!"c v=1\n"] := by decide
  rw [hr]
  intro m hm
  have hm' : m = b!"a v=1\n" ∨ m = b!"b v=1\n" ∨ m = b!"c v=1\n" := by simpa using hm
  rcases hm' with rfl | rfl | rfl
  · exact ⟨⟨[b!"a v=1"], by decide, by decide⟩, by decide⟩
  · exact ⟨⟨[b!"b v=1"], by decide, by decide⟩, by decide⟩
  · exact ⟨⟨[b!"c v=1"], by decide, by decide⟩, by decide⟩

end Spout
