import Verif.Lemmas.LifecycleReady

/-! # Properties of starting and stopping components (C76–C81) -/

set_option linter.unusedSimpArgs false

namespace Spout.Lifecycle

/-! ## Specification -/

/-- The components, in any configuration with a number of workers that is not
negative (a negative number is accepted by the configuration: see
`C76_negative_workers_panic`). -/
inductive Component : Comp → Prop where
  | filter (workers : Int) : Component (filter workers)
  | writer (workers : Int) (subjects : Nat) : 0 ≤ workers → Component (writer workers subjects)
  | downsampler (subjects : Nat) : Component (downsampler subjects)
  | udpListener : Component udpListener
  | httpListener : Component httpListener
  | monitor : Component monitor

/-- Components whose `StartX` calls `Stop` for every error. -/
inductive Tidy : Comp → Prop where
  | filter (workers : Int) : Tidy (filter workers)
  | writer (workers : Int) (subjects : Nat) : 0 ≤ workers → Tidy (writer workers subjects)
  | downsampler (subjects : Nat) : Tidy (downsampler subjects)
  | monitor : Tidy monitor

/-- `/readyz` answers 200 (C64). -/
def Ready (s : St) : Prop := s.sh.probes = true ∧ s.sh.ready = true

/-- `/healthz` answers 200 (C64). -/
def Alive (s : St) : Prop := s.sh.probes = true ∧ s.sh.alive = true

/-- `Stop` has not been called, or has executed nothing yet. -/
def StopNotBegun (c : Comp) (s : St) : Prop :=
  s.phase = .running ∨ (s.phase = .stopping ∧ s.main = c.stop)

/-- The component receives what is sent to its `i`-th subject: it is connected
and subscribed, and its pending limits are set. -/
def Receives (s : St) (i : Nat) : Prop :=
  Resource.nats ∈ s.sh.live ∧ i ∈ s.sh.subs ∧ i ∈ s.sh.limited

/-- A goroutine is in its loop. -/
def Working (s : St) (g : Gid) : Prop := ∃ t ∈ s.threads, t.1 = g ∧ .awaitStop ∈ t.2

/-- Nothing is left: no connection, no socket, no port, and no goroutine (those
inside the HTTP servers excepted: see `C77_stop_returns`). -/
structure Nothing (s : St) : Prop where
  resources : s.sh.live = []
  probes : s.sh.probes = false
  port : s.sh.listening = false
  goroutines : ∀ t ∈ s.threads, t.1 ≠ .http → t.2 = []

/-! ## Proofs -/

theorem Component.wf {c : Comp} (h : Component c) : WF c := by
  cases h with
  | filter w => exact filter_wf w
  | writer w n hw => exact writer_wf w hw n
  | downsampler n => exact downsampler_wf n
  | udpListener => exact udp_wf
  | httpListener => exact http_wf
  | monitor => exact monitor_wf

theorem Component.wfs {c : Comp} (h : Component c) : WFS c := by
  cases h with
  | filter w => apply wfs_of_none; intro g; cases g <;> simp [Lifecycle.filter]
  | writer w n hw => apply wfs_of_none; intro g; cases g <;> simp [Lifecycle.writer]
  | downsampler n => apply wfs_of_none; intro g; cases g <;> simp [Lifecycle.downsampler]
  | udpListener => exact udp_wfs
  | httpListener => exact http_wfs
  | monitor => exact monitor_wfs

theorem Component.own {c : Comp} (h : Component c) : Own c c.start := by
  cases h with
  | filter w => exact (filter_all w).2.2
  | writer w n hw => exact (writer_all w hw n).2.2
  | downsampler n => exact (downsampler_all n).2.2
  | udpListener => exact udp_own
  | httpListener => exact http_own
  | monitor => exact monitor_own.2

theorem Tidy.component {c : Comp} (h : Tidy c) : Component c := by
  cases h with
  | filter w => exact .filter w
  | writer w n hw => exact .writer w n hw
  | downsampler n => exact .downsampler n
  | monitor => exact .monitor

theorem Tidy.ownAt {c : Comp} (h : Tidy c) : AllPos (OwnAt c) [] c.start := by
  cases h with
  | filter w => exact (AllPos_and (filter_all w).1).2
  | writer w n hw => exact (AllPos_and (writer_all w hw n).1).2
  | downsampler n => exact (AllPos_and (downsampler_all n).1).2
  | monitor => exact monitor_own.1

/-- Tidy components defer before they do anything that can fail. -/
theorem Tidy.deferred {c : Comp} (h : Tidy c) {pre : List Op} (hf : FailedAt c pre) : .deferStop ∈ pre := by
  have hs : ∃ z, c.start = .openProbes :: .deferStop :: z := by
    cases h with
    | filter w => exact ⟨_, rfl⟩
    | writer w n hw => exact ⟨_, rfl⟩
    | downsampler n => exact ⟨_, rfl⟩
    | monitor => exact ⟨_, rfl⟩
  obtain ⟨z, hz⟩ := hs
  obtain ⟨o, post, e, hfa⟩ := hf
  rw [hz] at e
  cases pre with
  | nil => rw [List.nil_append] at e; injection e with e; subst e; cases hfa
  | cons a pre =>
    rw [List.cons_append] at e
    injection e with _ e
    cases pre with
    | nil => rw [List.nil_append] at e; injection e with e; subst e; cases hfa
    | cons b pre =>
      rw [List.cons_append] at e
      injection e with e _
      subst e
      simp

theorem Component.stop_probes {c : Comp} (h : Component c) : .closeProbes ∈ c.stop ∧ .openProbes ∉ c.stop := by
  cases h <;> simp [Lifecycle.filter, Lifecycle.writer, Lifecycle.downsampler, Lifecycle.udpListener,
    Lifecycle.httpListener, Lifecycle.monitor]

/-- Goroutines, except those inside the HTTP servers, are counted. -/
theorem Component.counted {c : Comp} (h : Component c) (g : Gid) (hg : g ≠ .http) : c.body g = [] ∨ .done ∈ c.body g := by
  cases h <;> cases g <;> simp [Lifecycle.filter, Lifecycle.writer, Lifecycle.downsampler, Lifecycle.udpListener,
    Lifecycle.httpListener, Lifecycle.monitor] <;> exact absurd rfl hg

/-- Whoever binds the port is closed by a goroutine that is waited for. -/
theorem listening_server {c : Comp} (hc : Component c) {s : St} (h : Reach c s) :
    s.sh.listening = true → ∃ g, .spawn g ∈ s.did ∧ .closeServer ∈ c.body g ∧ .done ∈ c.body g := by
  have wf := hc.wf
  induction h with
  | init => intro h; cases h
  | @step s s' l hr hs ih =>
    have inv := reach_inv wf hr
    have invS := reach_invS wf hr
    rcases step_cases hs with ⟨-, hp, rfl⟩ | ⟨good, o, rest, -, hm, hok, rfl⟩ | ⟨good, o, rest, -, hm, hfl, rfl⟩ |
      ⟨i, g, o, rest, good, -, hi, hok, rfl⟩
    · exact ih
    · rw [finish_sh, finish_did]
      simp only
      intro hl
      have hl' : s.sh.listening = true := by
        have hsh := inv.shape
        rw [hm] at hsh
        cases o with
        | listen =>
          exfalso
          rcases hsh.next wf with ⟨-, -, hp⟩ | ⟨hp, -⟩
          · exact hp.noStop.2.2.2.2.1 rfl
          · exact (wf.stop_plain _ hp).2.2.2.2.2.1 rfl
        | closeServer => cases hl
        | _ => exact hl
      obtain ⟨g, h1, h2⟩ := ih hl'
      exact ⟨g, List.mem_append_left _ h1, h2⟩
    · rw [finish_sh, finish_did]; exact ih
    · simp only
      intro hl
      have hob := mem_body inv.suffix hi
      have htm : (g, o :: rest) ∈ s.threads := List.mem_of_getElem? hi
      by_cases ho : o = .listen
      · subst ho
        rcases invS.parent _ htm with h1 | ⟨t', ht', h1⟩
        · obtain ⟨pre, post, e, -⟩ := spawn_base wf inv h1
          exact absurd hob (hc.wfs.outer g (by rw [e]; simp)).2
        · rcases invS.parent t' ht' with h2 | ⟨t'', _, h2⟩
          · refine ⟨t'.1, h2, ?_⟩
            clear ih hs hr inv invS hok hl htm hi ht' h2
            generalize t'.1 = g' at *
            cases hc <;> cases g' <;> cases g <;> simp [Lifecycle.filter, Lifecycle.writer, Lifecycle.downsampler,
              Lifecycle.udpListener, Lifecycle.httpListener, Lifecycle.monitor] at h1 hob ⊢
          · exact absurd h1 ((wf.inner _ _ h2).2.2 _)
      · have hl' : s.sh.listening = true := by
          cases o with
          | listen => exact absurd rfl ho
          | closeServer => cases hl
          | _ => exact hl
        exact ih hl'

theorem nothing_left {c : Comp} (hc : Component c) {s : St} (h : Reach c s) {base : List Op}
    (hd : s.did = base ++ c.stop) (own : Own c base) : Nothing s := by
  have wf := hc.wf
  have inv := reach_inv wf h
  have invS := reach_invS wf h
  have hwait : .wait ∈ s.did := by
    obtain ⟨a, b, hab, -⟩ := wf.stop_split
    rw [hd, hab]; simp
  refine ⟨all_released wf inv hd own, ?_, ?_, ?_⟩
  · rw [inv.agree.probes, hd]
    exact replay_noProbes _ _ hc.stop_probes.1 hc.stop_probes.2
  · cases hl : s.sh.listening with
    | false => rfl
    | true =>
      obtain ⟨g, h1, h2, h3⟩ := listening_server hc h hl
      obtain ⟨t, ht, e⟩ := inv.spawned g h1
      have hnil := thread_done wf inv hwait ht (by rw [e]; exact h3)
      rcases invS.closed t ht (by rw [e]; exact h2) with h4 | h4
      · rw [hnil] at h4; cases h4
      · have := invS.unbound h4
        rw [hl] at this
        exact this
  · intro t ht hg
    rcases hc.counted t.1 hg with h1 | h1
    · obtain ⟨p, e⟩ := inv.suffix t ht
      rw [h1] at e
      exact (List.append_eq_nil_iff.1 e.symm).2
    · exact thread_done wf inv hwait ht h1

/-! ### C76: no crash -/

/-- **C76 (partial).** Whatever fails and however the goroutines are scheduled,
starting and stopping a component with a number of workers that is not negative
does not panic: no `WaitGroup` counter becomes negative, no channel is closed
twice and no nil connection is closed. -/
theorem C76_no_panic_partial {c : Comp} (hc : Component c) {s : St} (h : Reach c s) (l : Label) :
    step c s l ≠ .panic := no_panic hc.wf (reach_inv hc.wf h) l

/-- **C76 is false in general.** A writer with a negative number of workers,
which the configuration accepts, panics as soon as it is connected to NATS. -/
theorem C76_negative_workers_panic (workers : Int) (subjects : Nat) (hw : workers < 0) :
    run (writer workers subjects) (init (writer workers subjects))
      [.main true, .main true, .main true, .main true, .main true] = .panic := by
  have e : outcome (eff (eff (eff (eff shared0 .openProbes) .deferStop) (.check .rules)) (.acquire .nats)) true (.add workers)
      = .panic := by
    unfold outcome
    simp only [fallible, Bool.false_eq_true, if_false]
    rw [if_pos (by simp [eff, shared0]; exact hw)]
  simp only [run, step, init, Lifecycle.writer, List.cons_append, List.nil_append, finish]
  simp [outcome, fallible, eff, shared0, hw, born]

/-! ### C77: starting and stopping end -/

/-- **C77.** `StartX` never waits: in every state its next operation can be
executed, and succeeds or returns an error. -/
theorem C77_start_returns {c : Comp} (hc : Component c) {s : St} (h : Reach c s) (hp : s.phase = .starting) (good : Bool) :
    ∃ s', step c s (.main good) = .ok s' := by
  have inv := reach_inv hc.wf h
  have hsh := inv.shape
  have hne : s.main ≠ [] := by
    generalize s.did = d at hsh
    generalize s.main = m at hsh
    rw [hp] at hsh
    cases hsh; assumption
  cases hm : s.main with
  | nil => exact absurd hm hne
  | cons o rest =>
    rcases outcome_main_start hc.wf inv hp hm good with h1 | ⟨-, h1⟩
    · exact ⟨_, by dsimp only [step]; rw [hm]; dsimp only; rw [h1]⟩
    · exact ⟨_, by dsimp only [step]; rw [hm]; dsimp only; rw [h1]⟩

/-- **C77.** Once `Stop` is called, whatever the schedule: only so many steps
are possible, and when no goroutine can go on `Stop` has returned and every
goroutine has ended, those inside the HTTP servers included. -/
theorem C77_stop_returns {c : Comp} (hc : Component c) {s : St} (h : Reach c s)
    (hp : s.phase = .stopping ∨ s.phase = .stopped) :
    ∃ n, ∀ ls s', run c s ls = .ok s' → ls.length ≤ n ∧
      ((∀ l s'', step c s' l ≠ .ok s'') → s'.phase = .stopped ∧ ∀ t ∈ s'.threads, t.2 = []) := by
  have wf := hc.wf
  refine ⟨work c s, ?_⟩
  intro ls s' hrun
  have inv := reach_inv wf h
  have hp' : s.phase ≠ .starting ∧ s.phase ≠ .running := by
    rcases hp with hp | hp <;> rw [hp] <;> simp
  refine ⟨(run_work wf inv hp' hrun).1, ?_⟩
  -- the phase and the invariants at the end
  have key : ∀ (ls : List Label) (s : St), Reach c s → (s.phase = .stopping ∨ s.phase = .stopped) →
      run c s ls = .ok s' → Reach c s' ∧ (s'.phase = .stopping ∨ s'.phase = .stopped) := by
    intro ls
    induction ls with
    | nil => intro s h hp hr; injection hr with hr; subst hr; exact ⟨h, hp⟩
    | cons l ls ih =>
      intro s h hp hr
      unfold run at hr
      cases hs : step c s l with
      | ok s1 =>
        rw [hs] at hr
        exact ih s1 (.step l h hs) ((phase_step wf (reach_inv wf h) hs).1 hp) hr
      | blocked => rw [hs] at hr; cases hr
      | panic => rw [hs] at hr; cases hr
      | exit => rw [hs] at hr; cases hr
  obtain ⟨hr', hph⟩ := key ls s h hp hrun
  intro hstuck
  have inv' := reach_inv wf hr'
  rcases hph with hph | hph
  · obtain ⟨l, s'', hs⟩ := stop_can wf inv' (Or.inl hph)
    exact absurd hs (hstuck l s'')
  · refine ⟨hph, ?_⟩
    intro t ht
    apply Classical.byContradiction
    intro hne
    obtain ⟨l, s'', hs⟩ := rest_can wf hc.wfs inv' (reach_invS wf hr') (stopped_did inv' hph) ht hne
    exact hstuck l s'' hs

/-- **C77.** The same when `StartX` has hit an error and calls `Stop`: it returns
the error. -/
theorem C77_failed_start_returns {c : Comp} (hc : Component c) {s : St} (h : Reach c s) (hp : s.phase = .failing) :
    ∃ n, ∀ ls s', run c s ls = .ok s' → ls.length ≤ n ∧ ((∀ l s'', step c s' l ≠ .ok s'') → s'.phase = .failed) := by
  have wf := hc.wf
  refine ⟨work c s, ?_⟩
  intro ls s' hrun
  have inv := reach_inv wf h
  refine ⟨(run_work wf inv (by rw [hp]; simp) hrun).1, ?_⟩
  have key : ∀ (ls : List Label) (s : St), Inv c s → (s.phase = .failing ∨ s.phase = .failed) →
      run c s ls = .ok s' → Inv c s' ∧ (s'.phase = .failing ∨ s'.phase = .failed) := by
    intro ls
    induction ls with
    | nil => intro s h hp hr; injection hr with hr; subst hr; exact ⟨h, hp⟩
    | cons l ls ih =>
      intro s h hp hr
      unfold run at hr
      cases hs : step c s l with
      | ok s1 =>
        rw [hs] at hr
        exact ih s1 (inv_step wf h hs) ((phase_step wf h hs).2 hp) hr
      | blocked => rw [hs] at hr; cases hr
      | panic => rw [hs] at hr; cases hr
      | exit => rw [hs] at hr; cases hr
  obtain ⟨inv', hph⟩ := key ls s inv (Or.inl hp) hrun
  intro hstuck
  rcases hph with hph | hph
  · obtain ⟨l, s'', hs⟩ := stop_can wf inv' (Or.inr hph)
    exact absurd hs (hstuck l s'')
  · exact hph

/-! ### C78: after `Stop` -/

/-- **C78.** When `Stop` has returned, the component's connections to NATS (also
those of its workers), its socket, its HTTP port and its probe port are closed
and its goroutines have ended. -/
theorem C78_stopped {c : Comp} (hc : Component c) {s : St} (h : Reach c s) (hp : s.phase = .stopped) : Nothing s :=
  nothing_left hc h (stopped_did (reach_inv hc.wf h) hp) hc.own

/-! ### C79: a start that fails -/

/-- **C79 (partial).** When `StartFilter`, `StartWriter`, `StartDownsampler` or
`monitor.Start` returns an error, wherever it failed and however the goroutines
it had started were scheduled, nothing is left. -/
theorem C79_failed_start_partial {c : Comp} (hc : Tidy c) {s : St} (h : Reach c s) (hp : s.phase = .failed) : Nothing s := by
  have inv := reach_inv hc.component.wf h
  rcases failed_did inv hp with ⟨pre, h1, h2, h3⟩ | ⟨h1, h2⟩
  · obtain ⟨o, post, e, hfa⟩ := h1
    exact nothing_left hc.component h h3 (AllPos_at hc.ownAt e hfa h2)
  · exact absurd (hc.deferred h1) h2

/-- The state after a schedule, if it can be executed. -/
def after (c : Comp) (ls : List Label) : Option St :=
  match run c (init c) ls with
  | .ok s => some s
  | _ => none

theorem after_reach {c : Comp} {ls : List Label} {s : St} (h : after c ls = some s) : Reach c s := by
  have key : ∀ (ls : List Label) (s0 : St), Reach c s0 → run c s0 ls = .ok s → Reach c s := by
    intro ls
    induction ls with
    | nil => intro s0 h0 hr; injection hr with hr; subst hr; exact h0
    | cons l ls ih =>
      intro s0 h0 hr
      unfold run at hr
      cases hs : step c s0 l with
      | ok s1 => rw [hs] at hr; exact ih s1 (.step l h0 hs) hr
      | blocked => rw [hs] at hr; cases hr
      | panic => rw [hs] at hr; cases hr
      | exit => rw [hs] at hr; cases hr
  unfold after at h
  cases hr : run c (init c) ls with
  | ok s1 => rw [hr] at h; injection h with h; subst h; exact key ls _ .init hr
  | blocked => rw [hr] at h; cases h
  | panic => rw [hr] at h; cases h
  | exit => rw [hr] at h; cases h

/-- **C79 is false of the listeners.** If NATS cannot be reached `StartListener`
and `StartHTTPListener` return an error and leave the probe port open. -/
theorem C79_listener_leaks_probes (c : Comp) (hc : c = udpListener ∨ c = httpListener) :
    ∃ s, Reach c s ∧ s.phase = .failed ∧ s.sh.probes = true := by
  rcases hc with rfl | rfl
  · exact ⟨_, after_reach (c := udpListener) (ls := [.main true, .main false]) rfl, by decide, by decide⟩
  · exact ⟨_, after_reach (c := httpListener) (ls := [.main true, .main false]) rfl, by decide, by decide⟩

/-- The state of a listener whose receive buffer size could not be set. -/
def bufferFailed : List Label :=
  [.main true, .main true, .main true, .main true, .main true, .main false, .main true, .main true, .main true,
   .main true, .main true, .main true]

/-- **C79 is false of the listeners.** If the size of the receive buffer cannot
be set `StartListener` returns an error and leaves the UDP socket bound. -/
theorem C79_listener_leaks_socket :
    ∃ s, Reach udpListener s ∧ s.phase = .failed ∧ Resource.socket ∈ s.sh.live :=
  ⟨_, after_reach (c := udpListener) (ls := bufferFailed) rfl, by decide, by decide⟩

/-- **C79 (partial).** Otherwise a UDP listener that fails to start leaves
nothing behind. -/
theorem C79_listener_partial {s : St} (h : Reach udpListener s) (hp : s.phase = .failed)
    (hn : .acquire .nats ∈ s.did) (hs : .acquire .socket ∉ s.did) : Nothing s := by
  have inv := reach_inv udp_wf h
  rcases failed_did inv hp with ⟨pre, h1, h2, h3⟩ | ⟨⟨o, post, e, hfa⟩, h2⟩
  · refine nothing_left .udpListener h h3 ?_
    intro r hr
    cases r with
    | nats => left; decide
    | socket => exact absurd (by rw [h3]; simp [hr]) hs
    | workerNats i =>
      obtain ⟨o, post, e, -⟩ := h1
      have : Op.acquire (.workerNats i) ∈ udpListener.start := by rw [e]; simp [hr]
      simp [Lifecycle.udpListener] at this
  · -- it failed before `defer`: only `nats.Connect` is there
    exfalso
    generalize s.did = d at *
    have e' : d ++ o :: post = [.openProbes, .acquire .nats, .deferStop, .check .resolve, .acquire .socket,
      .check .readBuffer, .add 2, .spawn .statistician, .spawn .server] := e.symm
    rcases d with _ | ⟨a, _ | ⟨b, _ | ⟨x, d⟩⟩⟩
    · cases hn
    · simp only [List.cons_append, List.nil_append, List.cons.injEq] at e'
      rw [e'.1] at hn
      simp at hn
    · simp only [List.cons_append, List.nil_append, List.cons.injEq] at e'
      obtain ⟨-, -, e1, -⟩ := e'
      subst e1
      cases hfa
    · simp only [List.cons_append, List.nil_append, List.cons.injEq] at e'
      obtain ⟨-, -, e1, -⟩ := e'
      subst e1
      exact h2 (by simp)

/-! ### C80: ready means working -/

theorem filter_honest (n : Int) : Honest (filter n) where
  start := ⟨[.deferStop, .check .rules, .acquire .nats]
    ++ (List.range n.toNat).flatMap (fun i => [.acquire (.workerNats i), .add 1, .spawn (.worker i)])
    ++ [.subscribe 0, .limits 0, .add 1, .spawn .statistician], by simp [Lifecycle.filter],
    by simp, by simp, by simp, by simp⟩
  stop := ⟨_, rfl, by simp⟩
  body := by intro g b; cases g <;> simp [Lifecycle.filter]

theorem writer_honest (w : Int) (n : Nat) : Honest (writer w n) where
  start := ⟨[.deferStop, .check .rules, .acquire .nats, .add w]
    ++ (List.range w.toNat).flatMap (fun i => [.spawn (.worker i)])
    ++ (List.range n).flatMap (fun i => [.subscribe i, .limits i])
    ++ [.flush, .add 1, .spawn .statistician], by simp [Lifecycle.writer], by simp, by simp, by simp, by simp⟩
  stop := ⟨_, rfl, by simp⟩
  body := by intro g b; cases g <;> simp [Lifecycle.writer]

theorem downsampler_honest (n : Nat) : Honest (downsampler n) where
  start := ⟨[.deferStop, .acquire .nats]
    ++ (List.range n).flatMap (fun i => [.add 1, .spawn (.worker i), .subscribe i, .limits i])
    ++ [.flush, .add 1, .spawn .statistician], by simp [Lifecycle.downsampler], by simp, by simp, by simp, by simp⟩
  stop := ⟨_, rfl, by simp⟩
  body := by intro g b; cases g <;> simp [Lifecycle.downsampler]

theorem filter_closesLate (n : Int) : ClosesLate (filter n) := by
  intro g r h
  cases g with
  | worker i => exact ⟨[], [.release (.workerNats i), .done], rfl, by simp, by simp⟩
  | _ => simp [Lifecycle.filter] at h

theorem writer_closesLate (w : Int) (n : Nat) : ClosesLate (writer w n) := by
  intro g r h
  cases g <;> simp [Lifecycle.writer] at h

theorem downsampler_closesLate (n : Nat) : ClosesLate (downsampler n) := by
  intro g r h
  cases g <;> simp [Lifecycle.downsampler] at h

/-- **C80.** A filter that says it is ready has not been told to stop, receives
its subject, and all its workers, each with its own connection, and its
statistician are working. -/
theorem C80_filter_ready (workers : Int) {s : St} (h : Reach (filter workers) s) (hr : Ready s) :
    StopNotBegun (filter workers) s ∧ Receives s 0 ∧
    (∀ i : Nat, (i : Int) < workers → Working s (.worker i) ∧ Resource.workerNats i ∈ s.sh.live) ∧
    Working s .statistician := by
  have wf := filter_wf workers
  have inv := reach_inv wf h
  obtain ⟨hd, hph⟩ := ready_settled wf (filter_honest workers) h hr.2
  have hst := start_not_stopped wf h hd
  have hlive := live_before wf (filter_closesLate workers) h hst
  rw [hd] at hlive
  refine ⟨hph, ⟨?_, ?_, ?_⟩, ?_, ?_⟩
  · rw [hlive]; exact replay_live_mem _ _ (by simp [Lifecycle.filter]) (by simp [Lifecycle.filter]) (by simp [Lifecycle.filter])
  · rw [inv.agree.subs, hd]
    exact replay_subs _ _ (by simp [Lifecycle.filter]) (by simp [Lifecycle.filter]) (by simp [Lifecycle.filter])
  · rw [inv.agree.limited, hd]; exact replay_limited _ _ (by simp [Lifecycle.filter])
  · intro i hi
    have hi' : i < workers.toNat := by omega
    constructor
    · exact looping wf h hst (by rw [hd]; simp [Lifecycle.filter, hi]) (by simp [Lifecycle.filter])
    · rw [hlive]
      exact replay_live_mem _ _ (by simp [Lifecycle.filter, hi]) (by simp [Lifecycle.filter]) (by simp [Lifecycle.filter])
  · exact looping wf h hst (by rw [hd]; simp [Lifecycle.filter]) (by simp [Lifecycle.filter])

/-- **C80.** A writer that says it is ready has not been told to stop, receives
all its subjects, which have been flushed to the NATS server, and all its
workers and its statistician are working. -/
theorem C80_writer_ready (workers : Int) (hw : 0 ≤ workers) (subjects : Nat) {s : St} (h : Reach (writer workers subjects) s)
    (hr : Ready s) :
    StopNotBegun (writer workers subjects) s ∧ (∀ i < subjects, Receives s i) ∧ s.sh.flushed = true ∧
    (∀ i : Nat, (i : Int) < workers → Working s (.worker i)) ∧ Working s .statistician := by
  have wf := writer_wf workers hw subjects
  have inv := reach_inv wf h
  obtain ⟨hd, hph⟩ := ready_settled wf (writer_honest workers subjects) h hr.2
  have hst := start_not_stopped wf h hd
  have hlive := live_before wf (writer_closesLate workers subjects) h hst
  rw [hd] at hlive
  refine ⟨hph, ?_, ?_, ?_, ?_⟩
  · intro i hi
    refine ⟨?_, ?_, ?_⟩
    · rw [hlive]
      exact replay_live_mem _ _ (by simp [Lifecycle.writer]) (by simp [Lifecycle.writer]) (by simp [Lifecycle.writer])
    · rw [inv.agree.subs, hd]
      exact replay_subs _ _ (by simp [Lifecycle.writer, hi]) (by simp [Lifecycle.writer]) (by simp [Lifecycle.writer])
    · rw [inv.agree.limited, hd]; exact replay_limited _ _ (by simp [Lifecycle.writer, hi])
  · rw [inv.agree.flushed, hd, replay_flushed]; simp [Lifecycle.writer]
  · intro i hi
    have hi' : i < workers.toNat := by omega
    exact looping wf h hst (by rw [hd]; simp [Lifecycle.writer, hi]) (by simp [Lifecycle.writer])
  · exact looping wf h hst (by rw [hd]; simp [Lifecycle.writer]) (by simp [Lifecycle.writer])

/-- **C80.** The same of a downsampler, which has a worker for each subject. -/
theorem C80_downsampler_ready (subjects : Nat) {s : St} (h : Reach (downsampler subjects) s) (hr : Ready s) :
    StopNotBegun (downsampler subjects) s ∧ (∀ i < subjects, Receives s i ∧ Working s (.worker i)) ∧
    s.sh.flushed = true ∧ Working s .statistician := by
  have wf := downsampler_wf subjects
  have inv := reach_inv wf h
  obtain ⟨hd, hph⟩ := ready_settled wf (downsampler_honest subjects) h hr.2
  have hst := start_not_stopped wf h hd
  have hlive := live_before wf (downsampler_closesLate subjects) h hst
  rw [hd] at hlive
  refine ⟨hph, ?_, ?_, ?_⟩
  · intro i hi
    refine ⟨⟨?_, ?_, ?_⟩, ?_⟩
    · rw [hlive]
      exact replay_live_mem _ _ (by simp [Lifecycle.downsampler]) (by simp [Lifecycle.downsampler]) (by simp [Lifecycle.downsampler])
    · rw [inv.agree.subs, hd]
      exact replay_subs _ _ (by simp [Lifecycle.downsampler, hi]) (by simp [Lifecycle.downsampler]) (by simp [Lifecycle.downsampler])
    · rw [inv.agree.limited, hd]; exact replay_limited _ _ (by simp [Lifecycle.downsampler, hi])
    · exact looping wf h hst (by rw [hd]; simp [Lifecycle.downsampler, hi]) (by simp [Lifecycle.downsampler])
  · rw [inv.agree.flushed, hd, replay_flushed]; simp [Lifecycle.downsampler]
  · exact looping wf h hst (by rw [hd]; simp [Lifecycle.downsampler]) (by simp [Lifecycle.downsampler])

/-- **C80.** From the moment `StartFilter`, `StartWriter` or `StartDownsampler`
returns without error until `Stop` is called, `/readyz` and `/healthz` answer
200. -/
theorem C80_running_is_ready {c : Comp} (hc : (∃ n, c = filter n) ∨ (∃ w n, 0 ≤ w ∧ c = writer w n) ∨ ∃ n, c = downsampler n)
    {s : St} (h : Reach c s) (hp : s.phase = .running) : Ready s ∧ Alive s := by
  rcases hc with ⟨n, rfl⟩ | ⟨w, n, hw, rfl⟩ | ⟨n, rfl⟩
  · obtain ⟨h1, h2, h3⟩ := running_ready (filter_wf n) (filter_honest n) h hp
    exact ⟨⟨h1, h2⟩, ⟨h1, h3⟩⟩
  · obtain ⟨h1, h2, h3⟩ := running_ready (writer_wf w hw n) (writer_honest w n) h hp
    exact ⟨⟨h1, h2⟩, ⟨h1, h3⟩⟩
  · obtain ⟨h1, h2, h3⟩ := running_ready (downsampler_wf n) (downsampler_honest n) h hp
    exact ⟨⟨h1, h2⟩, ⟨h1, h3⟩⟩

/-- A UDP listener whose goroutine only starts after `Stop` was called. -/
def lateReady : List Label :=
  List.replicate 9 (.main true) ++ [.callStop, .main true, .main true, .go 1 true, .main true,
    .go 0 true, .go 0 true, .go 1 true, .go 1 true, .go 1 true, .main true, .main true]

/-- **C80 is false of the UDP listener.** It can say that it is ready when `Stop`
has closed its socket and its connection to NATS. -/
theorem C80_udp_ready_when_stopped : ∃ s, Reach udpListener s ∧ Ready s ∧ s.phase = .stopping ∧ s.sh.live = [] :=
  ⟨_, after_reach (c := udpListener) (ls := lateReady) rfl, by unfold Ready; decide, by decide, by decide⟩

/-- **C80 is false of the HTTP listener and the monitor.** They say that they are
ready before their port is bound. -/
theorem C80_http_ready_before_bound :
    (∃ s, Reach httpListener s ∧ s.phase = .running ∧ Ready s ∧ s.sh.listening = false) ∧
    (∃ s, Reach monitor s ∧ s.phase = .running ∧ Ready s ∧ s.sh.listening = false) :=
  ⟨⟨_, after_reach (c := httpListener) (ls := List.replicate 7 (.main true) ++ [.go 2 true, .go 3 true]) rfl,
      by decide, by unfold Ready; decide, by decide⟩,
   ⟨_, after_reach (c := monitor) (ls := List.replicate 7 (.main true) ++ [.go 0 true, .go 1 true]) rfl,
      by decide, by unfold Ready; decide, by decide⟩⟩

/-- The server goroutine of a listener is started by `StartX`, last. -/
theorem udp_ready_spawned {s : St} (h : Reach udpListener s) (hr : s.sh.ready = true) : s.did ≠ [] ∧ .spawn .server ∈ s.did := by
  have key : s.sh.ready = true → ∃ t ∈ s.threads, t.1 = .server := by
    clear hr
    induction h with
    | init => intro h; cases h
    | @step s s' l hr hs ih =>
      have inv := reach_inv udp_wf hr
      rcases step_cases hs with ⟨-, hp, rfl⟩ | ⟨good, o, rest, -, hm, hok, rfl⟩ | ⟨good, o, rest, -, hm, hfl, rfl⟩ |
        ⟨i, g, o, rest, good, -, hi, hok, rfl⟩
      · exact ih
      · rw [finish_sh, finish_threads]
        simp only
        intro hl
        have hl' : s.sh.ready = true := by
          have hsh := inv.shape
          rw [hm] at hsh
          have hmem : o ∈ udpListener.start ∨ o ∈ udpListener.stop := by
            rcases hsh.next udp_wf with ⟨-, e, -⟩ | ⟨hp, -⟩
            · left; rw [← e]; simp
            · exact Or.inr hp
          cases o with
          | listen => dsimp only [eff] at hl; split at hl <;> exact hl
          | setReady b =>
            simp only [eff] at hl
            subst hl
            simp [Lifecycle.udpListener] at hmem
          | openProbes => cases hl
          | _ => exact hl
        obtain ⟨t, ht, e⟩ := ih hl'
        exact ⟨t, List.mem_append_left _ ht, e⟩
      · rw [finish_sh, finish_threads]; exact ih
      · simp only
        intro hl
        have hob := mem_body inv.suffix hi
        have htm : (g, o :: rest) ∈ s.threads := List.mem_of_getElem? hi
        have hsome : ∃ t ∈ s.threads, t.1 = Gid.server := by
          by_cases hg : g = .server
          · exact ⟨_, htm, hg⟩
          · apply ih
            cases o with
            | listen => dsimp only [eff] at hl; split at hl <;> exact hl
            | setReady b => exfalso; cases g <;> simp [Lifecycle.udpListener] at hob hg
            | openProbes => cases hl
            | _ => exact hl
        obtain ⟨t, ht, e⟩ := (gid_set (rest := rest) hi .server).2 hsome
        exact ⟨t, List.mem_append_left _ ht, e⟩
  have inv := reach_inv udp_wf h
  obtain ⟨t, ht, e⟩ := key hr
  rcases inv.origin t ht with h1 | ⟨g, h1⟩
  · rw [e] at h1
    exact ⟨fun h => by (rw [h] at h1; cases h1), h1⟩
  · exfalso
    cases g <;> simp [Lifecycle.udpListener] at h1

/-- **C80 (partial).** A UDP listener that says it is ready, until `Stop` closes
the stop channel, has its socket bound, is connected to NATS, and its
goroutines are working. -/
theorem C80_udp_ready_partial {s : St} (h : Reach udpListener s) (hr : Ready s) (hst : s.sh.stopped = false) :
    Resource.socket ∈ s.sh.live ∧ Resource.nats ∈ s.sh.live ∧ Working s .server ∧ Working s .statistician := by
  have inv := reach_inv udp_wf h
  obtain ⟨-, hsp⟩ := udp_ready_spawned h hr.2
  have hcl : ClosesLate udpListener := by
    intro g r h
    cases g with
    | server => exact ⟨[.setReady true], [.release .socket, .done], rfl, by simp, by simp⟩
    | _ => simp [Lifecycle.udpListener] at h
  have hlive := live_before udp_wf hcl h hst
  -- everything of `StartListener` was executed
  have hpre : ∀ o, o ∈ udpListener.start → o ∈ s.did := by
    obtain ⟨base, d, post, dpost, e1, e2, e3, -⟩ := inv.shape.base udp_wf
    have hb : .spawn .server ∈ base := by
      rw [e1] at hsp
      rcases List.mem_append.1 hsp with h | h
      · exact h
      · exact absurd (by rw [e3]; simp [h]) (mem_stop_spawn udp_wf .server)
    have hpost : post = [] := by
      rcases List.eq_nil_or_concat post with h | ⟨p, o, h⟩
      · exact h
      · exfalso
        rw [List.concat_eq_append] at h
        rw [h, ← List.append_assoc] at e2
        have e4 : udpListener.start = [.openProbes, .acquire .nats, .deferStop, .check .resolve, .acquire .socket,
          .check .readBuffer, .add 2, .spawn .statistician] ++ [.spawn .server] := rfl
        rw [e4] at e2
        have e5 := List.append_inj_left' e2 rfl
        have : Op.spawn .server ∈ ([.openProbes, .acquire .nats, .deferStop, .check .resolve, .acquire .socket,
          .check .readBuffer, .add 2, .spawn .statistician] : List Op) := by rw [e5]; simp [hb]
        simp at this
    rw [hpost, List.append_nil] at e2
    intro o ho
    rw [e1, ← e2]
    simp [ho]
  -- nothing was released by the caller: `stop` is not closed
  have hnorel : (∀ q, .release q ∉ s.did) ∧ ∀ q, .releaseIfSet q ∉ s.did := by
    obtain ⟨base, d, post, dpost, e1, e2, e3, -⟩ := inv.shape.base udp_wf
    have hnc : .closeStop ∉ d := by
      intro hd
      have := (replay_stopped s.did).2 (by rw [e1]; simp [hd])
      rw [← inv.agree.stopped, hst] at this
      cases this
    have hd : d = [] ∨ d = [.setReady false] ∨ d = [.setReady false, .setAlive false] := by
      have e3' : d ++ dpost = [.setReady false, .setAlive false, .closeStop, .wait, .release .nats, .closeProbes] := e3.symm
      rcases d with _ | ⟨a, _ | ⟨b, _ | ⟨x, d⟩⟩⟩
      · exact Or.inl rfl
      · simp only [List.cons_append, List.nil_append, List.cons.injEq] at e3'
        rw [e3'.1]; simp
      · simp only [List.cons_append, List.nil_append, List.cons.injEq] at e3'
        rw [e3'.1, e3'.2.1]; simp
      · simp only [List.cons_append, List.nil_append, List.cons.injEq] at e3'
        exact absurd (by rw [e3'.2.2.1]; simp) hnc
    have hbase : (∀ q, .release q ∉ base) ∧ ∀ q, .releaseIfSet q ∉ base := by
      constructor <;> intro q hq
      · have : Op.release q ∈ udpListener.start := by rw [e2]; exact List.mem_append_left _ hq
        simp [Lifecycle.udpListener] at this
      · have : Op.releaseIfSet q ∈ udpListener.start := by rw [e2]; exact List.mem_append_left _ hq
        simp [Lifecycle.udpListener] at this
    rw [e1]
    rcases hd with rfl | rfl | rfl <;> simp [hbase.1, hbase.2]
  refine ⟨?_, ?_, ?_, ?_⟩
  · rw [hlive]; exact replay_live_mem _ _ (hpre _ (by decide)) hnorel.1 hnorel.2
  · rw [hlive]; exact replay_live_mem _ _ (hpre _ (by decide)) hnorel.1 hnorel.2
  · exact looping udp_wf h hst (hpre _ (by decide)) (by decide)
  · exact looping udp_wf h hst (hpre _ (by decide)) (by decide)

/-- The filter, unlike the writer and the downsampler, does not flush its
subscription to the NATS server before it says it is ready. -/
theorem C80_filter_not_flushed (workers : Int) {s : St} (h : Reach (filter workers) s) : s.sh.flushed = false := by
  have inv := reach_inv (filter_wf workers) h
  cases hq : s.sh.flushed with
  | false => rfl
  | true =>
    rw [inv.agree.flushed, replay_flushed] at hq
    obtain ⟨base, d, post, dpost, e1, e2, e3, -⟩ := inv.shape.base (filter_wf workers)
    rw [e1] at hq
    rcases List.mem_append.1 hq with h1 | h1
    · have : Op.flush ∈ (filter workers).start := by rw [e2]; simp [h1]
      simp [Lifecycle.filter] at this
    · have : Op.flush ∈ (filter workers).stop := by rw [e3]; simp [h1]
      simp [Lifecycle.filter] at this

/-! ### C81: the mode selects the component -/

/-- **C81.** Each of the six modes starts its component, with the configured
subjects and workers; a writer configured with 0 workers gets two for each
processor; every other mode is an error. -/
theorem C81_mode_selects (procs : Nat) (workers : Int) (subjects : Nat) (mode : Bytes) :
    component procs ⟨b!"listener", workers, subjects⟩ = some udpListener ∧
    component procs ⟨b!"listener_http", workers, subjects⟩ = some httpListener ∧
    component procs ⟨b!"filter", workers, subjects⟩ = some (filter workers) ∧
    component procs ⟨b!"downsampler", workers, subjects⟩ = some (downsampler subjects) ∧
    component procs ⟨b!"monitor", workers, subjects⟩ = some monitor ∧
    (workers ≠ 0 → component procs ⟨b!"writer", workers, subjects⟩ = some (writer workers subjects)) ∧
    component procs ⟨b!"writer", 0, subjects⟩ = some (writer (2 * procs) subjects) ∧
    (component procs ⟨mode, workers, subjects⟩ = none ↔
      mode ∉ [b!"listener", b!"listener_http", b!"filter", b!"downsampler", b!"writer", b!"monitor"]) := by
  refine ⟨rfl, rfl, rfl, rfl, rfl, ?_, ?_, ?_⟩
  · intro h
    show some (writer (if workers = 0 then (procs : Int) * 2 else workers) subjects) = _
    rw [if_neg h]
  · show some (writer (if (0 : Int) = 0 then (procs : Int) * 2 else 0) subjects) = _
    rw [if_pos rfl, Int.mul_comm]
  · unfold component
    simp only
    constructor
    · intro h hm
      simp only [List.mem_cons, List.not_mem_nil, or_false] at hm
      rcases hm with hm | hm | hm | hm | hm | hm <;> subst hm <;> exact absurd h (by simp)
    · intro h
      simp only [List.mem_cons, List.not_mem_nil, or_false, not_or] at h
      obtain ⟨h1, h2, h3, h4, h5, h6⟩ := h
      rw [if_neg h1, if_neg h2, if_neg h3, if_neg h4, if_neg h5, if_neg h6]

/-- The schedule in which nothing fails. -/
def idleFilter : List Label := List.replicate 9 (.main true)

/-- **C81 (remark).** A filter configured with no workers, or with a negative
number, starts and says it is ready although nothing handles what it receives. -/
theorem C81_idle_filter (workers : Int) (hw : workers ≤ 0) :
    ∃ s, Reach (filter workers) s ∧ s.phase = .running ∧ Ready s ∧ ∀ i, ¬ Working s (.worker i) := by
  have h0 : workers.toNat = 0 := by omega
  have e : filter workers = filter 0 := by
    unfold Lifecycle.filter
    rw [h0]
    rfl
  rw [e]
  refine ⟨_, after_reach (c := filter 0) (ls := idleFilter) rfl, by decide, by unfold Ready; decide, ?_⟩
  rintro i ⟨t, ht, h1, h2⟩
  have ht' : t ∈ [(Gid.statistician, [Op.awaitStop, Op.done])] := ht
  rw [List.mem_singleton] at ht'
  subst ht'
  cases h1

/-! ### Examples: the hypotheses are met -/

/-- Everything is started and stopped. -/
def wholeLife : List Label :=
  List.replicate 15 (.main true) ++ [.callStop] ++ List.replicate 4 (.main true) ++
  [.go 0 true, .go 1 true, .go 2 true, .go 0 true, .go 1 true, .go 0 true, .go 1 true, .go 2 true] ++
  List.replicate 3 (.main true)

/-- Test: a filter with two workers is started, ready, stopped. -/
example : ((after (filter 2) (wholeLife.take 15)).map (fun s => (s.phase, s.sh.ready, s.sh.live.length, s.sh.wg))
      = some (.running, true, 3, 3)) ∧
    ((after (filter 2) wholeLife).map (fun s => (s.phase, s.sh.ready, s.sh.live.length, s.sh.wg))
      = some (.stopped, false, 0, 0)) := by decide +kernel

/-- Test: the second worker of a filter cannot connect; the first is stopped. -/
example : (after (filter 2) (List.replicate 7 (.main true) ++ [.main false] ++ List.replicate 4 (.main true) ++
      [.go 0 true, .go 0 true, .go 0 true] ++ List.replicate 3 (.main true))).map
      (fun s => (s.phase, s.sh.probes, s.sh.live, s.sh.wg)) = some (.failed, false, [], 0) := by decide +kernel

/-- Test: `Stop` waits while a worker is in its loop. -/
example : (after (filter 2) (wholeLife.take 20)).map (fun s => step (filter 2) s (.main true)) = some .blocked := by
  decide +kernel

end Spout.Lifecycle
