import Verif.Props.LifecycleServe

/-! # C93: errors of a start are reported, and what `Stop` gives up -/

set_option linter.unusedSimpArgs false

namespace Spout.Lifecycle

/-! ## Specification -/

/-- The calls of `StartX` that can return an error: reading the rules, resolving
the address, setting the receive buffer, connecting to NATS and opening the
socket, subscribing, setting the limits of a subscription, and flushing. -/
inductive MayFail : Op → Prop where
  | check (w : Check) : MayFail (.check w)
  | acquire (r : Resource) : MayFail (.acquire r)
  | subscribe (i : Nat) : MayFail (.subscribe i)
  | limits (i : Nat) : MayFail (.limits i)
  | flush : MayFail .flush

/-- `StartX` returns an error, now or after its deferred call of `Stop`. -/
def Fails (s : St) : Prop := s.phase = .failing ∨ s.phase = .failed

/-! ## Errors are reported -/

theorem MayFail.fails {o : Op} (h : MayFail o) (sh : Shared) : outcome sh false o = .fail := by
  cases h <;> rfl

theorem Fails.finish {s : St} (h : Fails s) : Fails (Lifecycle.finish s) := by
  obtain ⟨sh, ph, m, th, did⟩ := s
  have h : ph = .failing ∨ ph = .failed := h
  show (Lifecycle.finish _).phase = _ ∨ (Lifecycle.finish _).phase = _
  by_cases hm : m = []
  · subst hm
    rcases h with rfl | rfl <;> exact Or.inr rfl
  · simp only [Lifecycle.finish, if_neg hm]
    exact h

/-- **C93.** If any call of `StartX` returns an error, `StartX` returns an error. -/
theorem C93_failure_reported {c : Comp} {s : St} (_h : Reach c s) {o : Op} {rest : List Op} (_hp : s.phase = .starting)
    (hm : s.main = o :: rest) (ho : MayFail o) : ∃ s', step c s (.main false) = .ok s' ∧ Fails s' := by
  refine ⟨finish { s with phase := .failing, main := if s.sh.deferred then c.stop else [] }, ?_, ?_⟩
  · simp only [step, hm, ho.fails]
  · exact Fails.finish (Or.inl rfl)

/-- **C93.** A start that has failed never turns into a running component. -/
theorem C93_failed_stays_failed {c : Comp} {s s' : St} {l : Label} (hs : step c s l = .ok s') (h : Fails s) : Fails s' := by
  rcases step_cases hs with ⟨-, h1, -⟩ | ⟨good, o, rest, -, -, -, e⟩ | ⟨good, o, rest, -, -, -, e⟩ | ⟨i, g, o, rest, good, -, -, -, e⟩
  · unfold Fails at h; rw [h1] at h; rcases h with h | h <;> cases h
  · subst e; exact Fails.finish h
  · subst e; exact Fails.finish (Or.inl rfl)
  · subst e; exact h

/-! ## The process exits only if a port cannot be bound -/

/-- **C93.** If the port of the HTTP listener or the monitor cannot be bound, the
process exits (and so does not go on with nothing behind its probes). -/
theorem C93_port_taken_exits {c : Comp} (hc : c = httpListener ∨ c = monitor) {s : St} (h : Reach c s) {i : Nat}
    {rest : List Op} (ht : s.threads[i]? = some (.http, .listen :: rest)) (hst : s.sh.stopped = false) :
    step c s (.go i false) = .exit := by
  have I := serve_inv hc h
  have hcl : s.sh.serverClosed = false := by
    cases hq : s.sh.serverClosed with
    | false => rfl
    | true => rw [I.closed hq] at hst; cases hst
  simp only [step, ht, outcome, fallible, hcl, Bool.false_eq_true, if_false]

/-- **C93.** Nothing else makes the process exit: a step that does is an attempt,
before the component has stopped, to bind the port of an HTTP server. -/
theorem C93_exits_only_if_port_taken {c : Comp} {s : St} {l : Label} (hs : step c s l = .exit) :
    s.sh.serverClosed = false ∧
    ((∃ rest, l = .main false ∧ s.main = .listen :: rest) ∨
      ∃ i g rest, l = .go i false ∧ s.threads[i]? = some (g, .listen :: rest)) := by
  have key : ∀ good o, outcome s.sh good o = .exit → s.sh.serverClosed = false ∧ good = false ∧ o = .listen := by
    intro good o ho
    unfold outcome at ho
    split at ho
    · split at ho <;> cases ho
    · cases o with
      | listen =>
        simp only at ho
        cases hq : s.sh.serverClosed with
        | true => rw [hq] at ho; cases ho
        | false =>
          cases good with
          | true => rw [hq] at ho; cases ho
          | false => exact ⟨rfl, rfl, rfl⟩
      | _ => simp only at ho <;> first | contradiction | (split at ho <;> contradiction)
  cases l with
  | callStop =>
    simp only [step] at hs
    split at hs <;> cases hs
  | main good =>
    simp only [step] at hs
    cases hm : s.main with
    | nil => rw [hm] at hs; cases hs
    | cons o rest =>
      rw [hm] at hs
      simp only at hs
      cases ho : outcome s.sh good o with
      | exit =>
        obtain ⟨h1, h2, h3⟩ := key _ _ ho
        exact ⟨h1, Or.inl ⟨rest, by rw [h2], by rw [h3]⟩⟩
      | _ => rw [ho] at hs; cases hs
  | go i good =>
    simp only [step] at hs
    cases ht : s.threads[i]? with
    | none => rw [ht] at hs; cases hs
    | some t =>
      obtain ⟨g, r⟩ := t
      cases r with
      | nil => rw [ht] at hs; cases hs
      | cons o rest =>
        rw [ht] at hs
        simp only at hs
        cases ho : outcome s.sh good o with
        | exit =>
          obtain ⟨h1, h2, h3⟩ := key _ _ ho
          exact ⟨h1, Or.inr ⟨i, g, rest, by rw [h2], by rw [ht, h3]⟩⟩
        | _ => rw [ho] at hs; cases hs

/-- **C93.** A filter, a writer, a downsampler or a UDP listener never exits. -/
theorem C93_never_exits {c : Comp} (hc : Component c) (h1 : c ≠ httpListener) (h2 : c ≠ monitor) {s : St}
    (h : Reach c s) (l : Label) : step c s l ≠ .exit := by
  intro hs
  have inv := reach_inv hc.wf h
  have hb : ∀ g, Op.listen ∉ c.body g := by
    intro g
    cases hc with
    | filter w => cases g <;> simp [Lifecycle.filter]
    | writer w n hw => cases g <;> simp [Lifecycle.writer]
    | downsampler n => cases g <;> simp [Lifecycle.downsampler]
    | udpListener => cases g <;> simp [Lifecycle.udpListener]
    | httpListener => exact absurd rfl h1
    | monitor => exact absurd rfl h2
  have hm : Op.listen ∉ c.start ∧ Op.listen ∉ c.stop := by
    cases hc with
    | filter w => simp [Lifecycle.filter]
    | writer w n hw => simp [Lifecycle.writer]
    | downsampler n => simp [Lifecycle.downsampler]
    | udpListener => simp [Lifecycle.udpListener]
    | httpListener => exact absurd rfl h1
    | monitor => exact absurd rfl h2
  rcases (C93_exits_only_if_port_taken hs).2 with ⟨rest, -, e⟩ | ⟨i, g, rest, -, e⟩
  · have hsh := inv.shape
    rw [e] at hsh
    generalize s.did = d at hsh
    generalize s.phase = ph at hsh
    cases hsh with
    | starting h1 h2 => exact hm.1 (by rw [← h2]; simp)
    | stopping h1 h2 => exact hm.2 (by rw [← h2]; simp)
    | failing h1 h2 h3 h4 => exact hm.2 (by rw [← h4]; simp)
  · obtain ⟨p, hp⟩ := inv.suffix _ (List.mem_of_getElem? e)
    exact hb g (by rw [hp]; simp)

/-! ## What `Stop` has given up when the goroutines are told to stop -/

theorem first_split {o : Op} {l : List Op} (h : o ∈ l) : ∃ a b, l = a ++ o :: b ∧ o ∉ a := by
  induction l with
  | nil => cases h
  | cons x l ih =>
    by_cases e : o = x
    · exact ⟨[], l, by rw [e]; rfl, by simp⟩
    · obtain ⟨a, b, e1, e2⟩ := ih (by rcases List.mem_cons.1 h with h | h; exact absurd h e; exact h)
      exact ⟨x :: a, b, by rw [e1]; rfl, by simp [e, e2]⟩

/-- What the caller has executed when `stop` is closed. -/
theorem closed_did {c : Comp} (wf : WF c) {s : St} (h : Reach c s) (hst : s.sh.stopped = true) :
    ∃ base x a d b, c.start = base ++ x ∧ c.stop = a ++ .closeStop :: (d ++ b) ∧ .closeStop ∉ a ∧
      s.did = base ++ (a ++ .closeStop :: d) := by
  have inv := reach_inv wf h
  rw [inv.agree.stopped, replay_stopped] at hst
  have hns : ∀ base x, c.start = base ++ x → .closeStop ∉ base := by
    intro base x e hb
    obtain ⟨p, q, e2⟩ := List.append_of_mem hb
    have : c.start = p ++ .closeStop :: (q ++ x) := by rw [e, e2]; simp
    exact (AllPos_at wf.pos this).noStop.1 rfl
  have key : ∀ base x d m, c.start = base ++ x → d ++ m = c.stop → .closeStop ∈ base ++ d →
      ∃ base' x' a d' b, c.start = base' ++ x' ∧ c.stop = a ++ .closeStop :: (d' ++ b) ∧ .closeStop ∉ a ∧
        base ++ d = base' ++ (a ++ .closeStop :: d') := by
    intro base x d m e1 e2 hm
    have hd : Op.closeStop ∈ d := by
      rcases List.mem_append.1 hm with h | h
      · exact absurd h (hns base x e1)
      · exact h
    obtain ⟨a, d', e3, hna⟩ := first_split hd
    exact ⟨base, x, a, d', m, e1, by rw [← e2, e3]; simp, hna, by rw [e3]⟩
  have hsh := inv.shape
  generalize s.did = dd at *
  generalize s.main = mm at *
  generalize s.phase = ph at *
  cases hsh with
  | starting h1 h2 => exact absurd hst (hns _ _ h2.symm)
  | running => exact absurd hst (hns _ [] (by simp))
  | stopping h1 h2 => exact key c.start [] _ _ (by simp) h2 hst
  | stopped => exact key c.start [] c.stop [] (by simp) (by simp) hst
  | failing h1 h2 h3 h4 => obtain ⟨o, post, e, -⟩ := h1; exact key _ _ _ _ e h4 hst
  | failed h1 h2 => obtain ⟨o, post, e, -⟩ := h1; exact key _ _ c.stop [] e (by simp) hst
  | leaked h1 h2 => obtain ⟨o, post, e, -⟩ := h1; exact absurd hst (hns _ _ e)

theorem foldl_notAlive (l : List Op) (s : Shared) (h1 : .openProbes ∉ l) (h2 : .setAlive true ∉ l)
    (h : s.alive = false ∨ .setAlive false ∈ l) : (l.foldl eff s).alive = false := by
  induction l generalizing s with
  | nil => rcases h with h | h; exact h; cases h
  | cons o l ih =>
    rw [List.foldl_cons]
    refine ih _ (fun h => h1 (List.mem_cons_of_mem _ h)) (fun h => h2 (List.mem_cons_of_mem _ h)) ?_
    rcases h with h | h
    · left
      cases o with
      | listen => dsimp only [eff]; split <;> exact h
      | openProbes => exact absurd (by simp) h1
      | setAlive b =>
        cases b with
        | true => exact absurd (by simp) h2
        | false => rfl
      | _ => exact h
    · rcases List.mem_cons.1 h with e | h
      · left; rw [← e]; rfl
      · exact Or.inr h

/-- **C80.** Once the goroutines of a component have been told to stop, `/healthz`
no longer answers 200. -/
theorem C80_stopping_not_alive {c : Comp} (hc : Component c) {s : St} (h : Reach c s) (hst : s.sh.stopped = true) :
    ¬ Alive s := by
  have inv := reach_inv hc.wf h
  obtain ⟨base, x, a, d, b, -, e2, hna, e4⟩ := closed_did hc.wf h hst
  intro hal
  have ha : s.sh.alive = false := by
    rw [inv.agree.alive, e4]
    unfold replay
    rw [List.foldl_append]
    have hstop : ∀ o, o ∈ a ++ .closeStop :: d → o ∈ c.stop := by
      intro o ho; rw [e2]; simp only [List.mem_append, List.mem_cons] at ho ⊢
      rcases ho with h | h | h <;> simp [h]
    have h1 : Op.openProbes ∉ c.stop := hc.stop_probes.2
    have h2 : Op.setAlive true ∉ c.stop := by
      cases hc <;> simp [Lifecycle.filter, Lifecycle.writer, Lifecycle.downsampler, Lifecycle.udpListener,
        Lifecycle.httpListener, Lifecycle.monitor]
    refine foldl_notAlive _ _ (fun h => h1 (hstop _ h)) (fun h => h2 (hstop _ h)) (Or.inr ?_)
    have hz : ∃ z, c.stop = .setReady false :: .setAlive false :: z := by
      cases hc <;> exact ⟨_, rfl⟩
    obtain ⟨z, hz⟩ := hz
    rw [hz] at e2
    rcases a with _ | ⟨a1, _ | ⟨a2, a⟩⟩
    · simp at e2
    · simp at e2
    · simp only [List.cons_append, List.cons.injEq] at e2
      rw [← e2.2.1]; simp
  rw [hal.2] at ha
  cases ha

theorem foldl_subs_mem (l : List Op) (s : Shared) (i : Nat) (h : i ∈ (l.foldl eff s).subs) : i ∈ s.subs ∨ .subscribe i ∈ l := by
  induction l generalizing s with
  | nil => exact Or.inl h
  | cons o l ih =>
    rw [List.foldl_cons] at h
    rcases ih _ h with h | h
    · cases o with
      | listen => left; dsimp only [eff] at h; split at h <;> exact h
      | subscribe j =>
        rcases List.mem_cons.1 h with e | h
        · right; rw [e]; simp
        · exact Or.inl h
      | unsubscribe j => left; exact (List.mem_filter.1 h).1
      | unsubscribeAll => left; exact (List.mem_filter.1 h).1
      | _ => exact Or.inl h
    · exact Or.inr (List.mem_cons_of_mem _ h)

theorem replay_subs_mem (l : List Op) (i : Nat) (h : i ∈ (replay l).subs) : .subscribe i ∈ l := by
  rcases foldl_subs_mem l shared0 i h with h | h
  · cases h
  · exact h

/-- After an operation that gives up a subscription it is gone. -/
theorem foldl_gaveUp (base a b : List Op) (o : Op) (i : Nat) (hb : .subscribe i ∉ b)
    (ho : o = .unsubscribe i ∨ (o = .unsubscribeAll ∧ .limits i ∈ base ++ a)) :
    i ∉ (replay (base ++ (a ++ o :: b))).subs := by
  intro h
  have h' : i ∈ (b.foldl eff (eff (replay (base ++ a)) o)).subs := by
    have : replay (base ++ (a ++ o :: b)) = b.foldl eff (eff (replay (base ++ a)) o) := by
      simp [replay, List.foldl_append]
    rw [this] at h
    exact h
  rcases foldl_subs_mem _ _ _ h' with h | h
  · rcases ho with rfl | ⟨rfl, hl⟩
    · have := (List.mem_filter.1 h).2
      simp at this
    · have := (List.mem_filter.1 h).2
      simp [replay_limited _ _ hl] at this
  · exact hb h

/-- **C78.** A filter and a monitor have given up their subscription before any
goroutine is told to stop. -/
theorem C78_unsubscribed_first {c : Comp} (hc : (∃ n, c = filter n) ∨ c = monitor) {s : St} (h : Reach c s)
    (hst : s.sh.stopped = true) : s.sh.subs = [] := by
  have hC : Component c := by
    rcases hc with ⟨n, rfl⟩ | rfl
    · exact .filter n
    · exact .monitor
  have inv := reach_inv hC.wf h
  obtain ⟨base, x, a, d, b, e1, e2, hna, e4⟩ := closed_did hC.wf h hst
  have hstop : c.stop = [.setReady false, .setAlive false, .unsubscribe 0, .closeStop, .wait, .releaseIfSet .nats, .closeProbes] := by
    rcases hc with ⟨n, rfl⟩ | rfl <;> rfl
  have hsub : ∀ i, .subscribe i ∈ c.start → i = 0 := by
    intro i hi
    rcases hc with ⟨n, rfl⟩ | rfl
    · simp [Lifecycle.filter] at hi; exact hi
    · simp [Lifecycle.monitor] at hi; exact hi
  have hns : ∀ i, Op.subscribe i ∉ c.stop := by intro i; rw [hstop]; simp
  rw [inv.agree.subs]
  have hall : ∀ i, i ∉ (replay s.did).subs := by
    intro i hi
    have hm := replay_subs_mem _ _ hi
    have hi0 : i = 0 := by
      rw [e4] at hm
      rcases List.mem_append.1 hm with h | h
      · exact hsub i (by rw [e1]; exact List.mem_append_left _ h)
      · exact absurd (by rw [e2]; simp only [List.mem_append, List.mem_cons] at h ⊢; rcases h with h | h | h <;> simp [h]) (hns i)
    subst hi0
    rw [e4] at hi
    rw [hstop] at e2
    rcases a with _ | ⟨a1, _ | ⟨a2, _ | ⟨a3, a⟩⟩⟩
    · simp at e2
    · simp at e2
    · simp at e2
    · simp only [List.cons_append, List.cons.injEq] at e2
      obtain ⟨-, -, e3, e5⟩ := e2
      subst e3
      have ha : Op.subscribe 0 ∉ a ++ .closeStop :: d := by
        intro hm
        have : Op.subscribe 0 ∈ a ++ .closeStop :: (d ++ b) := by
          simp only [List.mem_append, List.mem_cons] at hm ⊢
          rcases hm with h | h | h <;> simp [h]
        rw [← e5] at this
        simp at this
      exact foldl_gaveUp base [a1, a2] (a ++ .closeStop :: d) (.unsubscribe 0) 0 ha (Or.inl rfl)
        (by simpa using hi)
  exact List.eq_nil_iff_forall_not_mem.2 hall

/-- **C78.** When `Stop` of a filter, a downsampler or a monitor has returned, none
of its subscriptions is left. -/
theorem C78_unsubscribed {c : Comp} (hc : (∃ n, c = filter n) ∨ (∃ n, c = downsampler n) ∨ c = monitor) {s : St}
    (h : Reach c s) (hp : s.phase = .stopped) : s.sh.subs = [] := by
  have hC : Component c := by
    rcases hc with ⟨n, rfl⟩ | ⟨n, rfl⟩ | rfl
    · exact .filter n
    · exact .downsampler n
    · exact .monitor
  have inv := reach_inv hC.wf h
  have hd := stopped_did inv hp
  have hst : s.sh.stopped = true := by
    rw [inv.agree.stopped, replay_stopped, hd]
    apply List.mem_append_right
    cases hC <;> simp [Lifecycle.filter, Lifecycle.writer, Lifecycle.downsampler, Lifecycle.udpListener,
        Lifecycle.httpListener, Lifecycle.monitor]
  rcases hc with ⟨n, rfl⟩ | ⟨n, rfl⟩ | rfl
  · exact C78_unsubscribed_first (Or.inl ⟨n, rfl⟩) h hst
  · rw [inv.agree.subs, hd]
    refine List.eq_nil_iff_forall_not_mem.2 (fun i hi => ?_)
    have hm := replay_subs_mem _ _ hi
    have hl : Op.limits i ∈ (downsampler n).start := by
      have : Op.subscribe i ∈ (downsampler n).start := by
        rcases List.mem_append.1 hm with h | h
        · exact h
        · simp [Lifecycle.downsampler] at h
      simp only [Lifecycle.downsampler, List.mem_append, List.mem_flatMap, List.mem_range] at this ⊢
      rcases this with (h | ⟨j, hj, h⟩) | h
      · simp at h
      · simp at h; subst h; exact Or.inl (Or.inr ⟨_, hj, by simp⟩)
      · simp at h
    exact foldl_gaveUp (downsampler n).start [.setReady false, .setAlive false, .closeStop, .wait]
      [.releaseIfSet .nats, .closeProbes] .unsubscribeAll i (by simp) (Or.inr ⟨rfl, List.mem_append_left _ hl⟩) hi
  · exact C78_unsubscribed_first (Or.inr rfl) h hst

/-! ## A start that succeeds -/

/-- **C93.** A UDP listener that was started has its socket and its connection to
NATS, and its goroutines are working, until `Stop` is called. -/
theorem C93_udp_running {s : St} (h : Reach udpListener s) (hp : s.phase = .running) :
    Resource.socket ∈ s.sh.live ∧ Resource.nats ∈ s.sh.live ∧ Working s .server ∧ Working s .statistician := by
  have inv := reach_inv udp_wf h
  have hd := running_did inv hp
  have hst := start_not_stopped udp_wf h hd
  have hcl : ClosesLate udpListener := by
    intro g r h
    cases g with
    | server => exact ⟨[.setReady true], [.release .socket, .done], rfl, by simp, by simp⟩
    | _ => simp [Lifecycle.udpListener] at h
  have hlive := live_before udp_wf hcl h hst
  rw [hd] at hlive
  refine ⟨?_, ?_, ?_, ?_⟩
  · rw [hlive]; exact replay_live_mem _ _ (by decide) (by simp [udpListener]) (by simp [udpListener])
  · rw [hlive]; exact replay_live_mem _ _ (by decide) (by simp [udpListener]) (by simp [udpListener])
  · exact looping udp_wf h hst (by rw [hd]; decide) (by decide)
  · exact looping udp_wf h hst (by rw [hd]; decide) (by decide)

/-- **C93.** An HTTP listener that was started has its connection to NATS, and its
goroutines are working, until `Stop` is called. -/
theorem C93_http_running {s : St} (h : Reach httpListener s) (hp : s.phase = .running) :
    Resource.nats ∈ s.sh.live ∧ Working s .server ∧ Working s .oldBatch ∧ Working s .statistician := by
  have wf := (Component.httpListener).wf
  have inv := reach_inv wf h
  have hd := running_did inv hp
  have hst := start_not_stopped wf h hd
  have hcl : ClosesLate httpListener := by
    intro g r h
    cases g <;> simp [Lifecycle.httpListener] at h
  have hlive := live_before wf hcl h hst
  rw [hd] at hlive
  refine ⟨?_, ?_, ?_, ?_⟩
  · rw [hlive]; exact replay_live_mem _ _ (by decide) (by simp [httpListener]) (by simp [httpListener])
  · exact looping wf h hst (by rw [hd]; decide) (by decide)
  · exact looping wf h hst (by rw [hd]; decide) (by decide)
  · exact looping wf h hst (by rw [hd]; decide) (by decide)

/-- **C93.** A monitor that was started is connected to NATS and subscribed, its
subscription has been flushed to the NATS server, and its server goroutine is
working, until `Stop` is called. -/
theorem C93_monitor_running {s : St} (h : Reach monitor s) (hp : s.phase = .running) :
    Resource.nats ∈ s.sh.live ∧ 0 ∈ s.sh.subs ∧ s.sh.flushed = true ∧ Working s .server := by
  have wf := (Component.monitor).wf
  have inv := reach_inv wf h
  have hd := running_did inv hp
  have hst := start_not_stopped wf h hd
  have hcl : ClosesLate monitor := by
    intro g r h
    cases g <;> simp [Lifecycle.monitor] at h
  have hlive := live_before wf hcl h hst
  rw [hd] at hlive
  refine ⟨?_, ?_, ?_, ?_⟩
  · rw [hlive]; exact replay_live_mem _ _ (by decide) (by simp [monitor]) (by simp [monitor])
  · rw [inv.agree.subs, hd]; exact replay_subs _ _ (by decide) (by simp [monitor]) (by simp [monitor])
  · rw [inv.agree.flushed, hd]; exact (replay_flushed _).2 (by decide)
  · exact looping wf h hst (by rw [hd]; decide) (by decide)

/-! ## Cases that meet the hypotheses -/

/-- A writer about to set the limits of its second subscription. -/
example : (after (writer 1 2) (List.replicate 9 (.main true))).map (fun s => (s.phase, s.main.head?))
    = some (.starting, some (.limits 1)) := by decide +kernel

/-- A monitor about to bind its port, and one that could not. -/
example : (after monitor (List.replicate 7 (.main true) ++ [.go 0 true, .go 1 true])).map
      (fun s => (s.phase, s.threads[1]?, s.sh.stopped, step monitor s (.go 1 false)))
    = some (.running, some (.http, [.listen, .serve]), false, .exit) := by decide +kernel

/-- A downsampler that was stopped. -/
example : (after (downsampler 1) (List.replicate 11 (.main true) ++ [.callStop] ++ List.replicate 3 (.main true) ++
      [.go 0 true, .go 0 true, .go 1 true, .go 1 true] ++ List.replicate 4 (.main true))).map
      (fun s => (s.phase, s.sh.subs, s.sh.stopped)) = some (.stopped, [], true) := by decide +kernel

end Spout.Lifecycle
