import Verif.Props.DeploymentWriters

/-! # C95: a deployment that is not stopped can always finish its work -/

set_option linter.unusedSimpArgs false

namespace Spout.Deploy
open Spout Spout.Listener Spout.Pool Spout.Spec Spout.Delivery

universe u

variable {d : Setup} {s0 s s' : State d} {F : Prop} {sent : List (List Bytes)}

theorem Reach.run {s1 s2 s3 : State d} (h : Reach d s1 s2) (h' : Run d s2 s3) : Reach d s1 s3 := by
  induction h' with
  | refl => exact h
  | step _ hs ih => exact ih.step hs

/-! ## Specification -/

/-- The messages that the processes of a group will never get: dropped by NATS, published before the subscription was made, or in the queue of a process that has crashed. -/
def Group.gone {W : Type u} (c : Group W) : List Bytes := inQueues (c.dead.map (·.queue)) ++ c.dropped

/-- The workers of the processes that have crashed. -/
def Group.deadWorkers {W : Type u} (c : Group W) : List W := c.dead.flatMap (·.workers)

/-- Nothing is lost for the writer `x`: NATS has dropped nothing, and the processes that have crashed held nothing. -/
structure NothingLost (s : State d) (x : WComp) : Prop where
  listeners : ∀ y ∈ s.crashed, y.holds = []
  filters : s.filters.gone = []
  working : ∀ f ∈ s.filters.deadWorkers, f.working = none
  writers : x.inp.gone = []
  unsent : ∀ k ∈ x.inp.deadWorkers, unsentBytes k = []

/-! ## Proofs -/

theorem finish (hT : F → ∃ now, InTime d now sent.flatten) (C : Can F sent s0 s) : ∃ s', Can F sent s0 s' ∧ s'.Finished := by
  obtain ⟨s1, C1, h1⟩ := finish_listeners C (s.listeners.length)
  have hl : s1.listeners.length = s.listeners.length := by
    have e1 := congrArg List.length C1.same.listeners
    have e2 := congrArg List.length C.same.listeners
    rw [List.length_map, List.length_map] at e1 e2
    omega
  obtain ⟨s2, C2, a1, a2, a3⟩ := finish_filters hT _ C1 (Nat.le_refl _)
  obtain ⟨s3, C3, b1, b2, b3⟩ := finish_downs C2
  obtain ⟨s4, C4, c1, c2, c3, c4⟩ := finish_writers C3 s0.writers.length
  refine ⟨s4, C4, ?_, ?_, ?_, ?_, ?_⟩
  · rw [c1, b1, a1]
    intro y hy
    obtain ⟨j, hj⟩ := List.getElem?_of_mem hy
    exact h1 j (by rw [← hl]; exact (List.getElem?_eq_some_iff.1 hj).1) y hj
  · rw [c2, b2]; exact a2
  · rw [c2, b2]; exact a3
  · rw [c3]; exact b3
  · intro x hx
    obtain ⟨j, hj⟩ := List.getElem?_of_mem hx
    have e := congrArg List.length C4.same.writers
    rw [List.length_map, List.length_map] at e
    exact c4 j (by rw [← e]; exact (List.getElem?_eq_some_iff.1 hj).1) x hj

/-- **C95 (a deployment can always finish).** In whatever state a deployment is - with any messages waiting anywhere, requests half read, batches half sent, chunks waiting for their retry,
publishes that failed, messages that were dropped and processes that crashed: as long as the processes that are running are not stopped and messages do not run in circles, it can go on to a state in which
nothing is left to do for them: the listeners have read and published everything, the filters are idle, NATS and all queues are empty, and the workers of all writers have sent everything, no chunk waiting for a retry. -/
theorem C95_can_finish (h0 : Start d s0) (h : Reach d s0 s) (hr : s.Running) (ha : s.Acyclic) :
    ∃ s', Run d s s' ∧ SameSetup s s' ∧ SameLost s s' ∧ s'.Finished ∧ s'.Running := by
  obtain ⟨s', C, hf⟩ := finish (F := False) (sent := []) (s0 := s) (s := s) (fun h => h.elim)
    ⟨.refl, .refl s, .refl s, inv_reach h0 h, hr, ha, fun h => h.elim⟩
  exact ⟨s', C.reach, C.same, C.lost, hf, C.running⟩

theorem inQueues_append (a b : List Pool) : inQueues (a ++ b) = inQueues a ++ inQueues b := by
  unfold inQueues; rw [List.flatMap_append]

theorem Group.Empty.onTheWay {W : Type u} {c : Group W} (h : c.Empty) (hm : c.members ≠ []) : c.onTheWay = c.gone := by
  unfold Group.onTheWay Group.gone Group.away Group.all Group.dropped
  rw [List.map_append, inQueues_append, h.queues, List.nil_append]
  congr 1
  apply flatMap_congr'
  intro t ht
  rw [h.pending hm t ht, List.nil_append]

theorem Group.fixed_eq {W : Type u} {c c' : Group W} (h : c'.fixed = c.fixed) : c'.dead = c.dead ∧ (c'.members ≠ [] ↔ c.members ≠ []) := by
  unfold Group.fixed at h
  simp only [Prod.mk.injEq] at h
  exact ⟨h.1, Group.members_ne h.2⟩

theorem Group.gone_eq {W : Type u} {c c' : Group W} (h : c'.fixed = c.fixed) (hd : c'.dropped = c.dropped) : c'.gone = c.gone := by
  unfold Group.gone; rw [(Group.fixed_eq h).1, hd]

theorem Group.deadWorkers_eq {W : Type u} {c c' : Group W} (h : c'.fixed = c.fixed) : c'.deadWorkers = c.deadWorkers := by
  unfold Group.deadWorkers; rw [(Group.fixed_eq h).1]

theorem Group.workers_split {W : Type u} (c : Group W) : c.workers = c.live ++ c.deadWorkers := by
  unfold Group.workers Group.all Group.live Group.deadWorkers
  rw [List.flatMap_append]

theorem State.Finished.holds (h : s.Finished) : ∀ y ∈ s.listeners, y.holds = [] := by
  intro y hy
  have := h.listeners y hy
  cases y with
  | udp l got =>
    have hb : l.batch.bytes = [] := this
    show linesOf l.batch.bytes = []
    rw [hb]; exact linesOf_nil
  | http l reqs wakeups order =>
    obtain ⟨hb, ht⟩ : l.batch.bytes = [] ∧ ∀ r ∈ reqs, r.todo = [] := this
    show linesOf l.batch.bytes ++ _ = []
    rw [hb, linesOf_nil, List.nil_append, List.flatMap_eq_nil_iff]
    intro r hr
    rw [ht r hr]; rfl

/-- The same writers in both states. -/
theorem SameSetup.writer {i : Nat} {x : WComp} (h : SameSetup s s') (hl : SameLost s s') (hx : s.writers[i]? = some x) :
    ∃ x', s'.writers[i]? = some x' ∧ x'.subjects = x.subjects ∧ x'.conf = x.conf ∧ x'.inp.fixed = x.inp.fixed ∧ x'.inp.dropped = x.inp.dropped := by
  have e := congrArg List.length h.writers
  rw [List.length_map, List.length_map] at e
  have hi : i < s'.writers.length := by rw [e]; exact (List.getElem?_eq_some_iff.1 hx).1
  refine ⟨_, List.getElem?_eq_getElem hi, ?_⟩
  have e1 : (s'.writers.map fun x => (x.subjects, x.conf, x.inp.fixed))[i]? = (s.writers.map fun x => (x.subjects, x.conf, x.inp.fixed))[i]? := by rw [h.writers]
  rw [List.getElem?_map, List.getElem?_map, hx, List.getElem?_eq_getElem hi] at e1
  have e2 : (s'.writers.map fun x => x.inp.dropped)[i]? = (s.writers.map fun x => x.inp.dropped)[i]? := by rw [hl.writers]
  rw [List.getElem?_map, List.getElem?_map, hx, List.getElem?_eq_getElem hi] at e2
  simp only [Option.map_some, Option.some.injEq, Prod.mk.injEq] at e1 e2
  exact ⟨e1.1, e1.2.1, e1.2.2, e2⟩

theorem SameSetup.separate {x x' : WComp} (h : SameSetup s s') (hx : x'.subjects = x.subjects) (A : Separate s x) : Separate s' x' := by
  refine ⟨A.rules, A.junk, ?_, by rw [hx]; exact A.writer⟩
  intro y hy
  obtain ⟨z, hz, e⟩ := mem_of_map h.downs hy
  simp only [Prod.mk.injEq] at e
  rw [← e.2.1, hx]
  exact A.downs z hz

/-- **C97 (a crash loses what the process held, and nothing else).** Take any reachable state of a deployment in which processes have started and crashed at any moments.  If no publish has failed (nor will that of a
request being read), the lines processed so far were in the filters' time window, those sent are in the window at some time, a filter is running and the processes that are running are not stopped, then these can go on, without anything being sent to them, until nothing is left to do, and
for every writer (or queue group) of which a process is running, the texts of the lines sent to the listeners (those that match its rules) are then, each exactly once: sent to InfluxDB by a running worker (`sentBy`); sent or held by a worker that has crashed (`had`);
in a message that NATS dropped, that was published before the writer subscribed, or that was in the queue of a crashed process (`queued` for the writers, `gone` for the filters); in the message a crashed filter worked on; or in the
batch or unread requests of a crashed listener. -/
theorem C97_crashes (h0 : Start d s0) (h : Reach d s0 s) (hr : s.Running) (ha : s.Acyclic) (hb : SmallBatches s)
    (sent : List (List Bytes)) (hf : s.Fine sent) (now : Int) (hT : InTime d now sent.flatten) (hm : s.filters.members ≠ []) :
    ∃ s', Run d s s' ∧ SameSetup s s' ∧ s'.Finished ∧ s'.Running ∧ s'.Fine sent ∧
      ∀ (i : Nat) (x : WComp), s.writers[i]? = some x → x.inp.members ≠ [] → RulesFine d.S x.conf sent.flatten → Separate s x →
        ∃ x', s'.writers[i]? = some x' ∧ x'.conf = x.conf ∧ x'.inp.dead = x.inp.dead ∧ ∃ sentBy had queued : List (List Bytes),
          sentBy.map List.flatten = x'.inp.live.map (fun k => firstData k.hist) ∧
          had.map List.flatten = x.inp.deadWorkers.map (fun k => firstData k.hist ++ unsentBytes k) ∧
          queued.map List.flatten = x.inp.gone ∧
          (sentBy.flatten ++ had.flatten ++ kept x.conf.rules (queued.flatten ++
            textsFor d x (((s.filters.deadWorkers.flatMap fun f => f.working.toList) ++ s.filters.gone).flatMap linesOf) ++
            textsFor d x (s.crashed.flatMap LComp.holds))).Perm (kept x.conf.rules (textsFor d x sent.flatten)) := by
  obtain ⟨s', C, hfin⟩ := finish (F := True) (sent := sent) (s0 := s) (s := s) (fun _ => ⟨now, hT⟩)
    ⟨.refl, .refl s, .refl s, inv_reach h0 h, hr, ha, fun _ => ⟨hf, hb⟩⟩
  obtain ⟨G, hb'⟩ := C.fine trivial
  refine ⟨s', C.reach, C.same, hfin, C.running, G, ?_⟩
  intro i x hx hxm hn hsep
  obtain ⟨x', hx', e1, e2, e3, e4⟩ := C.same.writer C.lost hx
  refine ⟨x', hx', e2, (Group.fixed_eq e3).1, ?_⟩
  obtain ⟨all, queued, h1, h2, h3⟩ := C88_deployment h0 (h.run C.reach) (get_mem hx') (C.same.separate e1 hsep) hb' sent G.sent (by rw [e2]; exact hn) G.published G.timely
  rw [Group.workers_split, List.map_append, Group.deadWorkers_eq e3] at h1
  obtain ⟨sentBy, had, rfl, h4, h5⟩ := List.map_eq_append_iff.1 h1
  have hfil := Group.fixed_eq C.same.filters
  rw [(hfin.writers x' (get_mem hx')).1.onTheWay ((Group.fixed_eq e3).2.2 hxm), Group.gone_eq e3 e4] at h2
  refine ⟨sentBy, had, queued, ?_, h5, h2, ?_⟩
  · rw [h4]
    apply List.map_congr_left
    intro k hk
    rw [((hfin.writers x' (get_mem hx')).2 k hk).unsent, List.append_nil]
  · have hw : (s'.filters.workers.flatMap fun f => f.working.toList) = s.filters.deadWorkers.flatMap fun f => f.working.toList := by
      rw [Group.workers_split, List.flatMap_append, Group.deadWorkers_eq C.same.filters, List.flatMap_eq_nil_iff.2, List.nil_append]
      intro f hf
      rw [hfin.working f hf]; rfl
    have hl : s'.sources.flatMap LComp.holds = s.crashed.flatMap LComp.holds := by
      unfold State.sources
      rw [List.flatMap_append, List.flatMap_eq_nil_iff.2 hfin.holds, List.nil_append, C.same.crashed]
    rw [hw, hl, hfin.filters.onTheWay (hfil.2.2 hm), Group.gone_eq C.same.filters C.lost.filters, List.flatten_append, e2] at h3
    unfold textsFor at h3 ⊢
    rw [e1] at h3
    exact h3

/-- **C95 (every line can still arrive).** If nothing has gone wrong so far (no publish has failed, nor will that of a request being read; NATS has dropped nothing; no process crashed that held anything; the lines processed so far were in
the filters' time window) and the lines sent are in the window at some time, then the deployment can go on, without anything being sent to it, to a state in which nothing is left to do and, for every writer (or queue group of writers)
whose subjects are separate, its workers together have sent to InfluxDB exactly the texts of the lines sent to the listeners (those that match its rules, if it has rules), each once. -/
theorem C95_every_line_arrives (h0 : Start d s0) (h : Reach d s0 s) (hr : s.Running) (ha : s.Acyclic) (hb : SmallBatches s)
    (sent : List (List Bytes)) (hf : s.Fine sent) (now : Int) (hT : InTime d now sent.flatten) (hm : s.filters.members ≠ []) :
    ∃ s', Run d s s' ∧ SameSetup s s' ∧ s'.Finished ∧ s'.Running ∧ s'.Fine sent ∧
      ∀ (i : Nat) (x : WComp), s.writers[i]? = some x → x.inp.members ≠ [] → RulesFine d.S x.conf sent.flatten → Separate s x → NothingLost s x →
        ∃ x', s'.writers[i]? = some x' ∧ ∃ sentBy : List (List Bytes), sentBy.map List.flatten = x'.inp.workers.map (fun k => firstData k.hist) ∧
          sentBy.flatten.Perm (kept x.conf.rules (textsFor d x sent.flatten)) := by
  obtain ⟨s', a1, a2, a3, a4, a5, h1⟩ := C97_crashes h0 h hr ha hb sent hf now hT hm
  refine ⟨s', a1, a2, a3, a4, a5, ?_⟩
  intro i x hx hxm hn hsep N
  obtain ⟨x', hx', -, e1, sentBy, had, queued, b1, b2, b3, b4⟩ := h1 i x hx hxm hn hsep
  refine ⟨x', hx', sentBy ++ had, ?_, ?_⟩
  · rw [Group.workers_split, List.map_append, List.map_append, b1, b2]
    congr 1
    unfold Group.deadWorkers
    rw [e1]
    apply List.map_congr_left
    intro k hk
    rw [N.unsent k hk, List.append_nil]
  · have hw : (s.filters.deadWorkers.flatMap fun f => f.working.toList) = [] := by
      rw [List.flatMap_eq_nil_iff]
      intro f hf
      rw [N.working f hf]; rfl
    rw [N.writers] at b3
    rw [List.map_eq_nil_iff.1 b3, N.filters, List.flatMap_eq_nil_iff.2 N.listeners, hw] at b4
    simpa [textsFor, kept_nil, List.flatten_append] using b4

/-! ## A deployment that meets the hypotheses -/

def exSetup : Setup := ⟨insertionSorter, wholeFloats, b!"influx-spout", 1000, exRules, b!"junk"⟩

def exGroup {W : Type u} (subject : Bytes) (ws : List W) : Group W := ⟨[⟨subject, [], []⟩], [⟨start 1 ws.length, ws⟩], []⟩

def exFWorker : FComp := ⟨FWorker.new 1000 exRules b!"junk", FStats.init exRules.length, none, [], []⟩

/-- A writer with the rule `tags = ["h=1"]`. -/
def exRConf : WConf := { exWConf with rules := [createTagRule [⟨b!"h", b!"1"⟩] []] }

/-- A UDP and an HTTP listener, a filter with two workers, a downsampler, a writer for its input, a writer for its output, and a writer with a rule. -/
def exStart : State exSetup where
  listeners := [.udp (Listener.new ⟨2, 1000, 1048576⟩ 0) [], .http (Listener.new ⟨1, 1000, 1048576⟩ 0) [] [] []]
  crashed := []
  filters := exGroup b!"influx-spout" [exFWorker, exFWorker]
  downs := [⟨b!"cpu-subject", b!"cpu-subject-archive", 60, 0, exGroup b!"cpu-subject" [⟨DWorker.new wholeFloats 60 0, []⟩]⟩]
  writers := [⟨[b!"cpu-subject"], exWConf, exGroup b!"cpu-subject" [WSys.start exWConf 0 0, WSys.start exWConf 0 0]⟩,
    ⟨[b!"cpu-subject-archive"], exWConf, exGroup b!"cpu-subject-archive" [WSys.start exWConf 0 0]⟩,
    ⟨[b!"cpu-subject"], exRConf, exGroup b!"cpu-subject" [WSys.start exRConf 0 0]⟩]

def exEvent : UDPEvent := ⟨b!"cpu,h=1 f=1\nmem,h=1 f=2", false, 0, 1, 2, fun _ => false⟩

/-- The listener after the datagram: nothing is sent yet. -/
def exUdp : Listener := ⟨⟨2, 1000, 1048576⟩, ⟨b!"cpu,h=1 f=1\nmem,h=1 f=2\n", 1048576, 1, 0⟩, ⟨1, 0, 0, 0⟩, []⟩

/-- A datagram has been received and a request has begun. -/
def exBusy : State exSetup :=
  { exStart with listeners := [.udp exUdp [exEvent], .http (Listener.new ⟨1, 1000, 1048576⟩ 0) [⟨exReq, [], exSteps⟩] [] []] }

theorem exStarted {W : Type u} (subject : Bytes) (ws : List W) : (exGroup subject ws).Started [subject] :=
  ⟨rfl, fun x hx => by rw [List.mem_singleton.1 hx]; rfl, rfl⟩

theorem ex_start : Start exSetup exStart := by
  refine ⟨?_, rfl, ⟨exStarted _ _, ?_⟩, ?_, ?_⟩
  · intro x hx
    simp only [exStart, List.mem_cons, List.not_mem_nil, or_false] at hx
    rcases hx with rfl | rfl
    · exact ⟨_, _, Or.inl rfl⟩
    · exact ⟨_, _, Or.inr rfl⟩
  · intro x hx f hf
    rw [List.mem_singleton.1 hx] at hf
    simp only [List.mem_cons, List.not_mem_nil, or_false, or_self] at hf
    exact hf
  · intro y hy
    rw [List.mem_singleton.1 hy]
    exact ⟨exStarted _ _, _, rfl⟩
  · intro x hx
    simp only [exStart, List.mem_cons, List.not_mem_nil, or_false] at hx
    rcases hx with rfl | rfl | rfl
    · refine ⟨exStarted _ _, fun y hy k hk => ?_⟩
      rw [List.mem_singleton.1 hy] at hk
      simp only [List.mem_cons, List.not_mem_nil, or_false, or_self] at hk
      exact ⟨0, 0, hk⟩
    · refine ⟨exStarted _ _, fun y hy k hk => ?_⟩
      rw [List.mem_singleton.1 hy] at hk
      simp only [List.mem_cons, List.not_mem_nil, or_false, or_self] at hk
      exact ⟨0, 0, hk⟩
    · refine ⟨exStarted _ _, fun y hy k hk => ?_⟩
      rw [List.mem_singleton.1 hy] at hk
      simp only [List.mem_cons, List.not_mem_nil, or_false, or_self] at hk
      exact ⟨0, 0, hk⟩

theorem publish_nothing (s : State d) : s.publish [] = s := by
  have h2 : ∀ {W : Type} (c : Group W), c.add [] = c := fun c => Group.add_none fun _ _ => rfl
  have h3 : ∀ {W : Type 1} (c : Group W), c.add [] = c := fun c => Group.add_none fun _ _ => rfl
  unfold State.publish
  rw [h2, map_same fun a _ => by rw [h3], map_same fun a _ => by rw [h2]]

theorem ex_reach : Reach exSetup exStart exBusy := by
  have r1 := Reach.refl.step (Step.udp exStart 0 (Listener.new ⟨2, 1000, 1048576⟩ 0) exUdp [] exEvent rfl (by decide) (by decide +kernel))
  rw [show outOn exSetup.lsub (exUdp.pubs.drop (Listener.new ⟨2, 1000, 1048576⟩ 0).pubs.length) = [] from rfl, publish_nothing] at r1
  exact r1.step (Step.request _ 1 (Listener.new ⟨1, 1000, 1048576⟩ 0) [] [] [] exSteps exReq rfl rfl)

/-- Nothing has been published when a datagram is in a listener's batch and a request has not been read; yet the two lines about `cpu` can reach InfluxDB. -/
theorem exGroup_running {W : Type u} (subject : Bytes) (w : W) (ws : List W) : (exGroup subject (w :: ws)).Running :=
  ⟨(fun x hx => by rw [List.mem_singleton.1 hx]; exact fun h => by cases h), (fun x hx => by rw [List.mem_singleton.1 hx]; rfl)⟩

theorem ex_running : exBusy.Running := by
  refine ⟨exGroup_running _ _ _, ?_, ?_⟩
  · intro y hy
    rw [List.mem_singleton.1 hy]
    exact ⟨exGroup_running _ _ _, by decide⟩
  · intro x hx
    simp only [exBusy, exStart, List.mem_cons, List.not_mem_nil, or_false] at hx
    rcases hx with rfl | rfl | rfl
    · refine ⟨exGroup_running _ _ _, by decide, fun k hk => ?_⟩
      obtain ⟨y, hy, hk⟩ := Group.mem_live.1 hk
      rw [List.mem_singleton.1 hy] at hk
      simp only [List.mem_cons, List.not_mem_nil, or_false, or_self] at hk
      rw [hk]; rfl
    · refine ⟨exGroup_running _ _ _, by decide, fun k hk => ?_⟩
      obtain ⟨y, hy, hk⟩ := Group.mem_live.1 hk
      rw [List.mem_singleton.1 hy] at hk
      simp only [List.mem_cons, List.not_mem_nil, or_false, or_self] at hk
      rw [hk]; rfl
    · refine ⟨exGroup_running _ _ _, by decide, fun k hk => ?_⟩
      obtain ⟨y, hy, hk⟩ := Group.mem_live.1 hk
      rw [List.mem_singleton.1 hy] at hk
      simp only [List.mem_cons, List.not_mem_nil, or_false, or_self] at hk
      rw [hk]; rfl

theorem ex_acyclic : exBusy.Acyclic := by
  refine ⟨by decide, by decide, ?_⟩
  intro y hy
  rw [List.mem_singleton.1 hy]
  refine ⟨by decide, fun z hz => ?_⟩
  rw [List.mem_singleton.1 hz]
  decide

def exSent : List (List Bytes) := [[b!"cpu,h=1 f=1\n", b!"mem,h=1 f=2\n"], [b!"cpu f=9\n"]]

theorem ex_fine : exBusy.Fine exSent := by
  refine ⟨?_, ⟨?_, ?_⟩, ?_, ⟨by decide, ?_⟩⟩
  · have h1 : exSent = [sentLines [exEvent], [linesOf exReq.bytes].flatten] := by decide +kernel
    rw [h1]
    show Each2 Sent [_, _] _
    exact .cons (.udp _ _) (.cons (.http _ _ _ _ _ (.cons (.nanos (Or.inl rfl) (Or.inr (by decide)) (by decide +kernel)) .nil)) .nil)
  · intro y hy q hq
    simp only [exBusy, exStart, State.sources, List.append_nil, List.mem_cons, List.not_mem_nil, or_false] at hy
    rcases hy with rfl | rfl <;> cases hq
  · intro f hf
    obtain ⟨y, hy, hf⟩ := Group.mem_workers.1 hf
    rw [List.mem_singleton.1 hy] at hf
    simp only [List.mem_cons, List.not_mem_nil, or_false, or_self] at hf
    rw [hf]
    intro q hq
    cases hq
  · intro y hy
    simp only [exBusy, List.mem_cons, List.not_mem_nil, or_false] at hy
    rcases hy with rfl | rfl
    · trivial
    · intro r hr _ k
      rw [List.mem_singleton.1 hr]; rfl
  · intro f hf
    obtain ⟨y, hy, hf⟩ := Group.mem_workers.1 hf
    rw [List.mem_singleton.1 hy] at hf
    simp only [List.mem_cons, List.not_mem_nil, or_false, or_self] at hf
    rw [hf]
    intro m hm
    cases hm

/-- The lines sent stay lines in the filter. -/
theorem ex_stay : ∀ line ∈ exSent.flatten, StaysOneLine insertionSorter line := by
  have h : ∀ line ∈ exSent.flatten, (match emitted insertionSorter line with | .ok (some out) => out.getLast? == some NL && !out.dropLast.contains NL | _ => true) = true := by
    decide +kernel
  intro line hl out ho
  have h := h line hl
  rw [ho] at h
  simp only [Bool.and_eq_true, beq_iff_eq, Bool.not_eq_eq_eq_not, Bool.not_true, List.contains_eq_mem, decide_eq_false_iff_not] at h
  refine ⟨out.dropLast, h.2, ?_⟩
  obtain ⟨pre, rfl⟩ := List.getLast?_eq_some_iff.1 h.1
  rw [List.dropLast_concat]

theorem ex_kept : kept [createTagRule [⟨b!"h", b!"1"⟩] []] [b!"cpu,h=1 f=1\n", b!"cpu f=9\n"] = [b!"cpu,h=1 f=1\n"] :=
  (kept_eq _ _ (by simp)).trans (by decide +kernel)

/-- Both lines about `cpu` arrive at the first writer; the third has a rule, and gets the one that matches it. -/
theorem ex_lines_arrive : ∃ s', Run exSetup exBusy s' ∧ s'.Finished ∧ ∃ x z, s'.writers[0]? = some x ∧ s'.writers[2]? = some z ∧
    (∃ sentBy : List (List Bytes), sentBy.map List.flatten = x.inp.workers.map (fun k => firstData k.hist) ∧
      sentBy.flatten.Perm [b!"cpu,h=1 f=1\n", b!"cpu f=9\n"]) ∧
    ∃ sentBy : List (List Bytes), sentBy.map List.flatten = z.inp.workers.map (fun k => firstData k.hist) ∧
      sentBy.flatten.Perm [b!"cpu,h=1 f=1\n"] := by
  have hb : SmallBatches exBusy := by
    intro l got hl
    simp only [exBusy, exStart, State.sources, List.append_nil, List.mem_cons, List.not_mem_nil, or_false, LComp.udp.injEq, reduceCtorEq] at hl
    rw [hl.1]; decide
  have hT : InTime exSetup 10000 exSent.flatten :=
    ⟨by decide, by decide, fun line hline => Or.inr (ex_no_ts line (by revert line; decide +kernel))⟩
  obtain ⟨s', h1, h2, h3, -, -, h4⟩ := C95_every_line_arrives ex_start ex_reach ex_running ex_acyclic hb exSent ex_fine 10000 hT (by decide)
  have ht : exSent.flatten.flatMap (textsTo exSetup.S exSetup.rules exSetup.junk [b!"cpu-subject"]) = [b!"cpu,h=1 f=1\n", b!"cpu f=9\n"] := by decide +kernel
  have hsep : ∀ x : WComp, x.subjects = [b!"cpu-subject"] → Separate exBusy x := by
    intro x hx
    refine ⟨by decide, by decide, ?_, by rw [hx]; decide⟩
    intro y hy
    rw [List.mem_singleton.1 hy, hx]
    decide
  have hno : ∀ x : WComp, x.inp.dead = [] → x.inp.dropped = [] → NothingLost exBusy x := by
    intro x h1 h2
    refine ⟨(fun y hy => by cases hy), rfl, (fun f hf => by cases hf), ?_, ?_⟩
    · unfold Group.gone; rw [h1, h2]; rfl
    · unfold Group.deadWorkers; rw [h1]; exact fun k hk => by cases hk
  obtain ⟨x, hx, a⟩ := h4 0 _ rfl (by decide) (Or.inl rfl) (hsep _ rfl) (hno _ rfl rfl)
  obtain ⟨z, hz, b⟩ := h4 2 _ rfl (by decide) (Or.inr ex_stay) (hsep _ rfl) (hno _ rfl rfl)
  refine ⟨s', h1, h3, x, z, hx, hz, ?_, ?_⟩
  · unfold textsFor at a
    have a : ∃ sentBy : List (List Bytes), sentBy.map List.flatten = x.inp.workers.map (fun k => firstData k.hist) ∧
      sentBy.flatten.Perm (kept [] (exSent.flatten.flatMap (textsTo exSetup.S exSetup.rules exSetup.junk [b!"cpu-subject"]))) := a
    rw [ht, kept_norules] at a
    exact a
  · unfold textsFor at b
    have b : ∃ sentBy : List (List Bytes), sentBy.map List.flatten = z.inp.workers.map (fun k => firstData k.hist) ∧
      sentBy.flatten.Perm (kept [createTagRule [⟨b!"h", b!"1"⟩] []] (exSent.flatten.flatMap (textsTo exSetup.S exSetup.rules exSetup.junk [b!"cpu-subject"]))) := b
    rw [ht, ex_kept] at b
    exact b

/-! ## The same deployment after crashes -/

/-- The UDP listener has crashed with two lines in its batch; a filter was started and the first one has crashed. -/
def exCrashed : State exSetup :=
  { exBusy with
    listeners := [.http (Listener.new ⟨1, 1000, 1048576⟩ 0) [⟨exReq, [], exSteps⟩] [] []]
    crashed := [.udp exUdp [exEvent]]
    filters := ⟨[⟨b!"influx-spout", [], []⟩], [⟨start 1 1, [exFWorker]⟩], [⟨start 1 2, [exFWorker, exFWorker]⟩]⟩ }

theorem ex_crash : Reach exSetup exStart exCrashed := by
  have r1 := ex_reach.change (.listenerEnds exBusy [] [.http (Listener.new ⟨1, 1000, 1048576⟩ 0) [⟨exReq, [], exSteps⟩] [] []] (.udp exUdp [exEvent]) rfl)
  have r2 := r1.change (.filterStarts _ [exFWorker] fun f hf => List.mem_singleton.1 hf)
  exact r2.change (.filterEnds _ _ (.mk _ [] [⟨start 1 1, [exFWorker]⟩] ⟨start 1 2, [exFWorker, exFWorker]⟩ rfl))

def exCrashedSent : List (List Bytes) := [[b!"cpu f=9\n"], [b!"cpu,h=1 f=1\n", b!"mem,h=1 f=2\n"]]

theorem ex_crash_fine : exCrashed.Fine exCrashedSent := by
  have hfw : ∀ f ∈ exCrashed.filters.workers, f = exFWorker := by
    intro f hf
    obtain ⟨y, hy, hf⟩ := Group.mem_workers.1 hf
    simp only [exCrashed, Group.all, List.cons_append, List.nil_append, List.mem_cons, List.not_mem_nil, or_false] at hy
    rcases hy with rfl | rfl <;> simpa using hf
  refine ⟨?_, ⟨?_, ?_⟩, ?_, ⟨by decide, ?_⟩⟩
  · have h1 : exCrashedSent = [[linesOf exReq.bytes].flatten, sentLines [exEvent]] := by decide +kernel
    rw [h1]
    show Each2 Sent [_, _] _
    exact .cons (.http _ _ _ _ _ (.cons (.nanos (Or.inl rfl) (Or.inr (by decide)) (by decide +kernel)) .nil)) (.cons (.udp _ _) .nil)
  · intro y hy q hq
    simp only [exCrashed, State.sources, List.cons_append, List.nil_append, List.mem_cons, List.not_mem_nil, or_false] at hy
    rcases hy with rfl | rfl <;> cases hq
  · intro f hf q hq
    rw [hfw f hf] at hq
    cases hq
  · intro y hy
    rw [List.mem_singleton.1 hy]
    intro r hr _ k
    rw [List.mem_singleton.1 hr]; rfl
  · intro f hf m hm
    rw [hfw f hf] at hm
    cases hm

/-- The line in the request, which the HTTP listener was still reading, arrives; the one about `cpu` in the batch of the crashed listener does not. -/
theorem ex_crash_loses : ∃ s', Run exSetup exCrashed s' ∧ s'.Finished ∧ ∃ x, s'.writers[0]? = some x ∧
    ∃ sentBy : List (List Bytes), sentBy.map List.flatten = x.inp.live.map (fun k => firstData k.hist) ∧ sentBy.flatten = [b!"cpu f=9\n"] := by
  have hb : SmallBatches exCrashed := by
    intro l got hl
    simp only [exCrashed, State.sources, List.cons_append, List.nil_append, List.mem_cons, List.not_mem_nil, or_false, LComp.udp.injEq, reduceCtorEq, false_or] at hl
    rw [hl.1]; decide
  have hT : InTime exSetup 10000 exCrashedSent.flatten :=
    ⟨by decide, by decide, fun line hline => Or.inr (ex_no_ts line (by revert line; decide +kernel))⟩
  have hrun : exCrashed.Running := by
    refine ⟨⟨?_, ?_⟩, ex_running.downs, ex_running.writers⟩
    · intro x hx
      rw [List.mem_singleton.1 hx]
      exact fun h => by cases h
    · intro x hx
      rw [List.mem_singleton.1 hx]; rfl
  have hac : exCrashed.Acyclic := ⟨ex_acyclic.rules, ex_acyclic.junk, ex_acyclic.downs⟩
  obtain ⟨s', h1, h2, h3, -, -, h4⟩ := C97_crashes ex_start ex_crash hrun hac hb exCrashedSent ex_crash_fine 10000 hT (by decide)
  have hsep : Separate exCrashed ⟨[b!"cpu-subject"], exWConf, exGroup b!"cpu-subject" [WSys.start exWConf 0 0, WSys.start exWConf 0 0]⟩ := by
    refine ⟨by decide, by decide, ?_, by decide⟩
    intro y hy
    rw [List.mem_singleton.1 hy]
    decide
  obtain ⟨x, hx, -, -, sentBy, had, queued, b1, b2, b3, b4⟩ := h4 0 _ rfl (by decide) (Or.inl rfl) hsep
  refine ⟨s', h1, h3, x, hx, sentBy, b1, ?_⟩
  have hh : had = [] := List.map_eq_nil_iff.1 b2
  have hq : queued = [] := List.map_eq_nil_iff.1 b3
  subst hh hq
  have b4 : (sentBy.flatten ++ [] ++ kept [] ([] ++ [] ++ (exCrashed.crashed.flatMap LComp.holds).flatMap (textsTo exSetup.S exSetup.rules exSetup.junk [b!"cpu-subject"]))).Perm
    (kept [] (exCrashedSent.flatten.flatMap (textsTo exSetup.S exSetup.rules exSetup.junk [b!"cpu-subject"]))) := b4
  have e1 : (exCrashed.crashed.flatMap LComp.holds).flatMap (textsTo exSetup.S exSetup.rules exSetup.junk [b!"cpu-subject"]) = [b!"cpu,h=1 f=1\n"] := by decide +kernel
  have e2 : exCrashedSent.flatten.flatMap (textsTo exSetup.S exSetup.rules exSetup.junk [b!"cpu-subject"]) = [b!"cpu f=9\n"] ++ [b!"cpu,h=1 f=1\n"] := by decide +kernel
  rw [e1, e2, kept_norules, kept_norules, List.append_nil, List.nil_append, List.nil_append] at b4
  exact List.perm_singleton.1 ((List.perm_append_right_iff _).1 b4)

end Spout.Deploy
