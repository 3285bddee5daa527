import Verif.Props.GroupCan
import Verif.Props.WriterCan
import Verif.Props.ListenerBatching

/-! # A deployment can always finish (C95) -/

set_option linter.unusedSimpArgs false

namespace Spout.Deploy
open Spout Spout.Listener Spout.Pool Spout.Spec Spout.Delivery

universe u v

variable {d : Setup}

/-! ## Specification -/

/-- The processes that are running are not stopped and have workers, and the settings are sensible. -/
structure State.Running (s : State d) : Prop where
  filters : s.filters.Running
  downs : ∀ y ∈ s.downs, y.inp.Running ∧ 0 < y.period
  writers : ∀ x ∈ s.writers, x.inp.Running ∧ 1 ≤ x.conf.batchMaxSize ∧ ∀ k ∈ x.inp.live, k.stop = false

/-- Messages do not run in circles: filters do not publish to filters, downsamplers do not publish to filters, and to another downsampler only if the subject of that one is longer (it is: the suffix, which must not be empty, is appended to it). -/
structure State.Acyclic (s : State d) : Prop where
  rules : ∀ r ∈ d.rules, r.subject ≠ d.lsub
  junk : d.junk ≠ d.lsub
  downs : ∀ y ∈ s.downs, y.out ≠ d.lsub ∧ ∀ z ∈ s.downs, y.out = z.subject → y.subject.length < z.subject.length

/-- A listener has read everything and its batch is empty. -/
def LComp.Done : LComp → Prop
  | .udp l _ => l.batch.bytes = []
  | .http l reqs _ _ => l.batch.bytes = [] ∧ ∀ r ∈ reqs, r.todo = []

/-- Nothing is left to do for the processes that are running (except that the downsamplers wait for their windows to end). -/
structure State.Finished (s : State d) : Prop where
  listeners : ∀ y ∈ s.listeners, y.Done
  filters : s.filters.Empty
  working : ∀ f ∈ s.filters.live, f.working = none
  downs : ∀ y ∈ s.downs, y.inp.Empty
  writers : ∀ x ∈ s.writers, x.inp.Empty ∧ ∀ k ∈ x.inp.live, Rest k

/-- What was sent to a listener: the (non-empty) datagrams, and the requests. -/
def LComp.input : LComp → List Bytes × List HTTPReq
  | .udp _ got => ((got.map (·.data)).filter (fun data => !data.isEmpty), [])
  | .http _ reqs _ _ => ([], reqs.map (·.req))

/-- NATS drops nothing in between, and nothing is sent to the listeners. -/
structure SameLost (s s' : State d) : Prop where
  input : s'.listeners.map LComp.input = s.listeners.map LComp.input
  filters : s'.filters.dropped = s.filters.dropped
  downs : s'.downs.map (·.inp.dropped) = s.downs.map (·.inp.dropped)
  writers : s'.writers.map (·.inp.dropped) = s.writers.map (·.inp.dropped)

/-- The requests a listener is reading will be published successfully. -/
def LComp.Will : LComp → Prop
  | .udp _ _ => True
  | .http _ reqs _ _ => ∀ r ∈ reqs, r.todo ≠ [] → ∀ k, r.req.fail k = false

/-- Nothing goes wrong. -/
structure State.Fine (sent : List (List Bytes)) (s : State d) : Prop where
  sent : Each2 Sent s.sources sent
  published : s.NoFailure
  will : ∀ y ∈ s.listeners, y.Will
  timely : s.Timely

/-- The lines are in the time window of a filter at the time `now`. -/
structure InTime (d : Setup) (now : Int) (lines : List Bytes) : Prop where
  lo : InInt64 (now - d.delta)
  hi : InInt64 (now + d.delta)
  lines : ∀ line ∈ lines, Delivery.Timely now d.delta line

/-- The kind and settings of a listener. -/
def LComp.kind : LComp → Bool × LConf
  | .udp l _ => (true, l.conf)
  | .http l _ _ _ => (false, l.conf)

/-- What does not change with the messages a group handles: the processes that have crashed, and how many are running. -/
def Group.fixed {W : Type u} (c : Group W) : List (Member W) × Nat := (c.dead, c.members.length)

/-- The same components with the same settings. -/
structure SameSetup (s s' : State d) : Prop where
  listeners : s'.listeners.map LComp.kind = s.listeners.map LComp.kind
  crashed : s'.crashed = s.crashed
  filters : s'.filters.fixed = s.filters.fixed
  downs : s'.downs.map (fun y => (y.subject, y.out, y.period, y.now0, y.inp.fixed)) = s.downs.map (fun y => (y.subject, y.out, y.period, y.now0, y.inp.fixed))
  writers : s'.writers.map (fun x => (x.subjects, x.conf, x.inp.fixed)) = s.writers.map (fun x => (x.subjects, x.conf, x.inp.fixed))

/-! ## Proofs: what no step changes -/

variable {s0 s s' : State d}

theorem map_set_same {α : Type u} {β : Type v} {l : List α} {i : Nat} {a : α} (b : α) (f : α → β) (h : l[i]? = some a) (he : f b = f a) :
    (l.set i b).map f = l.map f := by
  rw [List.map_set, he]
  apply List.ext_getElem?
  intro j
  rw [List.getElem?_set]
  split
  · rename_i hij
    subst hij
    rw [List.getElem?_map, h, List.length_map, if_pos (List.getElem?_eq_some_iff.1 h).1]; rfl
  · rfl

theorem set_same {α : Type u} {l : List α} {i : Nat} {a : α} (h : l[i]? = some a) : l.set i a = l := by
  apply List.ext_getElem?
  intro j
  rw [List.getElem?_set]
  split
  · rename_i hij
    subst hij
    rw [h, if_pos (List.getElem?_eq_some_iff.1 h).1]
  · rfl

theorem Group.step_fixed {W : Type u} {c c' : Group W} (h : Group.Step c c') : c'.fixed = c.fixed := by
  unfold Group.fixed; rw [(Group.step_dead h).1, (Group.step_dead h).2]

theorem Changed.fixed {W : Type u} {c c' : Group W} {a b : W} (h : Changed c c' a b) : c'.fixed = c.fixed := by
  unfold Group.fixed; rw [h.dead, h.length]

theorem SameSetup.refl (s : State d) : SameSetup s s := ⟨rfl, rfl, rfl, rfl, rfl⟩

theorem SameSetup.trans {s1 s2 s3 : State d} (h : SameSetup s1 s2) (h' : SameSetup s2 s3) : SameSetup s1 s3 :=
  ⟨h'.listeners.trans h.listeners, h'.crashed.trans h.crashed, h'.filters.trans h.filters, h'.downs.trans h.downs, h'.writers.trans h.writers⟩

theorem SameLost.refl (s : State d) : SameLost s s := ⟨rfl, rfl, rfl, rfl⟩

theorem SameLost.trans {s1 s2 s3 : State d} (h : SameLost s1 s2) (h' : SameLost s2 s3) : SameLost s1 s3 :=
  ⟨h'.input.trans h.input, h'.filters.trans h.filters, h'.downs.trans h.downs, h'.writers.trans h.writers⟩

theorem SameLost.publish (h : SameLost s s') (ms : List (Bytes × Bytes)) : SameLost s (s'.publish ms) := by
  refine ⟨h.input, (Group.dropped_add ms).trans h.filters, ?_, ?_⟩
  · unfold State.publish
    dsimp only
    rw [List.map_map, ← h.downs]
    exact List.map_congr_left fun y _ => Group.dropped_add ms
  · unfold State.publish
    dsimp only
    rw [List.map_map, ← h.writers]
    exact List.map_congr_left fun y _ => Group.dropped_add ms

theorem SameSetup.publish (h : SameSetup s s') (ms : List (Bytes × Bytes)) : SameSetup s (s'.publish ms) := by
  refine ⟨h.listeners, h.crashed, h.filters, ?_, ?_⟩
  · unfold State.publish
    dsimp only
    rw [List.map_map]
    exact h.downs
  · unfold State.publish
    dsimp only
    rw [List.map_map]
    exact h.writers

theorem step_same (h : Step d s s') : SameSetup s s' := by
  cases h with
  | udp i l l' got e h hlen hr =>
    apply SameSetup.publish; exact ⟨map_set_same _ _ h (congrArg (Prod.mk true) (udpStep_pubs hr).1), rfl, rfl, rfl, rfl⟩
  | request i l reqs wakeups order steps q h hq => exact ⟨map_set_same _ _ h rfl, rfl, rfl, rfl, rfl⟩
  | http i j l l' reqs wakeups order todo r e h hj ht hr =>
    apply SameSetup.publish; exact ⟨map_set_same _ _ h (congrArg (Prod.mk false) (httpStep_pubs hr).1), rfl, rfl, rfl, rfl⟩
  | wake i l l' reqs wakeups order t t2 fail h hr =>
    apply SameSetup.publish; exact ⟨map_set_same _ _ h (congrArg (Prod.mk false) (httpStep_pubs hr).1), rfl, rfl, rfl, rfl⟩
  | filterIn c h => exact ⟨rfl, rfl, Group.step_fixed h, rfl, rfl⟩
  | filterTake f m c hw h => exact ⟨rfl, rfl, h.changed.fixed, rfl, rfl⟩
  | filterDo f m now fail w' st' pubs c hw hr h => apply SameSetup.publish; exact ⟨rfl, rfl, h.changed.fixed, rfl, rfl⟩
  | downIn i x c hx h => exact ⟨rfl, rfl, rfl, map_set_same _ _ hx (by dsimp only; rw [Group.step_fixed h]), rfl⟩
  | downTake i x m c clk now ord fail k w' hx hr h =>
    apply SameSetup.publish; exact ⟨rfl, rfl, rfl, map_set_same _ _ hx (by dsimp only; rw [h.changed.fixed]), rfl⟩
  | downTimeout i x c now ord fail k w' hx hr h =>
    apply SameSetup.publish; exact ⟨rfl, rfl, rfl, map_set_same _ _ hx (by dsimp only; rw [h.changed.fixed]), rfl⟩
  | writerIn i x c hx h => exact ⟨rfl, rfl, rfl, rfl, map_set_same _ _ hx (by dsimp only; rw [Group.step_fixed h])⟩
  | writerTake i x m c k k' hx hr hm h => exact ⟨rfl, rfl, rfl, rfl, map_set_same _ _ hx (by dsimp only; rw [h.changed.fixed])⟩
  | writer i x c k k' hx hr hm h => exact ⟨rfl, rfl, rfl, rfl, map_set_same _ _ hx (by dsimp only; rw [h.changed.fixed])⟩

theorem mem_of_map {α : Type u} {β : Type v} {f : α → β} {l k : List α} (h : k.map f = l.map f) {a : α} (ha : a ∈ k) : ∃ b ∈ l, f b = f a := by
  have : f a ∈ l.map f := by rw [← h]; exact List.mem_map_of_mem ha
  obtain ⟨b, hb, he⟩ := List.mem_map.1 this
  exact ⟨b, hb, he⟩

theorem SameSetup.acyclic (h : SameSetup s s') (A : s.Acyclic) : s'.Acyclic := by
  refine ⟨A.rules, A.junk, ?_⟩
  intro y hy
  obtain ⟨y0, h0, e0⟩ := mem_of_map h.downs hy
  simp only [Prod.mk.injEq] at e0
  obtain ⟨a1, a2⟩ := A.downs y0 h0
  refine ⟨by rw [← e0.2.1]; exact a1, ?_⟩
  intro z hz
  obtain ⟨z0, h1, e1⟩ := mem_of_map h.downs hz
  simp only [Prod.mk.injEq] at e1
  rw [← e0.2.1, ← e1.1, ← e0.1]
  exact a2 z0 h1

theorem SameSetup.small (h : SameSetup s s') (A : SmallBatches s) : SmallBatches s' := by
  intro l got hl
  rcases List.mem_append.1 hl with hl | hl
  · obtain ⟨y, hy, e⟩ := mem_of_map h.listeners hl
    cases y with
    | udp l0 got0 =>
      have e : l0.conf = l.conf := by simpa [LComp.kind] using e
      rw [← e]
      exact A l0 got0 (List.mem_append_left _ hy)
    | http => simp [LComp.kind] at e
  · rw [h.crashed] at hl
    exact A l got (List.mem_append_right _ hl)

/-! ## Runs that keep everything fine -/

/-- Any number of steps without input. -/
inductive QRun (d : Setup) (s0 : State d) : State d → Prop
  | refl : QRun d s0 s0
  | step {s s' : State d} : QRun d s0 s → Step d s s' → s'.listeners.map LComp.input = s.listeners.map LComp.input → QRun d s0 s'

theorem QRun.run (h : QRun d s0 s) : Run d s0 s := by
  induction h with
  | refl => exact .refl
  | step _ h _ ih => exact ih.step h

/-- A state that can be reached from `s0` and is still running and, if `F`, fine. -/
structure Can (F : Prop) (sent : List (List Bytes)) (s0 s : State d) : Prop where
  path : QRun d s0 s
  same : SameSetup s0 s
  lost : SameLost s0 s
  inv : Inv s
  running : s.Running
  acyclic : s.Acyclic
  fine : F → s.Fine sent ∧ SmallBatches s

variable {F : Prop} {sent : List (List Bytes)}

theorem Can.reach (C : Can F sent s0 s) : Run d s0 s := C.path.run

theorem Can.step (C : Can F sent s0 s) (h : Step d s s') (L : SameLost s s') (R : s'.Running) (hF : F → s'.Fine sent) : Can F sent s0 s' :=
  ⟨C.path.step h L.input, C.same.trans (step_same h), C.lost.trans L, inv_step C.inv h, R, (step_same h).acyclic C.acyclic,
    fun f => ⟨hF f, (step_same h).small (C.fine f).2⟩⟩

theorem State.Running.publish (R : s.Running) (ms : List (Bytes × Bytes)) : (s.publish ms).Running := by
  refine ⟨R.filters.add ms, ?_, ?_⟩
  · intro y hy
    obtain ⟨z, hz, rfl⟩ := List.mem_map.1 hy
    exact ⟨(R.downs z hz).1.add ms, (R.downs z hz).2⟩
  · intro y hy
    obtain ⟨z, hz, rfl⟩ := List.mem_map.1 hy
    exact ⟨(R.writers z hz).1.add ms, (R.writers z hz).2⟩

theorem State.Fine.publish (G : s.Fine sent) (ms : List (Bytes × Bytes)) : (s.publish ms).Fine sent :=
  ⟨G.sent, G.published, G.will, G.timely⟩

/-! ## Listeners -/

theorem sendBatch_fine {l l' : Listener} {fail : Nat → Bool} {now : Int} (h : l.sendBatch fail now = .ok l') (hf : ∀ k, fail k = false)
    (hp : ∀ p ∈ l.pubs, p.failed = false) : ∀ p ∈ l'.pubs, p.failed = false := by
  unfold Listener.sendBatch at h
  split at h
  · injection h with h; subst h; exact hp
  · cases hs : splitAll l.batch.bytes maxNATSMsgSize with
    | panic => rw [hs] at h; cases h
    | ok chunks =>
      rw [hs] at h
      injection h with h
      subst h
      intro p hm
      rcases List.mem_append.1 hm with hm | hm
      · exact hp p hm
      · obtain ⟨x, -, rfl⟩ := List.mem_map.1 hm
        exact hf x.2

theorem maybeSend_fine {l l' : Listener} {fail : Nat → Bool} {t now : Int} (h : l.maybeSendBatch t fail now = .ok l') (hf : ∀ k, fail k = false)
    (hp : ∀ p ∈ l.pubs, p.failed = false) : ∀ p ∈ l'.pubs, p.failed = false := by
  unfold Listener.maybeSendBatch at h
  split at h
  · exact sendBatch_fine h hf hp
  · injection h with h; subst h; exact hp

theorem httpStep_fine {l l' : Listener} {e : HTTPEvent} (h : l.httpStep e = .ok l') (hf : ∀ t f t2, e = .maybeSend t f t2 ∨ e = .oldBatch t f t2 → ∀ k, f k = false)
    (hp : ∀ p ∈ l.pubs, p.failed = false) : ∀ p ∈ l'.pubs, p.failed = false := by
  cases e with
  | body r now =>
    simp only [Listener.httpStep] at h
    cases hb : l.batch.readFrom r now with
    | panic => rw [hb] at h; cases h
    | ok x => rw [hb] at h; obtain ⟨b, n⟩ := x; injection h with h; subst h; exact hp
  | line data now =>
    simp only [Listener.httpStep] at h
    cases hb : l.batch.append data now with
    | panic => rw [hb] at h; cases h
    | ok b => rw [hb] at h; injection h with h; subst h; exact hp
  | maybeSend t fail t2 =>
    exact maybeSend_fine (l := { l with stats := { l.stats with received := l.stats.received + 1 } }) h (hf t fail t2 (Or.inl rfl)) hp
  | readErr => injection h with h; subst h; exact hp
  | oldBatch t fail t2 =>
    simp only [Listener.httpStep] at h
    split at h
    · exact sendBatch_fine h (hf t fail t2 (Or.inr rfl)) hp
    · injection h with h; subst h; exact hp

/-- A UDP listener sends its batch. -/
theorem udp_flush {l : Listener} {got : List UDPEvent} (h : LOK (.udp l got)) : ∃ e l', l.udpStep e = .ok l' ∧ e.data = [] ∧ l'.batch.bytes = [] ∧
    ((∀ p ∈ l.pubs, p.failed = false) → ∀ p ∈ l'.pubs, p.failed = false) := by
  cases h with
  | udp c t0 _ _ hr hl hc =>
    obtain ⟨l1, h1, hU, -⟩ := udp_run got _ (uinv_new c t0) (fun e he => Nat.le_trans (hl e he) (by decide))
    rw [hr] at h1
    injection h1 with h1
    subst h1
    obtain ⟨l2, h2, hT⟩ := udp_run_tracks c t0 got (fun e he => Nat.le_trans (hl e he) (by decide))
    rw [hr] at h2
    injection h2 with h2
    subst h2
    let e : UDPEvent := ⟨[], false, 0, l.batch.created + l.conf.batchMaxAge, 0, fun _ => false⟩
    obtain ⟨l1, e1, i1, c1, p1, b1, -, -, w1, t1⟩ := udp_read l e hU (Nat.zero_le _)
    have hb1 : l1.batch.buf = l.batch.buf := by rw [b1]; simp [e, completed]
    obtain ⟨l', hsend⟩ : ∃ l', l1.sendBatch e.fail e.tReset = .ok l' := by
      obtain ⟨l', h, -⟩ := sendBatch_inv l1 e.fail e.tReset i1
      exact ⟨l', h⟩
    have hempty : ∀ l', l1.sendBatch e.fail e.tReset = .ok l' → l'.batch.bytes = [] := by
      intro l' h
      obtain ⟨l3, h3, -, -, h4, -⟩ := sendBatch_inv l1 e.fail e.tReset i1
      rw [h] at h3
      injection h3 with h3
      subst h3
      exact h4
    have hpub : ∀ l', l1.maybeSendBatch e.tCheck e.fail e.tReset = .ok l' → (∀ p ∈ l.pubs, p.failed = false) → ∀ p ∈ l'.pubs, p.failed = false :=
      fun l' h hp => maybeSend_fine h (fun _ => rfl) (by rw [p1]; exact hp)
    cases hsh : l1.shouldSend e.tCheck with
    | true =>
      have : l1.maybeSendBatch e.tCheck e.fail e.tReset = .ok l' := by unfold Listener.maybeSendBatch; rw [hsh]; exact hsend
      exact ⟨e, l', by rw [e1]; exact this, rfl, hempty l' hsend, hpub l' this⟩
    | false =>
      have : l1.maybeSendBatch e.tCheck e.fail e.tReset = .ok l1 := by unfold Listener.maybeSendBatch; rw [hsh]; rfl
      refine ⟨e, l1, by rw [e1]; exact this, rfl, ?_, hpub l1 this⟩
      refine Classical.byContradiction fun hne => ?_
      have hne : l.batch.buf ≠ [] := fun h => hne (by show l1.batch.buf = []; rw [hb1, h])
      have hw : l.batch.writes ≠ 0 := by
        intro h0
        rw [hT.writes] at h0
        apply hne
        rw [hT.buf, List.length_eq_zero_iff.1 h0]
        rfl
      have e2 : l1.batch.writes = l.batch.writes := by rw [w1]; simp [e]
      have e3 : l1.batch.created = l.batch.created := by rw [t1]; simp [e]
      have hage : l1.batch.age e.tCheck ≥ l1.conf.batchMaxAge := by
        unfold Batch.age
        rw [if_neg (by omega), e3, c1]
        show (l.batch.created + l.conf.batchMaxAge) - _ ≥ _
        omega
      unfold Listener.shouldSend at hsh
      split at hsh
      · cases hsh
      · cases hsh

theorem http_run_tracks (c : LConf) (es : List HTTPEvent) : ∀ (l : Listener) (s : BState), Listener.Inv l → l.conf = c → Tracks l s →
    ∃ l', httpRun l es = .ok l' ∧ Tracks l' (brun c.limits s (es.flatMap httpOps)) := by
  induction es with
  | nil => intro l s _ _ h; exact ⟨l, rfl, h⟩
  | cons e es ih =>
    intro l s I hc h
    obtain ⟨l1, h1, h2⟩ := http_tracks I h e
    obtain ⟨l1', g1, g2, g3, -⟩ := http_step l e I
    rw [h1] at g1
    injection g1 with g1
    subst g1
    rw [hc] at h2
    obtain ⟨l2, k1, k2⟩ := ih l1 _ g2 (g3.trans hc) h2
    refine ⟨l2, by rw [httpRun, h1, Go.ok_bind, k1], ?_⟩
    rw [List.flatMap_cons, brun_append]
    exact k2

theorem http_ok {l : Listener} {reqs : List HReq} {wakeups order : List HTTPEvent} (h : LOK (.http l reqs wakeups order)) :
    Listener.Inv l ∧ (l.batch.buf ≠ [] → l.batch.writes ≠ 0) := by
  cases h with
  | http c t0 _ _ _ _ hr hq hw ho =>
    obtain ⟨l1, h1, hI, -⟩ := http_run order _ (inv_new c t0)
    rw [hr] at h1
    injection h1 with h1
    subst h1
    obtain ⟨l2, h2, hT⟩ := http_run_tracks c order _ _ (inv_new c t0) rfl (tracks_new c t0)
    rw [hr] at h2
    injection h2 with h2
    subst h2
    refine ⟨hI, fun hne h0 => hne ?_⟩
    rw [hT.writes] at h0
    rw [hT.buf, List.length_eq_zero_iff.1 h0]
    rfl

/-- An HTTP listener sends its batch. -/
theorem http_flush {l : Listener} (I : Listener.Inv l) (hw : l.batch.buf ≠ [] → l.batch.writes ≠ 0) :
    ∃ t l', l.httpStep (.oldBatch t (fun _ => false) 0) = .ok l' ∧ l'.batch.bytes = [] := by
  refine ⟨l.batch.created + l.conf.batchMaxAge, ?_⟩
  show ∃ l', (if l.batch.age (l.batch.created + l.conf.batchMaxAge) ≥ l.conf.batchMaxAge then l.sendBatch (fun _ => false) 0 else .ok l) = .ok l' ∧ _
  split
  · obtain ⟨l', h, -, -, h4, -⟩ := sendBatch_inv l (fun _ => false) 0 I
    exact ⟨l', h, h4⟩
  · rename_i hn
    refine ⟨l, rfl, Classical.byContradiction fun hne => hn ?_⟩
    have := hw hne
    unfold Batch.age
    rw [if_neg (by omega)]
    omega

theorem request_fail {q : HTTPReq} {steps : List HTTPEvent} (h : requestSteps q = .ok steps) {e : HTTPEvent} (he : e ∈ steps) :
    ∀ t f t2, e = .maybeSend t f t2 ∨ e = .oldBatch t f t2 → f = q.fail := by
  unfold requestSteps at h
  intro t f t2 hf
  split at h
  · injection h with h
    subst h
    rcases List.mem_cons.1 he with rfl | he
    · simp at hf
    · rcases List.mem_append.1 he with he | he
      · split at he
        · rw [List.mem_singleton] at he; subst he; simp at hf; exact hf.2.1.symm
        · cases he
      · split at he
        · rw [List.mem_singleton] at he; subst he; simp at hf
        · cases he
  · dsimp only at h
    cases hp : precisionLines q.precision (scanTokens (splitAfterNL q.bytes)).1 with
    | panic => rw [hp] at h; cases h
    | ok lines =>
      rw [hp] at h
      injection h with h
      subst h
      rcases List.mem_append.1 he with he | he
      · obtain ⟨x, -, rfl⟩ := List.mem_map.1 he
        simp at hf
      · rcases List.mem_append.1 he with he | he
        · split at he
          · rw [List.mem_singleton] at he; subst he; simp at hf; exact hf.2.1.symm
          · cases he
        · split at he
          · rw [List.mem_singleton] at he; subst he; simp at hf
          · cases he

theorem each2_set {α β : Type} {R : α → β → Prop} {l : List α} {k : List β} (h : Each2 R l k) : ∀ {i : Nat} {a a' : α}, l[i]? = some a →
    (∀ b, R a b → R a' b) → Each2 R (l.set i a') k := by
  induction h with
  | nil => intro i a a' hi; simp at hi
  | cons h hs ih =>
    intro i a a' hi hR
    cases i with
    | zero =>
      simp only [List.getElem?_cons_zero, Option.some.injEq] at hi
      subst hi
      exact .cons (hR _ h) hs
    | succ i => exact .cons h (ih hi hR)

/-- A listener makes a step. -/
theorem Can.listener {i : Nat} {x y : LComp} {ms : List (Bytes × Bytes)} (C : Can F sent s0 s) (hx : s.listeners[i]? = some x)
    (h : Step d s (({ s with listeners := s.listeners.set i y } : State d).publish ms)) (hs : ∀ ls, Sent x ls → Sent y ls)
    (hp : x.Will → (∀ q ∈ x.l.pubs, q.failed = false) → ∀ q ∈ y.l.pubs, q.failed = false) (hw : x.Will → y.Will) (hin : y.input = x.input) :
    Can F sent s0 (({ s with listeners := s.listeners.set i y } : State d).publish ms) := by
  have hL : SameLost s ({ s with listeners := s.listeners.set i y } : State d) := ⟨map_set_same y _ hx hin, rfl, rfl, rfl⟩
  refine C.step h (hL.publish ms) ?_ ?_
  · refine State.Running.publish ?_ ms
    exact ⟨C.running.filters, C.running.downs, C.running.writers⟩
  · intro f
    obtain ⟨G, -⟩ := C.fine f
    refine State.Fine.publish ?_ ms
    have hwx := G.will x (get_mem hx)
    obtain ⟨he, hxs⟩ := sources_set y hx
    refine ⟨?_, ⟨?_, G.published.2⟩, all_set G.will (hw hwx), G.timely⟩ <;> rw [he]
    · exact each2_set G.sent hxs hs
    · exact all_set G.published.1 (hp hwx (G.published.1 x (get_mem hxs)))

theorem will_set {reqs : List HReq} {j : Nat} {r : HReq} {e : HTTPEvent} {todo done : List HTTPEvent} (hj : reqs[j]? = some r)
    (ht : r.todo = e :: todo) (h : ∀ r ∈ reqs, r.todo ≠ [] → ∀ k, r.req.fail k = false) :
    ∀ r' ∈ reqs.set j ⟨r.req, done, todo⟩, r'.todo ≠ [] → ∀ k, r'.req.fail k = false :=
  all_set (b := ⟨r.req, done, todo⟩) h fun _ => h r (get_mem hj) (by rw [ht]; simp)

/-- An HTTP listener reads its requests. -/
theorem read_all {i : Nat} {wakeups : List HTTPEvent} (n : Nat) : ∀ {s : State d} {l : Listener} {reqs : List HReq} {order : List HTTPEvent},
    Can F sent s0 s → s.listeners[i]? = some (.http l reqs wakeups order) → (reqs.map fun r => r.todo.length).sum = n →
    ∃ s' l' reqs' order', Can F sent s0 s' ∧ s'.listeners = s.listeners.set i (.http l' reqs' wakeups order') ∧ ∀ r ∈ reqs', r.todo = [] := by
  induction n with
  | zero =>
    intro s l reqs order C hi hn
    refine ⟨s, l, reqs, order, C, ?_, fun r hr => List.length_eq_zero_iff.1 (sum_zero (fun r : HReq => r.todo.length) hn r hr)⟩
    exact (set_same hi).symm
  | succ n ih =>
    intro s l reqs order C hi hn
    obtain ⟨j, r, hj, hr⟩ := sum_pos (fun r : HReq => r.todo.length) (l := reqs) (by omega)
    obtain ⟨e, todo, ht⟩ := List.exists_cons_of_length_pos hr
    have hok := C.inv.listeners _ (List.mem_append_left _ (get_mem hi))
    obtain ⟨l', h1, -⟩ := http_step l e (http_ok hok).1
    have hst := Step.http s i j l l' reqs wakeups order todo r e hi hj ht h1
    have hreq : ∃ steps, requestSteps r.req = .ok steps ∧ e ∈ steps := by
      cases hok with
      | http c t0 _ _ _ _ _ hq _ _ => exact ⟨_, hq r (get_mem hj), List.mem_append_right _ (by rw [ht]; simp)⟩
    obtain ⟨steps, hq, he⟩ := hreq
    have C' := C.listener hi hst (by
        intro ls hs
        cases hs with
        | http _ _ _ _ lss h => exact .http _ _ _ _ lss (each2_set h hj fun _ h => h))
      (fun hw hp => httpStep_fine h1 (fun t f t2 hf k => by
        rw [request_fail hq he t f t2 hf]
        exact hw r (get_mem hj) (by rw [ht]; simp) k) hp)
      (fun hw => will_set (done := r.done ++ [e]) hj ht hw) (congrArg (Prod.mk []) (map_set_same _ _ hj rfl))
    have hi' : (({ s with listeners := s.listeners.set i (.http l' (reqs.set j ⟨r.req, r.done ++ [e], todo⟩) wakeups (order ++ [e])) } : State d).publish
        (outOn d.lsub (l'.pubs.drop l.pubs.length))).listeners[i]? = some (.http l' (reqs.set j ⟨r.req, r.done ++ [e], todo⟩) wakeups (order ++ [e])) :=
      List.getElem?_set_self (List.getElem?_eq_some_iff.1 hi).1
    obtain ⟨s', l2, reqs2, order2, C2, h2, h3⟩ := ih C' hi' (by
      have := sum_set (fun r : HReq => r.todo.length) ⟨r.req, r.done ++ [e], todo⟩ hj
      rw [ht] at this
      simp only [List.length_cons] at this
      omega)
    refine ⟨s', l2, reqs2, order2, C2, ?_, h3⟩
    rw [h2]
    show (s.listeners.set i _).set i _ = _
    rw [List.set_set]

/-- A listener finishes. -/
theorem finish_listener {i : Nat} {x : LComp} (C : Can F sent s0 s) (hx : s.listeners[i]? = some x) :
    ∃ s' y, Can F sent s0 s' ∧ s'.listeners = s.listeners.set i y ∧ y.Done := by
  cases x with
  | udp l got =>
    obtain ⟨e, l', h1, h2, h3, h4⟩ := udp_flush (C.inv.listeners _ (List.mem_append_left _ (get_mem hx)))
    have hst := Step.udp s i l l' got e hx (by rw [h2]; exact Nat.zero_le _) h1
    refine ⟨_, _, C.listener hx hst ?_ (fun _ => h4) (fun _ => trivial) (by simp [LComp.input, h2]), rfl, h3⟩
    intro ls hs
    cases hs
    have : sentLines got = sentLines (got ++ [e]) := by
      unfold sentLines
      rw [List.flatMap_append, List.flatMap_cons, h2]
      simp [completed, linesOf_nil]
    rw [this]
    exact .udp _ _
  | http l reqs wakeups order =>
    obtain ⟨s1, l1, reqs1, order1, C1, h1, h2⟩ := read_all _ C hx rfl
    have hi : s1.listeners[i]? = some (.http l1 reqs1 wakeups order1) := by
      rw [h1]; exact List.getElem?_set_self (List.getElem?_eq_some_iff.1 hx).1
    obtain ⟨hI, hw⟩ := http_ok (C1.inv.listeners _ (List.mem_append_left _ (get_mem hi)))
    obtain ⟨t, l', h3, h4⟩ := http_flush hI hw
    have hst := Step.wake s1 i l1 l' reqs1 wakeups order1 t 0 _ hi h3
    refine ⟨_, .http l' reqs1 (wakeups ++ [.oldBatch t (fun _ => false) 0]) (order1 ++ [.oldBatch t (fun _ => false) 0]),
      C1.listener hi hst ?_ (fun _ hp => httpStep_fine h3 (fun t f t2 hf k => ?_) hp) (fun h => h) rfl, ?_, ⟨h4, h2⟩⟩
    · intro ls hs
      cases hs with
      | http _ _ _ _ lss h => exact .http _ _ _ _ lss h
    · simp only [reduceCtorEq, HTTPEvent.oldBatch.injEq, false_or] at hf
      rw [← hf.2.1]
    · show s1.listeners.set i _ = _
      rw [h1, List.set_set]

/-- All listeners finish. -/
theorem finish_listeners (C : Can F sent s0 s) (n : Nat) :
    ∃ s', Can F sent s0 s' ∧ ∀ j < n, ∀ y, s'.listeners[j]? = some y → y.Done := by
  induction n with
  | zero => exact ⟨s, C, fun j hj => by omega⟩
  | succ n ih =>
    obtain ⟨s1, C1, h1⟩ := ih
    cases hx : s1.listeners[n]? with
    | none =>
      refine ⟨s1, C1, fun j hj y hy => ?_⟩
      by_cases hjn : j = n
      · subst hjn; rw [hx] at hy; cases hy
      · exact h1 j (by omega) y hy
    | some x =>
      obtain ⟨s2, y0, C2, h2, h3⟩ := finish_listener C1 hx
      refine ⟨s2, C2, fun j hj y hy => ?_⟩
      rw [h2] at hy
      by_cases hjn : n = j
      · subst hjn
        rw [List.getElem?_set_self (List.getElem?_eq_some_iff.1 hx).1] at hy
        injection hy with hy
        subst hy
        exact h3
      · rw [List.getElem?_set_ne hjn] at hy
        exact h1 j (by omega) y hy

end Spout.Deploy
