import Verif.Props.DeploymentInv

/-! # Every line in a deployment (C88 for every reachable state) -/

set_option linter.unusedSimpArgs false

namespace Spout.Deploy
open Spout Spout.Listener Spout.Pool Spout.Spec Spout.Delivery

universe u

/-! ## Specification -/

/-- The lines a listener was sent: those of the datagrams, each completed with a newline; those of the bodies of its requests
(`Delivers`: complete lines of at most one MiB, converted to nanoseconds). -/
inductive Sent : LComp → List Bytes → Prop
  | udp (l : Listener) (got : List UDPEvent) : Sent (.udp l got) (sentLines got)
  | http (l : Listener) (reqs : List HReq) (wakeups order : List HTTPEvent) (lss : List (List Bytes))
      (h : Each2 (fun r ls => Delivers r.req ls) reqs lss) : Sent (.http l reqs wakeups order) lss.flatten

/-- The lines in a listener: in its batch, and in requests that it has not finished reading. -/
def LComp.holds : LComp → List Bytes
  | .udp l _ => linesOf l.batch.bytes
  | .http l reqs _ _ => linesOf l.batch.bytes ++ reqs.flatMap fun r => r.todo.flatMap fun e => linesOf (contrib e)

/-- The messages between the publishers and the workers of some processes: not yet passed on by NATS, dropped, published before the subscription, or in a queue (also of a crashed process). -/
def Group.onTheWay {W : Type u} (c : Group W) : List Bytes := inQueues (c.all.map (·.queue)) ++ c.away

variable {d : Setup}

/-- The subjects do not get in each other's way: nobody but the listeners publishes to the filters, and nobody but the filters to the writer. -/
structure Separate (s : State d) (x : WComp) : Prop where
  rules : ∀ r ∈ d.rules, r.subject ≠ d.lsub
  junk : d.junk ≠ d.lsub
  downs : ∀ y ∈ s.downs, y.out ≠ d.lsub ∧ y.out ∉ x.subjects
  writer : d.lsub ∉ x.subjects

/-- `batch_max_size` of the UDP listeners is at most the size of a NATS message. -/
def SmallBatches (s : State d) : Prop := ∀ l got, LComp.udp l got ∈ s.sources → l.conf.batchMaxSize ≤ 1048576

/-- No publish of a listener or filter has failed. -/
def State.NoFailure (s : State d) : Prop :=
  (∀ y ∈ s.sources, ∀ q ∈ y.l.pubs, q.failed = false) ∧ ∀ f ∈ s.filters.workers, ∀ q ∈ f.pubss.flatten, q.failed = false

/-- The lines processed so far were in the filter's time window. -/
def State.Timely (s : State d) : Prop :=
  0 < d.delta ∧ ∀ f ∈ s.filters.workers, ∀ m ∈ f.past, InInt64 (m.now - d.delta) ∧ InInt64 (m.now + d.delta) ∧
    ∀ line ∈ linesOf m.data, Delivery.Timely m.now d.delta line

/-- The texts for the writer of some lines. -/
abbrev textsFor (d : Setup) (x : WComp) (lines : List Bytes) : List Bytes := lines.flatMap (textsTo d.S d.rules d.junk x.subjects)

/-- Nothing is under way to the writer: the listeners hold nothing, the filters are idle, NATS and the queues are empty, no message was dropped,
and the workers have sent all they received. -/
structure Quiet (s : State d) (x : WComp) : Prop where
  listeners : ∀ y ∈ s.sources, y.holds = []
  filters : s.filters.onTheWay = []
  working : ∀ f ∈ s.filters.workers, f.working = none
  writers : x.inp.onTheWay = []
  unsent : ∀ k ∈ x.inp.workers, unsentBytes k = []

/-- The subjects of the `i`-th downsampler and of a writer of its output do not get in the way of others. -/
structure SeparateArchive (s : State d) (i : Nat) (y : DComp d.fo) (x : WComp) : Prop where
  rules : ∀ r ∈ d.rules, r.subject ≠ d.lsub ∧ r.subject ≠ y.out
  junk : d.junk ≠ d.lsub ∧ d.junk ≠ y.out
  downs : ∀ z ∈ s.downs, z.out ≠ d.lsub ∧ z.out ≠ y.subject
  others : ∀ (j : Nat) (z : DComp d.fo), s.downs[j]? = some z → z.out = y.out → j = i
  subject : d.lsub ≠ y.subject ∧ d.lsub ≠ y.out
  writer : x.subjects = [y.out]

/-! ## Proofs -/

variable {s0 s : State d} {x : WComp}

theorem onSubj_outF (subj : Bytes) (pubs : List Pub) : onSubj subj (outF pubs) = Delivery.published subj pubs := by
  unfold onSubj outF Delivery.published
  rw [List.filter_map, List.map_map, List.filter_filter]
  have : (fun a : Pub => ((fun m : Bytes × Bytes => decide (m.1 = subj)) ∘ fun p : Pub => (p.subject, p.data)) a && !a.failed) =
      fun p : Pub => !p.failed && decide (p.subject = subj) := by
    funext a; simp [Bool.and_comm]
  rw [this]
  rfl

theorem onSubj_outOn (subj out : Bytes) (pubs : List LPub) :
    onSubj subj (outOn out pubs) = if out = subj then (pubs.filter fun p => !p.failed).map (·.data) else [] := by
  unfold onSubj outOn
  split
  · rename_i h
    rw [List.filter_eq_self.2, List.map_map]
    · rfl
    · intro m hm
      obtain ⟨p, -, rfl⟩ := List.mem_map.1 hm
      exact decide_eq_true h
  · rename_i h
    rw [List.filter_eq_nil_iff.2]
    · rfl
    · intro m hm
      obtain ⟨p, -, rfl⟩ := List.mem_map.1 hm
      simpa using h

theorem onSubj_flatMap {α : Type u} (subj : Bytes) (l : List α) (f : α → List (Bytes × Bytes)) :
    onSubj subj (l.flatMap f) = l.flatMap fun a => onSubj subj (f a) := by
  induction l with
  | nil => rfl
  | cons a l ih => rw [List.flatMap_cons, onSubj_append, ih, List.flatMap_cons]

/-- A filter publishes on the subjects of its rules and on the junk subject only. -/
theorem filter_subjects {S : Sorter} {delta : Int} {rules : List Rule} {junk subj : Bytes} {ms : List FMsg} {w : FWorker} {st : FStats}
    {pubss : List (List Pub)} (h : filterRun S (FWorker.new delta rules junk) (FStats.init rules.length) ms = .ok (w, st, pubss))
    (hr : ∀ r ∈ rules, r.subject ≠ subj) (hj : junk ≠ subj) : Delivery.published subj pubss.flatten = [] := by
  obtain ⟨st', pubss', h1, h2⟩ := C16_history S delta rules junk ms
  rw [h] at h1
  injection h1 with h1
  simp only [Prod.mk.injEq] at h1
  obtain ⟨-, -, rfl⟩ := h1
  unfold Delivery.published
  rw [List.filter_eq_nil_iff.2]
  · rfl
  · intro p hp hs
    simp only [Bool.and_eq_true, decide_eq_true_eq] at hs
    obtain ⟨pubs, hpubs, hp⟩ := List.mem_flatten.1 hp
    have h3 : pubs.map (fun p => (p.subject, p.data)) ∈ ms.map (fun m => expectedPubs rules junk (outcomes S rules delta m.now m.data)) := by
      rw [← h2]; exact List.mem_map_of_mem hpubs
    obtain ⟨m, -, hm⟩ := List.mem_map.1 h3
    have h4 : (p.subject, p.data) ∈ expectedPubs rules junk (outcomes S rules delta m.now m.data) := by
      rw [hm]; exact List.mem_map_of_mem hp
    unfold expectedPubs at h4
    rcases List.mem_append.1 h4 with h4 | h4
    · have := (List.of_mem_zip (List.mem_filter.1 h4).1).1
      obtain ⟨r, hr1, hr2⟩ := List.mem_map.1 this
      exact hr r hr1 (hr2.trans hs.2)
    · split at h4
      · cases h4
      · rw [List.mem_singleton] at h4
        injection h4 with h4
        exact hj (h4.symm.trans hs.2)

/-- The listener as a source of the system. -/
def asSource (y : LComp) (sent : List Bytes) : Source :=
  match y with
  | .udp l _ => ⟨sent, l.pubs, l.batch.bytes, []⟩
  | .http l reqs _ _ => ⟨sent, l.pubs, l.batch.bytes, reqs.flatMap fun r => r.todo.flatMap fun e => linesOf (contrib e)⟩

theorem each2_mem {α β : Type} {R : α → β → Prop} {l : List α} {k : List β} (h : Each2 R l k) : ∀ z ∈ l.zip k, R z.1 z.2 := by
  induction h with
  | nil => intro z hz; cases hz
  | cons h _ ih =>
    intro z hz
    rw [List.zip_cons_cons] at hz
    rcases List.mem_cons.1 hz with rfl | hz
    · exact h
    · exact ih z hz

theorem each2_length {α β : Type} {R : α → β → Prop} {l : List α} {k : List β} (h : Each2 R l k) : l.length = k.length := by
  induction h with
  | nil => rfl
  | cons h _ ih => rw [List.length_cons, List.length_cons, ih]

theorem zip_fst {α β γ : Type} (f : α → List γ) : ∀ (l : List α) (k : List β), l.length = k.length → ((l.zip k).flatMap fun z => f z.1) = l.flatMap f
  | [], [], _ => rfl
  | a :: l, b :: k, h => by
    rw [List.zip_cons_cons, List.flatMap_cons, List.flatMap_cons, zip_fst f l k (Nat.succ.inj h)]

theorem zip_snd {α β γ : Type} (f : β → List γ) : ∀ (l : List α) (k : List β), l.length = k.length → ((l.zip k).flatMap fun z => f z.2) = k.flatMap f
  | [], [], _ => rfl
  | a :: l, b :: k, h => by
    rw [List.zip_cons_cons, List.flatMap_cons, List.flatMap_cons, zip_snd f l k (Nat.succ.inj h)]

theorem asSource_run {y : LComp} {sent : List Bytes} (hl : LOK y) (hs : Sent y sent) (hb : ∀ l got, y = .udp l got → l.conf.batchMaxSize ≤ 1048576) :
    ListenerRun (asSource y sent) := by
  cases hl with
  | udp c t0 l got hr hlen hc =>
    cases hs
    exact .udp c t0 got l (by rw [← hc]; exact hb l got rfl) hlen hr
  | http c t0 l reqs wakeups order hr hq hw ho =>
    cases hs with
    | http _ _ _ _ lss h =>
      have hlen := each2_length h
      have e1 : (reqs.zip lss).flatMap (fun z => z.1.done) = reqs.flatMap (·.done) := zip_fst _ _ _ hlen
      have e2 : (reqs.zip lss).flatMap (fun z => z.1.todo.flatMap fun e => linesOf (contrib e)) =
        reqs.flatMap fun r => r.todo.flatMap fun e => linesOf (contrib e) := zip_fst (fun r => r.todo.flatMap fun e => linesOf (contrib e)) _ _ hlen
      have e3 : (reqs.zip lss).flatMap (fun z => z.2) = lss.flatten := (zip_snd id _ _ hlen).trans (by simp)
      have := ListenerRun.http c t0 ((reqs.zip lss).map fun z => (⟨z.1.req, z.2, z.1.done, z.1.todo⟩ : InRequest)) wakeups order l
        (by
          intro r hr
          obtain ⟨z, hz, rfl⟩ := List.mem_map.1 hr
          exact hq z.1 (List.of_mem_zip hz).1)
        (by
          intro r hr
          obtain ⟨z, hz, rfl⟩ := List.mem_map.1 hr
          exact each2_mem h z hz)
        hw (by rw [List.flatMap_map]; dsimp only; rw [e1]; exact ho) hr
      rw [List.flatMap_map, List.flatMap_map] at this
      dsimp only at this
      rw [e2, e3] at this
      exact this

theorem flatMap_attach {α : Type u} {β : Type} (l : List α) (f : α → List β) : (l.attach.flatMap fun a => f a.1) = l.flatMap f := by
  conv => rhs; rw [← List.attach_map_subtype_val l, List.flatMap_map]

theorem map_attach' {α : Type u} {β : Type} (l : List α) (f : α → β) : (l.attach.map fun a => f a.1) = l.map f := by
  conv => rhs; rw [← List.attach_map_subtype_val l, List.map_map]
  rfl

theorem flatMap_got {W : Type u} {P : Bytes → List Bytes} {subjects : List Bytes} {hist : W → List Bytes} {c : Group W} (I : GOK P subjects hist c) :
    ((c.all.map (·.queue)).flatMap fun q => q.got) = c.workers.map hist := by
  rw [List.flatMap_map]
  unfold Group.workers
  rw [List.map_flatMap]
  exact flatMap_congr' _ _ _ fun x hx => I.got x hx

/-- What the listeners have published. -/
theorem out_to_filters (I : Inv s) (hsep : Separate s x) :
    onSubj d.lsub s.out = s.sources.flatMap fun y => (y.l.pubs.filter fun p => !p.failed).map (·.data) := by
  unfold State.out
  rw [onSubj_append, onSubj_append, onSubj_flatMap, onSubj_flatMap, onSubj_flatMap]
  have e1 : (s.filters.workers.flatMap fun f => onSubj d.lsub (outF f.pubss.flatten)) = [] := by
    rw [List.flatMap_eq_nil_iff]
    intro f hf
    rw [onSubj_outF]
    exact filter_subjects (I.fran f hf) hsep.rules hsep.junk
  have e2 : (s.downs.flatMap fun y => onSubj d.lsub (y.inp.workers.flatMap fun k => outOn y.out k.w.pubs)) = [] := by
    rw [List.flatMap_eq_nil_iff]
    intro y hy
    rw [onSubj_flatMap, List.flatMap_eq_nil_iff]
    intro k _
    rw [onSubj_outOn, if_neg (hsep.downs y hy).1]
  rw [e1, e2, List.append_nil, List.append_nil]
  apply flatMap_congr'
  intro y _
  rw [onSubj_outOn, if_pos rfl]

/-- What the filters have published for the writer. -/
theorem out_to_writer (hsep : Separate s x) {subj : Bytes} (hs : subj ∈ x.subjects) :
    onSubj subj s.out = s.filters.workers.flatMap fun f => Delivery.published subj f.pubss.flatten := by
  unfold State.out
  rw [onSubj_append, onSubj_append, onSubj_flatMap, onSubj_flatMap, onSubj_flatMap]
  have e1 : (s.sources.flatMap fun y => onSubj subj (outOn d.lsub y.l.pubs)) = [] := by
    rw [List.flatMap_eq_nil_iff]
    intro y _
    rw [onSubj_outOn, if_neg fun h => hsep.writer (by rw [h]; exact hs)]
  have e2 : (s.downs.flatMap fun y => onSubj subj (y.inp.workers.flatMap fun k => outOn y.out k.w.pubs)) = [] := by
    rw [List.flatMap_eq_nil_iff]
    intro y hy
    rw [onSubj_flatMap, List.flatMap_eq_nil_iff]
    intro k _
    rw [onSubj_outOn, if_neg fun h => (hsep.downs y hy).2 (by rw [h]; exact hs)]
  rw [e1, e2, List.append_nil, List.nil_append]
  apply flatMap_congr'
  intro y _
  exact onSubj_outF _ _

/-- The part of the invariant about a writer. -/
abbrev WriterOK (s : State d) (x : WComp) : Prop :=
  GOK (fun subj => onSubj subj s.out) x.subjects (fun k => received k.hist) x.inp ∧ ∀ k ∈ x.inp.workers, WRun x.conf k

/-- A reachable state, as seen by the writer. -/
def systemOf (I : Inv s) (hx : WriterOK s x) (hsep : Separate s x) (hb : SmallBatches s) (sent : List (List Bytes))
    (hs : Each2 Sent s.sources sent) : System d.S d.delta d.rules d.junk x.subjects x.conf where
  listeners := (s.sources.zip sent).map fun z => asSource z.1 z.2
  toFilter := s.filters.away
  fqueues := s.filters.all.map (·.queue)
  filters := s.filters.workers.attach.map fun f => ⟨f.1.past, f.1.pubss, f.1.working.toList, ⟨_, _, I.fran f.1 f.2⟩⟩
  toWriter := x.inp.away
  wqueues := x.inp.all.map (·.queue)
  writers := x.inp.workers
  listened := by
    intro y hy
    obtain ⟨z, hz, rfl⟩ := List.mem_map.1 hy
    exact asSource_run (I.listeners z.1 (List.of_mem_zip hz).1) (each2_mem hs z hz) fun l got h => hb l got (h ▸ (List.of_mem_zip hz).1)
  fReach := by
    intro q hq
    obtain ⟨y, hy, rfl⟩ := List.mem_map.1 hq
    exact ⟨_, _, I.filters.run y hy⟩
  fArrived := by
    have := I.filters.all
    rw [List.flatMap_cons, List.flatMap_nil, List.append_nil, out_to_filters I hsep] at this
    rw [List.flatMap_map, List.flatMap_map]
    refine this.trans (List.Perm.of_eq ?_)
    rw [← zip_fst (fun y : LComp => (y.l.pubs.filter fun p => !p.failed).map (·.data)) _ _ (each2_length hs)]
    apply flatMap_congr'
    intro z _
    cases z.1 <;> rfl
  fGot := by
    rw [List.map_map]
    exact (flatMap_got I.filters).trans (map_attach' s.filters.workers FComp.taken).symm
  wReach := by
    intro q hq
    obtain ⟨y, hy, rfl⟩ := List.mem_map.1 hq
    exact ⟨_, _, hx.1.run y hy⟩
  wArrived := by
    have := hx.1.all
    rw [List.flatMap_map, List.flatMap_map]
    refine this.trans ?_
    rw [flatMap_attach s.filters.workers fun f => x.subjects.flatMap fun sub => Delivery.published sub f.pubss.flatten]
    refine List.Perm.trans (List.Perm.of_eq ?_) (flatMap_swap s.filters.workers x.subjects fun f sub => Delivery.published sub f.pubss.flatten).symm
    apply flatMap_congr'
    intro subj hsub
    exact out_to_writer hsep hsub
  wGot := flatMap_got hx.1
  written := hx.2

theorem systemOf_noFailure {I : Inv s} {hx : WriterOK s x} {hsep : Separate s x} {hb : SmallBatches s} {sent : List (List Bytes)}
    {hs : Each2 Sent s.sources sent} (h : s.NoFailure) : (systemOf I hx hsep hb sent hs).NoFailure := by
  constructor
  · intro y hy
    obtain ⟨z, hz, rfl⟩ := List.mem_map.1 hy
    have := h.1 z.1 (List.of_mem_zip hz).1
    revert this
    cases z.1 <;> exact fun h => h
  · intro w hw
    obtain ⟨f, -, rfl⟩ := List.mem_map.1 hw
    exact h.2 f.1 f.2

theorem systemOf_timely {I : Inv s} {hx : WriterOK s x} {hsep : Separate s x} {hb : SmallBatches s} {sent : List (List Bytes)}
    {hs : Each2 Sent s.sources sent} (h : s.Timely) : (systemOf I hx hsep hb sent hs).Timely := by
  refine ⟨h.1, ?_⟩
  intro w hw
  obtain ⟨f, -, rfl⟩ := List.mem_map.1 hw
  exact h.2 f.1 f.2

theorem systemOf_sent {I : Inv s} {hx : WriterOK s x} {hsep : Separate s x} {hb : SmallBatches s} {sent : List (List Bytes)}
    {hs : Each2 Sent s.sources sent} : (systemOf I hx hsep hb sent hs).listeners.flatMap (·.sent) = sent.flatten := by
  show (((s.sources.zip sent).map fun z => asSource z.1 z.2).flatMap (·.sent)) = _
  rw [List.flatMap_map]
  have : (sent.flatMap fun x => x) = sent.flatten := by simp
  rw [← this, ← zip_snd (fun x => x) s.sources sent (each2_length hs)]
  apply flatMap_congr'
  intro z _
  cases z.1 <;> rfl

theorem systemOf_held {I : Inv s} {hx : WriterOK s x} {hsep : Separate s x} {hb : SmallBatches s} {sent : List (List Bytes)}
    {hs : Each2 Sent s.sources sent} :
    ((systemOf I hx hsep hb sent hs).listeners.flatMap fun y => Delivery.textsOf d.S d.rules d.junk x.subjects y.held ++
      y.unread.flatMap (textsTo d.S d.rules d.junk x.subjects)) = textsFor d x (s.sources.flatMap LComp.holds) := by
  show (((s.sources.zip sent).map fun z => asSource z.1 z.2).flatMap _) = _
  unfold textsFor
  rw [List.flatMap_map, List.flatMap_assoc, ← zip_fst _ s.sources sent (each2_length hs)]
  apply flatMap_congr'
  intro z _
  cases z.1 with
  | udp l got => simp [asSource, LComp.holds, Delivery.textsOf]
  | http l reqs wk order => simp [asSource, LComp.holds, Delivery.textsOf, List.flatMap_append]

/-- **C88 (every line is in one place, in every reachable state).** In every state that a deployment of any number of listeners, filters, downsamplers and writers, which may start and crash at any time, can reach: if
no publish of a listener or filter has failed and the lines were timely, then for every writer (or queue group of writers) the texts of all lines sent to the
listeners that match its rules (`kept`: all, if it has none) are, each exactly once: with one of its workers (`sentBy`: sent to InfluxDB or in its batch, in this order), on the way to them (`queued`), in a message that a filter
is working on or that is on the way to the filters, in a listener's batch, or in a request that is still being read.  (Processes that have crashed count with what they held then: `workers`, `sources`.) -/
theorem C88_deployment (h0 : Start d s0) (h : Reach d s0 s) (hx : x ∈ s.writers) (hsep : Separate s x)
    (hb : SmallBatches s) (sent : List (List Bytes)) (hs : Each2 Sent s.sources sent) (hr : RulesFine d.S x.conf sent.flatten) (hf : s.NoFailure) (ht : s.Timely) :
    ∃ sentBy queued : List (List Bytes),
      sentBy.map List.flatten = x.inp.workers.map (fun k => firstData k.hist ++ unsentBytes k) ∧
      queued.map List.flatten = x.inp.onTheWay ∧
      (sentBy.flatten ++ kept x.conf.rules (queued.flatten ++
        textsFor d x (((s.filters.workers.flatMap fun f => f.working.toList) ++ s.filters.onTheWay).flatMap linesOf) ++
        textsFor d x (s.sources.flatMap LComp.holds))).Perm (kept x.conf.rules (textsFor d x sent.flatten)) := by
  have I := inv_reach h0 h
  obtain ⟨sentBy, queued, h1, h2, h3⟩ := C88_every_line_in_one_place (systemOf I (I.writers x hx) hsep hb sent hs) (systemOf_noFailure hf) (systemOf_timely ht) (by rw [systemOf_sent]; exact hr)
  refine ⟨sentBy, queued, h1, h2, ?_⟩
  rw [systemOf_sent, systemOf_held] at h3
  refine List.Perm.trans (List.Perm.of_eq ?_) h3
  congr 4
  unfold textsFor
  rw [List.flatMap_assoc]
  congr 1
  show _ = ((s.filters.workers.attach.map fun f => _).flatMap _) ++ _ ++ _
  rw [List.flatMap_map]
  unfold Group.onTheWay
  rw [← List.append_assoc]
  congr 2
  exact (flatMap_attach s.filters.workers fun f => f.working.toList).symm

/-- **C88 (exactly once, in every reachable state).** When nothing is under way to a writer, its workers together have sent to InfluxDB (as first attempts)
exactly the texts for its subjects of the lines sent to the listeners (those that match its rules, if it has rules), each once. -/
theorem C88_deployment_exactly_once (h0 : Start d s0) (h : Reach d s0 s) (hx : x ∈ s.writers) (hsep : Separate s x)
    (hb : SmallBatches s) (sent : List (List Bytes)) (hs : Each2 Sent s.sources sent) (hr : RulesFine d.S x.conf sent.flatten) (hf : s.NoFailure) (ht : s.Timely) (hq : Quiet s x) :
    ∃ sentBy : List (List Bytes), sentBy.map List.flatten = x.inp.workers.map (fun k => firstData k.hist) ∧
      sentBy.flatten.Perm (kept x.conf.rules (textsFor d x sent.flatten)) := by
  obtain ⟨sentBy, queued, h1, h2, h3⟩ := C88_deployment h0 h hx hsep hb sent hs hr hf ht
  rw [hq.writers] at h2
  have hqd : queued = [] := List.map_eq_nil_iff.1 h2
  subst hqd
  have hw : (s.filters.workers.flatMap fun f => f.working.toList) = [] := by
    rw [List.flatMap_eq_nil_iff]
    intro f hf
    rw [hq.working f hf]; rfl
  have hh : s.sources.flatMap LComp.holds = [] := by
    rw [List.flatMap_eq_nil_iff]; exact hq.listeners
  rw [hw, hq.filters, hh] at h3
  refine ⟨sentBy, ?_, by simpa [textsFor, kept_nil] using h3⟩
  rw [h1]
  apply List.map_congr_left
  intro k hk
  rw [hq.unsent k hk, List.append_nil]

/-- **C88 (at most once, in every reachable state).** Whatever publishes fail, messages NATS drops, processes crash and are started again, and lines are outside the window: the workers of a writer together have
in their batches or have sent (first attempts) each line for its subjects at most once. -/
theorem C88_deployment_at_most_once (h0 : Start d s0) (h : Reach d s0 s) (hx : x ∈ s.writers) (hsep : Separate s x)
    (hb : SmallBatches s) (sent : List (List Bytes)) (hs : Each2 Sent s.sources sent) (hr : RulesFine d.S x.conf sent.flatten) :
    ∃ (sentBy : List (List Bytes)) (rest : List Bytes),
      sentBy.map List.flatten = x.inp.workers.map (fun k => firstData k.hist ++ unsentBytes k) ∧
      (sentBy.flatten ++ rest).Perm (kept x.conf.rules (textsFor d x sent.flatten)) := by
  have I := inv_reach h0 h
  obtain ⟨sentBy, rest, h1, h2⟩ := C88_at_most_once (systemOf I (I.writers x hx) hsep hb sent hs) (by rw [systemOf_sent]; exact hr)
  rw [systemOf_sent] at h2
  exact ⟨sentBy, rest, h1, h2⟩

/-! ## The archive -/

theorem flatMap_only {α : Type u} {β : Type} (f : α → List β) : ∀ (l : List α) (i : Nat) (a : α), l[i]? = some a →
    (∀ (j : Nat) (b : α), l[j]? = some b → j ≠ i → f b = []) → l.flatMap f = f a
  | [], _, _, h, _ => by simp at h
  | b :: l, 0, a, h, ho => by
    simp only [List.getElem?_cons_zero, Option.some.injEq] at h
    subst h
    rw [List.flatMap_cons, List.flatMap_eq_nil_iff.2, List.append_nil]
    intro c hc
    obtain ⟨j, hj⟩ := List.getElem?_of_mem hc
    exact ho (j + 1) c hj (by omega)
  | b :: l, i + 1, a, h, ho => by
    rw [List.flatMap_cons, ho 0 b rfl (by omega), List.nil_append]
    exact flatMap_only f l i a h fun j c hj hne => ho (j + 1) c hj (by omega)

/-- What a downsampler has published. -/
theorem out_to_archive (I : Inv s) {i : Nat} {y : DComp d.fo} (hy : s.downs[i]? = some y) (hsep : SeparateArchive s i y x) {q : Pool} {k : DState d.fo}
    (hk : y.inp.all = [⟨q, [k]⟩]) : onSubj y.out s.out = (k.w.pubs.filter fun p => !p.failed).map (·.data) := by
  unfold State.out
  rw [onSubj_append, onSubj_append, onSubj_flatMap, onSubj_flatMap, onSubj_flatMap]
  have e1 : (s.sources.flatMap fun z => onSubj y.out (outOn d.lsub z.l.pubs)) = [] := by
    rw [List.flatMap_eq_nil_iff]
    intro z _
    rw [onSubj_outOn, if_neg hsep.subject.2]
  have e2 : (s.filters.workers.flatMap fun f => onSubj y.out (outF f.pubss.flatten)) = [] := by
    rw [List.flatMap_eq_nil_iff]
    intro f hf
    rw [onSubj_outF]
    exact filter_subjects (I.fran f hf) (fun r hr => (hsep.rules r hr).2) hsep.junk.2
  rw [e1, e2, List.append_nil, List.nil_append]
  rw [flatMap_only _ s.downs i y hy]
  · rw [onSubj_flatMap]
    unfold Group.workers
    rw [hk]
    simp [onSubj_outOn]
  · intro j z hz hne
    rw [onSubj_flatMap, List.flatMap_eq_nil_iff]
    intro k' _
    rw [onSubj_outOn, if_neg fun h => hne (hsep.others j z hz h)]

theorem linesOf_eq_nil {b : Bytes} (h : linesOf b = []) : b = [] := by
  rw [← linesOf_flatten b, h]; rfl

/-- No writer. -/
def noWriter (c : WConf) (subjects : List Bytes) : WComp := ⟨subjects, c, ⟨[], [], []⟩⟩

theorem noWriter_ok (s : State d) (c : WConf) : WriterOK s (noWriter c []) :=
  ⟨⟨rfl, (fun x hx => by cases hx), (fun x hx => by cases hx), (fun i s hs => by simp [noWriter] at hs)⟩, (fun k hk => by cases hk)⟩

/-- **C90 (the archive, in every reachable state).** Take the `i`-th downsampler of a deployment and the writers of its output in any reachable state in which no publish of a listener or
filter has failed, the lines were timely, everything sent to the listeners has passed the filters and reached the downsampler, its worker `k` counted no invalid line or
timestamp, and the texts for its subject are well-formed measurements `pts`.  Then for some order of these measurements the downsampler has emitted the aggregations of consecutive windows of
the period, every measurement is in an emitted or one of the three pending windows (so, if these hold nothing, in an emitted one), and each message of these emissions is with exactly one worker of
the writers, under way, or its publish failed. -/
theorem C90_deployment (h0 : Start d s0) (h : Reach d s0 s) (i : Nat) (y : DComp d.fo) (hy : s.downs[i]? = some y) (hx : x ∈ s.writers)
    (hsep : SeparateArchive s i y x) (hb : SmallBatches s) (sent : List (List Bytes)) (hs : Each2 Sent s.sources sent)
    (hf : s.NoFailure) (ht : s.Timely) (hper : 0 < y.period) (hl : ∀ z ∈ s.sources, z.holds = []) (hfl : s.filters.onTheWay = [])
    (hw : ∀ f ∈ s.filters.workers, f.working = none) (hd : y.inp.onTheWay = []) :
    ∃ (q : Pool) (k : DState d.fo), y.inp.all = [⟨q, [k]⟩] ∧
      (k.w.stats.invalidTimestamps = 0 ∧ k.w.stats.invalidLines = 0 → ∀ pts : List Point,
        textsFor d (noWriter x.conf [y.subject]) sent.flatten = pts.map Point.text → (∀ p ∈ pts, p.WF) →
        ∃ (order : List Point) (E0 : Int) (em : List Emission),
          order.Perm pts ∧ Aligned y.period E0 ∧ E0 ≤ y.now0 ∧ y.now0 < E0 + y.period ∧
          (∀ (i : Nat) (m : Emission), em[i]? = some m → m.wend = E0 + i * y.period ∧ m.wend + y.period ≤ m.now ∧
            ∃ rows, Aggregates d.fo (inWindow y.period m.wend order) rows ∧ m.text = rows.flatMap (Row.text (wrap64 m.wend))) ∧
          (∀ p ∈ pts, E0 - y.period ≤ p.ts ∧ p.ts < E0 + em.length * y.period + 2 * y.period) ∧
          (k.w.a.prev.lines = [] → k.w.a.curr.lines = [] → k.w.a.next.lines = [] → ∀ p ∈ pts, ∃ m ∈ em, m.wend - y.period ≤ p.ts ∧ p.ts < m.wend) ∧
          (k.w.pubs.map (·.data)).flatten = (em.map (·.text)).flatten ∧
          ∃ gotBy : List (List Bytes), (gotBy.map fun g => (g.flatMap fun m => pieces x.conf.rules m).flatten) = x.inp.workers.map (fun k => firstData k.hist ++ unsentBytes k) ∧
            (gotBy.flatten ++ x.inp.onTheWay ++ (k.w.pubs.filter fun p => p.failed).map (·.data)).Perm (k.w.pubs.map (·.data))) := by
  have I := inv_reach h0 h
  obtain ⟨g1, q, k, hk, hrun⟩ := I.downs y (get_mem hy)
  refine ⟨q, k, hk, ?_⟩
  intro hv pts hp hwf
  have sep0 : Separate s (noWriter x.conf []) :=
    ⟨fun r hr => (hsep.rules r hr).1, hsep.junk.1, fun z hz => ⟨(hsep.downs z hz).1, fun h => by cases h⟩, fun h => by cases h⟩
  have sep1 : Separate s (noWriter x.conf [y.subject]) :=
    ⟨fun r hr => (hsep.rules r hr).1, hsep.junk.1, fun z hz => ⟨(hsep.downs z hz).1, fun h => (hsep.downs z hz).2 (List.mem_singleton.1 h)⟩,
      fun h => hsep.subject.1 (List.mem_singleton.1 h)⟩
  let p := systemOf I (noWriter_ok s x.conf) sep0 hb sent hs
  have hpas : p.Passed := by
    have hfl' : inQueues (s.filters.all.map (·.queue)) ++ s.filters.away = [] := hfl
    rw [List.append_eq_nil_iff] at hfl'
    refine ⟨hfl'.2, hfl'.1, ?_, ?_⟩
    · intro w hw'
      obtain ⟨f, -, rfl⟩ := List.mem_map.1 hw'
      show f.1.working.toList = []
      rw [hw f.1 f.2]; rfl
    · intro z hz
      obtain ⟨z', hz', rfl⟩ := List.mem_map.1 hz
      have h1 := hl z'.1 (List.of_mem_zip hz').1
      revert h1
      cases z'.1 with
      | udp l got => exact fun h1 => ⟨linesOf_eq_nil h1, rfl⟩
      | http l reqs wk order =>
        intro h1
        have h1 : linesOf l.batch.bytes ++ (reqs.flatMap fun r => r.todo.flatMap fun e => linesOf (contrib e)) = [] := h1
        rw [List.append_eq_nil_iff] at h1
        exact ⟨linesOf_eq_nil h1.1, h1.2⟩
  have hd' : (inQueues [q] ++ y.inp.away) = [] := by
    have hd : inQueues (y.inp.all.map (·.queue)) ++ y.inp.away = [] := hd
    rwa [hk] at hd
  have hd2 : q.jobs = [] ∧ q.todo.flatten = [] ∧ y.inp.away = [] := by
    unfold inQueues at hd'
    simpa [and_assoc] using hd'
  let a : Archive p y.subject d.fo y.period y.now0 x.conf := {
    toDown := y.inp.away
    dqueue := q
    evs := k.evs
    w := k.w
    toWriter := x.inp.away
    wqueues := x.inp.all.map (·.queue)
    writers := x.inp.workers
    dReach := g1.run ⟨q, [k]⟩ (by rw [hk]; exact List.mem_singleton.2 rfl)
    dArrived := by
      have := g1.all
      rw [hk, List.flatMap_cons, List.flatMap_nil, List.append_nil, List.flatMap_cons, List.flatMap_nil, List.append_nil,
        out_to_writer sep1 (List.mem_singleton.2 rfl)] at this
      refine this.trans (List.Perm.of_eq ?_)
      show _ = (s.filters.workers.attach.map fun f => _).flatMap _
      rw [List.flatMap_map]
      exact (flatMap_attach s.filters.workers fun f => Delivery.published y.subject f.pubss.flatten).symm
    dGot := g1.got ⟨q, [k]⟩ (by rw [hk]; exact List.mem_singleton.2 rfl)
    ran := hrun
    wReach := by
      intro q' hq'
      obtain ⟨z, hz, rfl⟩ := List.mem_map.1 hq'
      exact ⟨_, _, (I.writers x hx).1.run z hz⟩
    wArrived := by
      have := (I.writers x hx).1.all
      rw [hsep.writer, List.flatMap_cons, List.flatMap_nil, List.append_nil, out_to_archive I hy hsep hk] at this
      rw [List.flatMap_map]
      exact this
    wGot := flatMap_got (I.writers x hx).1
    written := (I.writers x hx).2 }
  have hsent : p.listeners.flatMap (·.sent) = sent.flatten := systemOf_sent
  exact C90_archive a hper (systemOf_noFailure hf) (systemOf_timely ht) hpas ⟨hd2.2.2, hd2.1, hd2.2.1⟩ hv pts
    (by rw [hsent, ← textsTo_single]; exact hp) hwf

end Spout.Deploy
