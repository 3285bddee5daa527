import Verif.Props.DeploymentLive

/-! # C98: a writer of the listeners' subject writes every line it can, unchanged

A writer may subscribe to the subject of the listeners itself (`nats_subject = ["influx-spout"]`, the default of writer and listener): it then writes what the
listeners were sent, whatever the filters do. -/

set_option linter.unusedSimpArgs false

namespace Spout.Deploy
open Spout Spout.Listener Spout.Pool Spout.Spec Spout.Delivery

universe u

/-! ## Specification -/

variable {d : Setup}

/-- The writer subscribes to the subject of the listeners, and nobody else publishes on it. -/
structure SeparateRaw (s : State d) (x : WComp) : Prop where
  rules : ∀ r ∈ d.rules, r.subject ≠ d.lsub
  junk : d.junk ≠ d.lsub
  downs : ∀ y ∈ s.downs, y.out ≠ d.lsub
  writer : x.subjects = [d.lsub]

/-- No publish of a listener has failed. -/
def State.ListenersPublish (s : State d) : Prop := ∀ y ∈ s.sources, ∀ q ∈ y.l.pubs, q.failed = false

/-! ## Proofs -/

variable {s0 s : State d} {x : WComp}

/-- What the workers of a writer have received and what is on the way to them is what was published. -/
theorem writer_received (hx : WriterOK s x) :
    ((x.inp.workers.map fun k => received k.hist).flatten ++ x.inp.onTheWay).Perm (x.subjects.flatMap fun subj => onSubj subj s.out) := by
  have h1 := hx.1.all
  have h2 := queues_each_once (x.inp.all.map (·.queue)) (by
    intro q hq
    obtain ⟨y, hy, rfl⟩ := List.mem_map.1 hq
    exact ⟨_, _, hx.1.run y hy⟩)
  rw [flatMap_got hx.1, List.flatMap_map] at h2
  refine List.Perm.trans ?_ h1
  unfold Group.onTheWay
  rw [← List.append_assoc]
  exact (h2.symm.append_right _)

theorem raw_out (I : Inv s) (hsep : SeparateRaw s x) :
    onSubj d.lsub s.out = s.sources.flatMap fun y => (y.l.pubs.filter fun p => !p.failed).map (·.data) :=
  out_to_filters (x := noWriter x.conf []) I ⟨hsep.rules, hsep.junk, fun y hy => ⟨hsep.downs y hy, fun h => by cases h⟩, fun h => by cases h⟩

/-- What a writer takes from a message: its lines that match. -/
theorem pieces_lines (rules : List Rule) (m : Bytes) : (pieces rules m).flatten = (kept rules (linesOf m)).flatten := by
  cases rules with
  | nil => rw [kept_norules, linesOf_flatten]; simp [pieces]
  | cons r rs =>
    unfold pieces kept
    rw [if_neg (by simp)]

theorem worker_lines {c : WConf} {k : WSys} (h : WRun c k) :
    (kept c.rules ((received k.hist).flatMap linesOf)).flatten = firstData k.hist ++ unsentBytes k := by
  rw [C34_every_matching_line_once c k h]
  induction received k.hist with
  | nil => rw [List.flatMap_nil, kept_nil]; rfl
  | cons m ms ih =>
    rw [List.flatMap_cons, kept_append, List.flatten_append, ih, List.flatMap_cons, List.flatten_append, pieces_lines]

theorem map_linesOf (ms : List Bytes) : (ms.map linesOf).map List.flatten = ms := by
  rw [List.map_map]
  conv => rhs; rw [← List.map_id ms]
  apply List.map_congr_left
  intro m _
  exact linesOf_flatten m

/-- The lines sent to the listeners: in messages they published, or tried to, and held by them. -/
theorem sources_sent (I : Inv s) (hb : SmallBatches s) (sent : List (List Bytes)) (hs : Each2 Sent s.sources sent) :
    sent.flatten.Perm (((s.sources.flatMap fun y => y.l.pubs.map (·.data)).flatMap linesOf) ++ s.sources.flatMap LComp.holds) := by
  have hl : ∀ z ∈ s.sources.zip sent, (z.2).Perm ((z.1.l.pubs.map (·.data)).flatMap linesOf ++ z.1.holds) := by
    intro z hz
    have h := listener_sent (asSource_run (I.listeners z.1 (List.of_mem_zip hz).1) (each2_mem hs z hz) fun l got h => hb l got (h ▸ (List.of_mem_zip hz).1))
    revert h
    cases z.1 with
    | udp l got =>
      intro h
      refine (show (z.2).Perm ((l.pubs.map (·.data)).flatMap linesOf ++ linesOf l.batch.bytes ++ []) from h).trans (List.Perm.of_eq ?_)
      rw [List.append_nil]; rfl
    | http l reqs wk order =>
      intro h
      refine (show (z.2).Perm ((l.pubs.map (·.data)).flatMap linesOf ++ linesOf l.batch.bytes ++ reqs.flatMap fun r => r.todo.flatMap fun e => linesOf (contrib e)) from h).trans (List.Perm.of_eq ?_)
      rw [List.append_assoc]; rfl
  have hlen := each2_length hs
  have e0 : sent.flatten = (s.sources.zip sent).flatMap fun z => z.2 := by
    rw [zip_snd (fun x => x) _ _ hlen]; simp
  rw [e0]
  refine (perm_flatMap _ _ _ hl).trans ?_
  refine (flatMap_append_perm _ _ _).trans (List.Perm.of_eq ?_)
  rw [zip_fst (fun y : LComp => (y.l.pubs.map (·.data)).flatMap linesOf) _ _ hlen, zip_fst LComp.holds _ _ hlen, List.flatMap_assoc]

/-- **C98 (in one place).** In every state that a deployment can reach, for every writer (or queue group) of the listeners' subject: if no publish of a listener has failed, the lines sent to the listeners that match the
writer's rules (all, if it has none) are, each exactly once and unchanged: with one of its workers (`sentBy`: sent to InfluxDB or in its batch, in this order), in a message on the way to them (`queued`), in the batch of a listener, or in a request that is still
being read.  It does not matter what times the lines have or what the filters do with them. -/
theorem C98_raw_in_one_place (h0 : Start d s0) (h : Reach d s0 s) (hx : x ∈ s.writers) (hsep : SeparateRaw s x) (hb : SmallBatches s)
    (sent : List (List Bytes)) (hs : Each2 Sent s.sources sent) (hf : s.ListenersPublish) :
    ∃ sentBy : List (List Bytes),
      sentBy.map List.flatten = x.inp.workers.map (fun k => firstData k.hist ++ unsentBytes k) ∧
      (sentBy.flatten ++ kept x.conf.rules (x.inp.onTheWay.flatMap linesOf ++ s.sources.flatMap LComp.holds)).Perm
        (kept x.conf.rules sent.flatten) := by
  have I := inv_reach h0 h
  have hw := I.writers x hx
  refine ⟨x.inp.workers.map fun k => kept x.conf.rules ((received k.hist).flatMap linesOf), ?_, ?_⟩
  · rw [List.map_map]
    apply List.map_congr_left
    intro k hk
    exact worker_lines (hw.2 k hk)
  · have h1 := writer_received hw
    rw [hsep.writer, List.flatMap_cons, List.flatMap_nil, List.append_nil, raw_out I hsep] at h1
    have e1 : (s.sources.flatMap fun y => (y.l.pubs.filter fun p => !p.failed).map (·.data)) = s.sources.flatMap fun y => y.l.pubs.map (·.data) := by
      apply flatMap_congr'
      intro y hy
      rw [List.filter_eq_self.2 fun q hq => by rw [hf y hy q hq]; rfl]
    rw [e1] at h1
    have h2 := sources_sent I hb sent hs
    refine List.Perm.trans ?_ (kept_perm x.conf.rules h2).symm
    have h3 := flatMap_perm linesOf h1
    rw [List.flatMap_append] at h3
    have h4 := kept_perm x.conf.rules (h3.append_right (s.sources.flatMap LComp.holds))
    refine List.Perm.trans (List.Perm.of_eq ?_) h4
    have e2 : (x.inp.workers.map fun k => kept x.conf.rules ((received k.hist).flatMap linesOf)).flatten =
        kept x.conf.rules ((x.inp.workers.map fun k => received k.hist).flatten.flatMap linesOf) := by
      induction x.inp.workers with
      | nil => rw [List.map_nil, List.map_nil, List.flatten_nil, List.flatMap_nil, kept_nil]
      | cons k ks ih => rw [List.map_cons, List.map_cons, List.flatten_cons, List.flatten_cons, List.flatMap_append, kept_append, ih]
    rw [e2, ← kept_append, List.append_assoc]

/-- Nothing is under way to the writer. -/
structure QuietRaw (s : State d) (x : WComp) : Prop where
  listeners : ∀ y ∈ s.sources, y.holds = []
  writers : x.inp.onTheWay = []
  unsent : ∀ k ∈ x.inp.workers, unsentBytes k = []

/-- **C98 (exactly once).** When nothing is under way to it, the workers of a writer of the listeners' subject have together sent to InfluxDB (as first attempts) exactly the lines sent to the listeners that match its rules, each once
and unchanged. -/
theorem C98_raw_exactly_once (h0 : Start d s0) (h : Reach d s0 s) (hx : x ∈ s.writers) (hsep : SeparateRaw s x) (hb : SmallBatches s)
    (sent : List (List Bytes)) (hs : Each2 Sent s.sources sent) (hf : s.ListenersPublish) (hq : QuietRaw s x) :
    ∃ sentBy : List (List Bytes), sentBy.map List.flatten = x.inp.workers.map (fun k => firstData k.hist) ∧
      sentBy.flatten.Perm (kept x.conf.rules sent.flatten) := by
  obtain ⟨sentBy, h1, h2⟩ := C98_raw_in_one_place h0 h hx hsep hb sent hs hf
  refine ⟨sentBy, ?_, ?_⟩
  · rw [h1]
    apply List.map_congr_left
    intro k hk
    rw [hq.unsent k hk, List.append_nil]
  · rw [hq.writers, List.flatMap_eq_nil_iff.2 hq.listeners] at h2
    simpa [kept_nil] using h2

/-- **C98 (at most once).** Whatever publishes fail, messages NATS drops and processes crash and are started again: its workers together have in their batches, or have sent as first attempts, each line at most once, and nothing
but lines that were sent to the listeners. -/
theorem C98_raw_at_most_once (h0 : Start d s0) (h : Reach d s0 s) (hx : x ∈ s.writers) (hsep : SeparateRaw s x) (hb : SmallBatches s)
    (sent : List (List Bytes)) (hs : Each2 Sent s.sources sent) :
    ∃ (sentBy : List (List Bytes)) (rest : List Bytes),
      sentBy.map List.flatten = x.inp.workers.map (fun k => firstData k.hist ++ unsentBytes k) ∧
      (sentBy.flatten ++ rest).Perm (kept x.conf.rules sent.flatten) := by
  have I := inv_reach h0 h
  have hw := I.writers x hx
  have h1 := writer_received hw
  rw [hsep.writer, List.flatMap_cons, List.flatMap_nil, List.append_nil, raw_out I hsep] at h1
  obtain ⟨r, hr⟩ := flatMap_sub s.sources (fun y => (y.l.pubs.filter fun p => !p.failed).map (·.data)) (fun y => y.l.pubs.map (·.data))
    fun y _ => sublist_perm (List.filter_sublist.map _)
  have h2 := sources_sent I hb sent hs
  have h3 := flatMap_perm linesOf ((h1.append_right r).trans hr)
  rw [List.flatMap_append, List.flatMap_append] at h3
  have h4 := kept_perm x.conf.rules ((h3.append_right (s.sources.flatMap LComp.holds)).trans h2.symm)
  rw [kept_append, kept_append, kept_append] at h4
  refine ⟨x.inp.workers.map fun k => kept x.conf.rules ((received k.hist).flatMap linesOf), kept x.conf.rules (x.inp.onTheWay.flatMap linesOf) ++
    (kept x.conf.rules (r.flatMap linesOf) ++ kept x.conf.rules (s.sources.flatMap LComp.holds)), ?_, ?_⟩
  · rw [List.map_map]
    apply List.map_congr_left
    intro k hk
    exact worker_lines (hw.2 k hk)
  · have e2 : (x.inp.workers.map fun k => kept x.conf.rules ((received k.hist).flatMap linesOf)).flatten =
        kept x.conf.rules ((x.inp.workers.map fun k => received k.hist).flatten.flatMap linesOf) := by
      induction x.inp.workers with
      | nil => rw [List.map_nil, List.map_nil, List.flatten_nil, List.flatMap_nil, kept_nil]
      | cons k ks ih => rw [List.map_cons, List.map_cons, List.flatten_cons, List.flatten_cons, List.flatMap_append, kept_append, ih]
    rw [e2]
    rw [List.append_assoc, List.append_assoc] at h4
    exact h4

/-- Nothing is lost for the writer: NATS has dropped nothing for it, and the processes that have crashed held nothing. -/
structure NothingLostRaw (s : State d) (x : WComp) : Prop where
  listeners : ∀ y ∈ s.crashed, y.holds = []
  writers : x.inp.gone = []
  unsent : ∀ k ∈ x.inp.deadWorkers, unsentBytes k = []

/-- **C98 (every line can still arrive).** If no publish has failed (nor will that of a request being read) and nothing was lost for the writers, then a deployment that is not stopped can go on, without anything being sent to it, until nothing is left to do; every
writer (or queue group) of the listeners' subject of which a process is running has then sent to InfluxDB exactly the lines sent to the listeners that match its rules, each once and unchanged. -/
theorem C98_raw_arrives (h0 : Start d s0) (h : Reach d s0 s) (hr : s.Running) (ha : s.Acyclic) (hb : SmallBatches s)
    (sent : List (List Bytes)) (hf : s.Fine sent) (now : Int) (hT : InTime d now sent.flatten) :
    ∃ s', Run d s s' ∧ SameSetup s s' ∧ s'.Finished ∧ s'.Running ∧ s'.Fine sent ∧
      ∀ (i : Nat) (x : WComp), s.writers[i]? = some x → x.inp.members ≠ [] → x.subjects = [d.lsub] → NothingLostRaw s x →
        ∃ x', s'.writers[i]? = some x' ∧ x'.conf = x.conf ∧ ∃ sentBy : List (List Bytes), sentBy.map List.flatten = x'.inp.workers.map (fun k => firstData k.hist) ∧
          sentBy.flatten.Perm (kept x.conf.rules sent.flatten) := by
  obtain ⟨s', C, hfin⟩ := finish (F := True) (sent := sent) (s0 := s) (s := s) (fun _ => ⟨now, hT⟩)
    ⟨.refl, .refl s, .refl s, inv_reach h0 h, hr, ha, fun _ => ⟨hf, hb⟩⟩
  obtain ⟨G, hb'⟩ := C.fine trivial
  refine ⟨s', C.reach, C.same, hfin, C.running, G, ?_⟩
  intro i x hx hxm hsub N
  obtain ⟨x', hx', e1, e2, e3, e4⟩ := C.same.writer C.lost hx
  refine ⟨x', hx', e2, ?_⟩
  have hsep : SeparateRaw s' x' := by
    refine ⟨ha.rules, ha.junk, ?_, e1.trans hsub⟩
    intro y hy
    obtain ⟨z, hz, e⟩ := mem_of_map C.same.downs hy
    simp only [Prod.mk.injEq] at e
    rw [← e.2.1]
    exact (ha.downs z hz).1
  rw [← e2]
  refine C98_raw_exactly_once h0 (h.run C.reach) (get_mem hx') hsep hb' sent G.sent G.published.1 ⟨?_, ?_, ?_⟩
  · intro y hy
    rcases List.mem_append.1 hy with hy | hy
    · exact hfin.holds y hy
    · rw [C.same.crashed] at hy
      exact N.listeners y hy
  · rw [(hfin.writers x' (get_mem hx')).1.onTheWay ((Group.fixed_eq e3).2.2 hxm), Group.gone_eq e3 e4]
    exact N.writers
  · intro k hk
    rw [Group.workers_split] at hk
    rcases List.mem_append.1 hk with hk | hk
    · exact ((hfin.writers x' (get_mem hx')).2 k hk).unsent
    · rw [Group.deadWorkers_eq e3] at hk
      exact N.unsent k hk

/-! ## A deployment that meets the hypotheses -/

/-- The deployment of C95, to which a writer of the listeners' subject with the rule `tags = ["h=1"]` is added. -/
def exRaw : State exSetup :=
  { exBusy with writers := exBusy.writers ++ [⟨[b!"influx-spout"], exRConf, exGroup b!"influx-spout" [WSys.start exRConf 0 0, WSys.start exRConf 0 0]⟩] }

theorem ex_raw_reach : Reach exSetup exStart exRaw :=
  ex_reach.change (.writerStarts exBusy [b!"influx-spout"] exRConf [WSys.start exRConf 0 0, WSys.start exRConf 0 0] fun k hk => by
    simp only [List.mem_cons, List.not_mem_nil, or_false, or_self] at hk
    exact ⟨0, 0, hk⟩)

theorem ex_raw_kept : kept [createTagRule [⟨b!"h", b!"1"⟩] []] exSent.flatten = [b!"cpu,h=1 f=1\n", b!"mem,h=1 f=2\n"] :=
  (kept_eq _ _ (by simp)).trans (by decide +kernel)

/-- Nothing has been published; the two lines with `h=1`, one of which goes to no rule of the filter, can reach the new writer. -/
theorem ex_raw_arrives : ∃ s', Run exSetup exRaw s' ∧ s'.Finished ∧ ∃ x, s'.writers[3]? = some x ∧
    ∃ sentBy : List (List Bytes), sentBy.map List.flatten = x.inp.workers.map (fun k => firstData k.hist) ∧
      sentBy.flatten.Perm [b!"cpu,h=1 f=1\n", b!"mem,h=1 f=2\n"] := by
  have hb : SmallBatches exRaw := by
    intro l got hl
    simp only [exRaw, exBusy, exStart, State.sources, List.append_nil, List.mem_cons, List.not_mem_nil, or_false, LComp.udp.injEq, reduceCtorEq] at hl
    rw [hl.1]; decide
  have hT : InTime exSetup 10000 exSent.flatten :=
    ⟨by decide, by decide, fun line hline => Or.inr (ex_no_ts line (by revert line; decide +kernel))⟩
  have hrun : exRaw.Running := by
    refine ⟨ex_running.filters, ex_running.downs, ?_⟩
    intro x hx
    rcases List.mem_append.1 hx with hx | hx
    · exact ex_running.writers x hx
    · rw [List.mem_singleton.1 hx]
      refine ⟨exGroup_running _ _ _, by decide, fun k hk => ?_⟩
      obtain ⟨y, hy, hk⟩ := Group.mem_live.1 hk
      rw [List.mem_singleton.1 hy] at hk
      simp only [List.mem_cons, List.not_mem_nil, or_false, or_self] at hk
      rw [hk]; rfl
  have hac : exRaw.Acyclic := ⟨ex_acyclic.rules, ex_acyclic.junk, ex_acyclic.downs⟩
  have hfine : exRaw.Fine exSent := ⟨ex_fine.sent, ex_fine.published, ex_fine.will, ex_fine.timely⟩
  obtain ⟨s', h1, h2, h3, -, -, h4⟩ := C98_raw_arrives ex_start ex_raw_reach hrun hac hb exSent hfine 10000 hT
  obtain ⟨x, hx, -, sentBy, a, b⟩ := h4 3 _ rfl (by decide) rfl ⟨(fun y hy => by cases hy), rfl, (fun k hk => by cases hk)⟩
  refine ⟨s', h1, h3, x, hx, sentBy, a, ?_⟩
  have b : sentBy.flatten.Perm (kept [createTagRule [⟨b!"h", b!"1"⟩] []] exSent.flatten) := b
  rw [ex_raw_kept] at b
  exact b

end Spout.Deploy
