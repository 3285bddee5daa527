import Verif.Props.DeploymentFilesArchive
import Verif.Props.DeploymentRaw

/-! # A writer of the listeners' subject, from configuration files (C115)

The simplest deployment: listeners and writers whose files leave `nats_subject` at its default.  Lines need no filter then. -/

set_option linter.unusedSimpArgs false

namespace Spout.Deploy
open Spout Spout.Listener Spout.Pool Spout.Spec Spout.Delivery Spout.Conf Spout.Conf.Spec

/-! ## Specification -/

variable (compile : Bytes → Option (Bytes → Bool))

/-- The writer with configuration `wc` subscribes to the subject of the listeners, and no other subject in the files is that one. -/
structure Confs.SeparateRaw (cs : Confs) (wc : Config) : Prop where
  rules : ∀ r ∈ cs.filter.rule, r.subject ∉ cs.filter.natsSubject
  junk : cs.filter.natsSubjectJunkyard ∉ cs.filter.natsSubject
  downs : ∀ c ∈ cs.downsamplers, ∀ sub ∈ c.natsSubject, sub ++ c.downsampleSuffix ∉ cs.filter.natsSubject
  writer : wc.natsSubject = cs.filter.natsSubject

open Classical in
/-- The lines that the writer should write, of those that reach it. -/
noncomputable def taken (wc : Config) (lines : List Bytes) : List Bytes := lines.filter fun line => decide (Takes compile wc line)

/-! ## Proofs -/

variable {compile} {d : Setup} {cs : Confs} {s s0 : State d} {x : WComp} {k l : Layer} {wc : Config}

theorem Deployed.acyclicRaw (L : cs.Loaded) (D : Deployed compile cs s) (hs : cs.SeparateRaw wc) : s.Acyclic := by
  obtain ⟨h1, h2, -, h4⟩ := D.setup L
  refine ⟨?_, ?_, ?_⟩
  · intro r hr e
    obtain ⟨r', hr', hd⟩ := described_left (rules_described h1) hr
    exact hs.rules r' hr' (by rw [← describes_subject hd, e, h2]; exact List.mem_singleton.2 rfl)
  · intro e
    exact hs.junk (by rw [← h4, e, h2]; exact List.mem_singleton.2 rfl)
  · intro y hy
    obtain ⟨c, hc, hd⟩ := D.downs y hy
    exact ⟨fun e => hs.downs c hc y.subject hd.subject (by rw [← hd.out, h2, e]; exact List.mem_singleton.2 rfl), fun z _ e => D.longer L hy e⟩

theorem Deployed.separateRaw (L : cs.Loaded) (D : Deployed compile cs s) (hw : WriterOf compile wc x) (hs : cs.SeparateRaw wc) : Deploy.SeparateRaw s x := by
  obtain ⟨h1, h2, -, h4⟩ := D.setup L
  refine ⟨?_, ?_, ?_, ?_⟩
  · intro r hr e
    obtain ⟨r', hr', hd⟩ := described_left (rules_described h1) hr
    exact hs.rules r' hr' (by rw [← describes_subject hd, e, h2]; exact List.mem_singleton.2 rfl)
  · intro e
    exact hs.junk (by rw [← h4, e, h2]; exact List.mem_singleton.2 rfl)
  · intro y hy e
    obtain ⟨c, hc, hd⟩ := D.downs y hy
    exact hs.downs c hc y.subject hd.subject (by rw [← hd.out, h2, e]; exact List.mem_singleton.2 rfl)
  · rw [hw.subjects, hs.writer, h2]

open Classical in
theorem kept_taken (hw : WriterOf compile wc x) (lines : List Bytes) : kept x.conf.rules lines = taken compile wc lines := by
  have h5 := writerConf_rules hw.conf
  unfold kept taken
  split
  · rename_i h
    refine (List.filter_eq_self.2 fun line _ => ?_).symm
    exact decide_eq_true ((takes_iff h5 line).2 (.inl h))
  · rename_i h
    apply List.filter_congr
    intro line _
    have := takes_iff h5 line
    by_cases ht : Takes compile wc line
    · rw [decide_eq_true ht, decide_eq_true ((this.1 ht).resolve_left h)]
    · rw [decide_eq_false ht, decide_eq_false fun hm => ht (this.2 (.inr hm))]

/-- The lines sent to the listeners: received by the workers of the writer, on the way to them, or still held by the listeners. -/
theorem raw_received (I : Inv s) (hx : x ∈ s.writers) (hsep : Deploy.SeparateRaw s x) (hb : SmallBatches s) (sent : List (List Bytes))
    (hs : Each2 Sent s.sources sent) (hf : s.ListenersPublish) :
    ((x.inp.workers.map fun k => received k.hist).flatten.flatMap linesOf ++ (x.inp.onTheWay.flatMap linesOf ++ s.sources.flatMap LComp.holds)).Perm sent.flatten := by
  have h1 := writer_received (I.writers x hx)
  rw [hsep.writer, List.flatMap_cons, List.flatMap_nil, List.append_nil, raw_out I hsep] at h1
  have e1 : (s.sources.flatMap fun y => (y.l.pubs.filter fun p => !p.failed).map (·.data)) = s.sources.flatMap fun y => y.l.pubs.map (·.data) := by
    apply flatMap_congr'
    intro y hy
    rw [List.filter_eq_self.2 fun q hq => by rw [hf y hy q hq]; rfl]
  rw [e1] at h1
  have h3 := flatMap_perm linesOf h1
  rw [List.flatMap_append] at h3
  rw [← List.append_assoc]
  exact (h3.append_right _).trans (sources_sent I hb sent hs).symm

theorem raw_quiet (hfin : s.Finished) (hx : x ∈ s.writers) (hxm : x.inp.members ≠ []) (N : NothingLostRaw s x) : QuietRaw s x := by
  refine ⟨?_, ?_, ?_⟩
  · intro y hy
    rcases List.mem_append.1 hy with hy | hy
    · exact hfin.holds y hy
    · exact N.listeners y hy
  · rw [(hfin.writers x hx).1.onTheWay hxm]
    exact N.writers
  · intro k hk
    rw [Group.workers_split] at hk
    rcases List.mem_append.1 hk with hk | hk
    · exact ((hfin.writers x hx).2 k hk).unsent
    · exact N.unsent k hk

/-- **C115 (exactly once).** Processes started from accepted configuration files, in any schedule, with processes starting and crashing: when nothing is under way to a writer whose file names the subject of the listeners, and no publish of a
listener has failed, what its workers have sent to InfluxDB (first attempts) are exactly the lines sent to the listeners that match a rule of the writer's file, or all if it has none: unchanged, whatever
their times and tags, and whether or not a filter is running. -/
theorem C115_raw_exactly_once (L : cs.Loaded) (h0 : Start d s0) (h : Reach d s0 s) (D : Deployed compile cs s) (hx : x ∈ s.writers)
    (hw : WriterOf compile wc x) (hsep : cs.SeparateRaw wc) (sent : List (List Bytes)) (hs : Each2 Sent s.sources sent) (hf : s.ListenersPublish) (hq : QuietRaw s x) :
    ∃ sentBy : List (List Bytes), sentBy.map List.flatten = x.inp.workers.map (fun k => firstData k.hist) ∧ sentBy.flatten.Perm (taken compile wc sent.flatten) := by
  obtain ⟨sentBy, h1, h2⟩ := C98_raw_exactly_once h0 h hx (D.separateRaw L hw hsep) (C112_sizes L D).1 sent hs hf hq
  exact ⟨sentBy, h1, by rwa [kept_taken hw] at h2⟩

/-- **C115 (at most once).** Whatever fails, is dropped or crashes: the workers of the writer have in their batches, or have sent as first attempts, each of these lines at most once, and nothing else. -/
theorem C115_raw_at_most_once (L : cs.Loaded) (h0 : Start d s0) (h : Reach d s0 s) (D : Deployed compile cs s) (hx : x ∈ s.writers)
    (hw : WriterOf compile wc x) (hsep : cs.SeparateRaw wc) (sent : List (List Bytes)) (hs : Each2 Sent s.sources sent) :
    ∃ (sentBy : List (List Bytes)) (rest : List Bytes), sentBy.map List.flatten = x.inp.workers.map (fun k => firstData k.hist ++ unsentBytes k) ∧
      (sentBy.flatten ++ rest).Perm (taken compile wc sent.flatten) := by
  obtain ⟨sentBy, rest, h1, h2⟩ := C98_raw_at_most_once h0 h hx (D.separateRaw L hw hsep) (C112_sizes L D).1 sent hs
  exact ⟨sentBy, rest, h1, by rwa [kept_taken hw] at h2⟩

/-- **C115 (every line arrives).** In every fair schedule after the last input there is a moment from which on this is what every such writer has sent that is running
and for which nothing was lost. -/
theorem C115_every_line_arrives (L : cs.Loaded) (h0 : Start d s0) (h : Reach d s0 s) (D : Deployed compile cs s) (hsep : cs.SeparateRaw wc)
    (sent : List (List Bytes)) (hs : Each2 Sent s.sources sent) {f : Nat → State d} (F : Schedule d s f) (hf : Fair f) :
    ∃ N, ∀ n, N ≤ n → (f n).Finished ∧ ((f n).ListenersPublish → ∀ x ∈ (f n).writers, x.inp.members ≠ [] → WriterOf compile wc x → NothingLostRaw (f n) x →
      ∃ sentBy : List (List Bytes), sentBy.map List.flatten = x.inp.workers.map (fun k => firstData k.hist) ∧ sentBy.flatten.Perm (taken compile wc sent.flatten)) := by
  have A := D.acyclicRaw L hsep
  have B := (C112_sizes L D).2
  obtain ⟨N, hN⟩ := C101_fair_finishes h0 h A B F hf
  refine ⟨N, fun n hn' => ⟨hN n hn', fun a x hx hxm hw hlost => ?_⟩⟩
  have hrun := (F.ok (inv_reach h0 h) A B n).2.2.2
  exact C115_raw_exactly_once L h0 (h.run hrun) (C112_stays D hrun) hx hw hsep sent (F.sent hs n) a (raw_quiet (hN n hn') hx hxm hlost)

/-- **C115 (the content of the database).** If all writes were in the end accepted and the lines are complete, fit in a write, carry timestamps and do not contradict each other, then InfluxDB holds exactly what these lines say. -/
theorem C115_stored {K V : Type} [DecidableEq K] (L : cs.Loaded) (h0 : Start d s0) (h : Reach d s0 s) (D : Deployed compile cs s) (hx : x ∈ s.writers)
    (hw : WriterOf compile wc x) (hsep : cs.SeparateRaw wc) (sent : List (List Bytes)) (hs : Each2 Sent s.sources sent)
    (hl : ∀ line ∈ sent.flatten, IsLine line ∧ line.length ≤ wc.batchMaxSize + 1) (hf : s.ListenersPublish) (hq : QuietRaw s x) (ha : AcceptedAll x)
    (sets : Int → Bytes → List (K × V)) (hts : Timestamped sets (taken compile wc sent.flatten)) (hcons : Consistent sets (taken compile wc sent.flatten))
    (ws : List (Bytes × Int)) (hws : HandledAll x.inp.workers ws) (k : K) (v : V) :
    stored sets ws k = some v ↔ ∃ line ∈ taken compile wc sent.flatten, (k, v) ∈ sets 0 line := by
  have I := inv_reach h0 h
  have h2 := raw_received I hx (D.separateRaw L hw hsep) (C112_sizes L D).1 sent hs hf
  rw [hq.writers, List.flatMap_eq_nil_iff.2 hq.listeners, List.flatMap_nil, List.append_nil, List.append_nil] at h2
  have h1 : (x.inp.workers.map fun k => (received k.hist).map linesOf).map (List.map List.flatten) = x.inp.workers.map fun k => received k.hist := by
    rw [List.map_map]
    apply List.map_congr_left
    intro k _
    exact map_linesOf _
  have e : (x.inp.workers.map fun k => (received k.hist).map linesOf).flatten.flatten = (x.inp.workers.map fun k => received k.hist).flatten.flatMap linesOf := by
    induction x.inp.workers with
    | nil => rfl
    | cons k ks ih => rw [List.map_cons, List.map_cons, List.flatten_cons, List.flatten_cons, List.flatten_append, List.flatMap_append, ih]; rfl
  obtain ⟨w1, w2⟩ := workers_texts (wc := x.conf) h1 fun t ht => by
    rw [e] at ht
    rw [writerConf_size hw.conf]
    exact hl t (h2.mem_iff.1 ht)
  rw [← kept_taken hw] at hts hcons ⊢
  refine content_of_workers (I.writers x hx).2 ((C112_sizes L D).2 x hx) w1 (fun k hk => ⟨hq.unsent k hk, ha k hk⟩) ?_ sets hts hcons ws hws k v
  intro line
  have hm := (kept_perm x.conf.rules h2).mem_iff (a := line)
  rw [← e, ← w2, List.mem_flatMap] at hm
  exact hm

theorem ReadFrom.rule (h : ReadFrom k l wc) : wc.rule = rulesFrom l.rule k.rule := by
  obtain ⟨fs, env, f, h, hk, hl⟩ := h
  obtain ⟨k1, l1, a1, a2, a3⟩ := C63_rules_partial fs env f wc h
  rw [hl] at a2; injection a2 with a2; subst a2
  have : k1 = k := by
    rcases a1 with a1 | ⟨a1, rfl⟩ <;> rcases hk with b1 | ⟨b1, rfl⟩ <;> rw [a1] at b1
    · injection b1
    · cases b1
    · cases b1
  rw [a3, this]

open Classical in
/-- **C115 (by default).** A writer with a file that has neither `nats_subject` nor rules, on a machine whose common file has neither, subscribes to the default subject of the listeners and takes every line. -/
theorem C115_default (h : ReadFrom k l wc) (hk : k.natsSubject = none ∧ k.rule = none) (hl : l.natsSubject = none ∧ l.rule = none) :
    wc.natsSubject = [b!"influx-spout"] ∧ ∀ lines, taken compile wc lines = lines := by
  obtain ⟨P, -⟩ := h.keys
  refine ⟨?_, ?_⟩
  · rw [P.natsSubject, hk.1, hl.1]; rfl
  · have : wc.rule = [] := by rw [h.rule, hk.2, hl.2]; rfl
    intro lines
    exact List.filter_eq_self.2 fun line _ => decide_eq_true (.inl this)

/-! ## A case: a listener and a writer, and no filter -/

def rawWriter : Layer :=
  { mode := some b!"writer", batchMaxCount := some 1, batchMaxSize := some 1000, batchMaxAge := some 10,
    writerRetryBatches := some 1, writerRetryInterval := some 5, writerRetryTimeout := some 1000 }

/-- A machine with these files. -/
def rawSystem : Bytes → FileState := fun n =>
  if n = b!"listener.toml" then .decoded fileListener else if n = b!"filter.toml" then .decoded fileFilter
  else if n = b!"writer.toml" then .decoded rawWriter else .notExist

def rawConf (n : Bytes) : Config := (newConfigFromFile rawSystem (fun _ => []) n).getD {}

def rawConfs : Confs := ⟨[rawConf b!"listener.toml"], rawConf b!"filter.toml", [], [rawConf b!"writer.toml"]⟩

theorem rawConf_read {n : Bytes} {l : Layer} (hn : rawSystem n = .decoded l) (h : (newConfigFromFile rawSystem (fun _ => []) n).isSome = true) :
    ReadFrom {} l (rawConf n) := by
  refine ⟨rawSystem, fun _ => [], n, ?_, .inr ⟨by decide +kernel, rfl⟩, hn⟩
  unfold rawConf
  cases hn : newConfigFromFile rawSystem (fun _ => []) n with
  | none => rw [hn] at h; cases h
  | some c => rfl

theorem rawConfs_loaded : rawConfs.Loaded := by
  refine ⟨?_, ⟨(rawConf_read (n := b!"filter.toml") rfl (by decide +kernel)).loaded, by decide +kernel⟩, (fun c hc => by cases hc), ?_⟩ <;> intro c hc <;> rw [List.mem_singleton.1 hc]
  · exact ⟨(rawConf_read rfl (by decide +kernel)).loaded, by decide +kernel⟩
  · exact ⟨(rawConf_read rfl (by decide +kernel)).loaded, by decide +kernel⟩

theorem rawConfs_separate : rawConfs.SeparateRaw (rawConf b!"writer.toml") := by
  refine ⟨by decide +kernel, by decide +kernel, (fun c hc => by cases hc), by decide +kernel⟩

theorem rawFilter_conf : filterConf (fun _ => none) rawConfs.filter = .ok (some ⟨b!"influx-spout", 1000, exRules, b!"junk"⟩) := by
  have e : rawConfs.filter.rule = [⟨b!"basic", b!"cpu", [], b!"cpu-subject"⟩, ⟨b!"tags", [], [[b!"h", b!"1"]], b!"tag-subject"⟩] := by decide +kernel
  have e1 : rawConfs.filter.natsSubject = [b!"influx-spout"] := by decide +kernel
  have e2 : rawConfs.filter.maxTimeDelta = 1000 := by decide +kernel
  have e3 : rawConfs.filter.natsSubjectJunkyard = b!"junk" := by decide +kernel
  unfold filterConf
  rw [e, e1, e2, e3]
  rfl

theorem rawWriter_conf : writerConf (fun _ => none) (rawConf b!"writer.toml") = .ok (some exStoreConf) := by
  have e : (rawConf b!"writer.toml").rule = [] := by decide +kernel
  have e1 : (rawConf b!"writer.toml").batchMaxCount = 1 ∧ (rawConf b!"writer.toml").batchMaxSize = 1000 ∧ (rawConf b!"writer.toml").batchMaxAge = 10 ∧
    (rawConf b!"writer.toml").writerRetryBatches = 1 ∧ (rawConf b!"writer.toml").writerRetryInterval = 5 ∧
    (rawConf b!"writer.toml").writerRetryTimeout = 1000 := by decide +kernel
  unfold writerConf
  rw [e, e1.1, e1.2.1, e1.2.2.1, e1.2.2.2.1, e1.2.2.2.2.1, e1.2.2.2.2.2]
  rfl

/-- No filter is running: its subscription has no members. -/
def rwState (l : LComp) (pending : List Bytes) (w : Group WSys) : State exSetup :=
  ⟨[l], [], ⟨[⟨b!"influx-spout", pending, []⟩], [], []⟩, [], [⟨[b!"influx-spout"], exStoreConf, w⟩]⟩

def rwStart : State exSetup :=
  rwState (.udp (Listener.new ⟨1, 1000, 1048576⟩ 0) []) [] (stGroup b!"influx-spout" [] [] [] [] [] (WSys.start exStoreConf 100000 0))

theorem rw_start : Start exSetup rwStart := by
  refine ⟨?_, rfl, ⟨⟨rfl, (fun y hy => by cases hy), rfl⟩, (fun y hy => by cases hy)⟩, (fun y hy => by cases hy), ?_⟩
  · intro y hy
    rw [List.mem_singleton.1 hy]
    exact ⟨_, _, Or.inl rfl⟩
  · intro y hy
    rw [List.mem_singleton.1 hy]
    refine ⟨⟨rfl, ?_, rfl⟩, ?_⟩
    · intro z hz
      rw [List.mem_singleton.1 hz]; rfl
    · intro z hz k hk
      rw [List.mem_singleton.1 hz] at hk
      exact ⟨100000, 0, List.mem_singleton.1 hk⟩

/-- The datagram has arrived, and its lines are on the way to the writer. -/
def rwBusy : State exSetup :=
  rwState (.udp stL [stEvent]) [stMsg] (stGroup b!"influx-spout" [stMsg] [] [] [] [] (WSys.start exStoreConf 100000 0))

theorem rw_busy : Reach exSetup rwStart rwBusy :=
  Reach.refl.step (Step.udp rwStart 0 (Listener.new ⟨1, 1000, 1048576⟩ 0) stL [] stEvent rfl (by decide) (by decide +kernel))

theorem rwBusy_deployed : Deployed (fun _ => none) rawConfs rwBusy := by
  refine ⟨⟨_, rawFilter_conf, rfl⟩, ?_, (fun y hy => by cases hy), ?_⟩
  · intro y hy
    rw [show y = .udp stL [stEvent] from List.mem_singleton.1 hy]
    refine ⟨_, List.mem_singleton.2 rfl, .udp _ _ (by decide +kernel) ?_, by decide +kernel⟩
    decide +kernel
  · intro y hy
    rw [List.mem_singleton.1 hy]
    refine ⟨_, List.mem_singleton.2 rfl, ?_, rawWriter_conf⟩
    show [b!"influx-spout"] = _
    decide +kernel

def rwWriter (c : Group WSys) : WComp := ⟨[b!"influx-spout"], exStoreConf, c⟩

theorem rw_in (l : LComp) (p : List Bytes) {c c' : Group WSys} (h : Group.Step c c') : Step exSetup (rwState l p c) (rwState l p c') :=
  Step.writerIn (rwState l p c) 0 (rwWriter c) c' rfl h

theorem rw_do (l : LComp) (p : List Bytes) {c c' : Group WSys} {k k' : WSys} (hr : WStep exStoreConf k k')
    (hm : received k'.hist = received k.hist) (h : c.Work k k' c') : Step exSetup (rwState l p c) (rwState l p c') :=
  Step.writer (rwState l p c) 0 (rwWriter c) c' k k' rfl hr hm h

theorem rw_recv (l : LComp) (p : List Bytes) {c c' : Group WSys} {k k' : WSys} {m : Bytes} (hr : WStep exStoreConf k k')
    (hm : k'.hist = k.hist ++ [.recv m k.now]) (h : c.Take m k k' c') : Step exSetup (rwState l p c) (rwState l p c') :=
  Step.writerTake (rwState l p c) 0 (rwWriter c) m c' k k' rfl hr hm h

theorem rw_writer {l : LComp} {p : List Bytes} (arrived got : List Bytes) {as : List WAct} : ∀ {k k' : WSys},
    QRun exSetup rwBusy (rwState l p (stGroup b!"influx-spout" [] arrived [] [] got k)) → stActs k as = some k' →
    QRun exSetup rwBusy (rwState l p (stGroup b!"influx-spout" [] arrived [] [] got k')) := by
  induction as with
  | nil =>
    intro k k' hr h
    simp only [stActs] at h
    injection h with h
    rw [← h]; exact hr
  | cons a as ih =>
    intro k k' hr h
    simp only [stActs] at h
    cases ha : wAct exStoreConf k a with
    | none => rw [ha] at h; cases h
    | some k1 =>
      rw [ha] at h
      have h : (if received k1.hist = received k.hist then stActs k1 as else none) = some k' := h
      by_cases hm : received k1.hist = received k.hist
      · rw [if_pos hm] at h
        exact ih (hr.step (rw_do _ _ (wAct_sound ha) hm (st_work _ _ _ _ _ _ _ _)) rfl) h
      · rw [if_neg hm] at h; cases h

def rwK (k : WSys) : Option WSys := (wAct exStoreConf k (.recv stMsg)).bind fun k1 =>
  if k1.hist = k.hist ++ [.recv stMsg k.now] then stActs k1 [.check, .first (.status 204)] else none

def rwHist : List WEv := [.recv stMsg 0, .flush stMsg 0, .first 0 stMsg (.status 204) 0]

theorem rw_handled : Handled rwHist [(stLine, 0), (b!"mem,h=1 f=2 9900\n", 0)] := by
  have h0 : Handled [.recv stMsg 0] [] := Handled.other (h := []) _ .nil (by simp) (by simp)
  have h1 := Handled.other (.flush stMsg 0) h0 (by simp) (by simp)
  have h2 := Handled.firstOk 0 stMsg (.status 204) 0 h1 ok204
  have e : linesOf stMsg = [stLine, b!"mem,h=1 f=2 9900\n"] := by decide +kernel
  rw [e] at h2
  exact h2

/-- The lines are written. -/
theorem rw_end : ∃ k : WSys, k.hist = rwHist ∧ unsentBytes k = [] ∧ Rest k ∧
    QRun exSetup rwBusy (rwState (.udp stL [stEvent]) [stMsg] (stGroup b!"influx-spout" [] [stMsg] [] [] [stMsg] k)) := by
  have r1 : QRun exSetup rwBusy (rwState (.udp stL [stEvent]) [stMsg] (stGroup b!"influx-spout" [] [stMsg] [stMsg] [] [] (WSys.start exStoreConf 100000 0))) :=
    QRun.refl.step (rw_in _ _ (st_deliver _ _ _ _ _ _ _)) rfl
  have hr : QRun exSetup rwBusy (rwState (.udp stL [stEvent]) [stMsg] (stGroup b!"influx-spout" [] [stMsg] [] [stMsg] [] (WSys.start exStoreConf 100000 0))) :=
    r1.step (rw_in _ _ (st_push _ _ _ _ _)) rfl
  have hk : ((rwK (WSys.start exStoreConf 100000 0)).map fun k => (k.hist, unsentBytes k, stRest k)) = some (rwHist, [], true) := by decide +kernel
  cases hc : rwK (WSys.start exStoreConf 100000 0) with
  | none => rw [hc] at hk; cases hk
  | some k =>
    rw [hc] at hk
    have hk : some (k.hist, unsentBytes k, stRest k) = some (rwHist, [], true) := hk
    injection hk with hk
    injection hk with hk1 hk2
    injection hk2 with hk2 hk3
    have hrest : Rest k := by
      unfold stRest at hk3
      simp only [Bool.and_eq_true, Option.isNone_iff_eq_none, List.isEmpty_iff] at hk3
      refine ⟨hk2, fun i chunk rest hp => ?_, hk3.1.2, hk3.2⟩
      have := hk3.1.1
      rw [hp] at this
      cases this
    refine ⟨k, hk1, hk2, hrest, ?_⟩
    unfold rwK at hc
    generalize WSys.start exStoreConf 100000 0 = k0 at hc hr
    cases ha : wAct exStoreConf k0 (.recv stMsg) with
    | none => rw [ha] at hc; cases hc
    | some k1 =>
      rw [ha] at hc
      have hc : (if k1.hist = k0.hist ++ [.recv stMsg k0.now] then stActs k1 _ else none) = some k := hc
      by_cases hm : k1.hist = k0.hist ++ [.recv stMsg k0.now]
      · rw [if_pos hm] at hc
        exact rw_writer [stMsg] [stMsg] (hr.step (rw_recv _ _ (wAct_sound ha) hm (st_take _ _ _ _ _ _)) rfl) hc
      · rw [if_neg hm] at hc; cases hc

/-- The hypotheses of C115 are met at the end of a fair schedule, without a filter; both lines are written. -/
example : ∃ (f : Nat → State exSetup) (N : Nat) (s : State exSetup) (x : WComp) (ws : List (Bytes × Int)), rawConfs.Loaded ∧ Start exSetup rwStart ∧ Reach exSetup rwStart rwBusy ∧
    Deployed (fun _ => none) rawConfs rwBusy ∧ rawConfs.SeparateRaw (rawConf b!"writer.toml") ∧ rwBusy.filters.members = [] ∧
    Schedule exSetup rwBusy f ∧ Fair f ∧ (∀ n, N ≤ n → f n = s) ∧ s.ListenersPublish ∧ x ∈ s.writers ∧ x.inp.members ≠ [] ∧
    WriterOf (fun _ => none) (rawConf b!"writer.toml") x ∧ NothingLostRaw s x ∧ QuietRaw s x ∧ AcceptedAll x ∧ Each2 Sent s.sources [[stLine, b!"mem,h=1 f=2 9900\n"]] ∧
    (∀ line ∈ [stLine, b!"mem,h=1 f=2 9900\n"], IsLine line ∧ line.length ≤ (rawConf b!"writer.toml").batchMaxSize + 1) ∧
    taken (fun _ => none) (rawConf b!"writer.toml") [stLine, b!"mem,h=1 f=2 9900\n"] = [stLine, b!"mem,h=1 f=2 9900\n"] ∧
    Timestamped exSets [stLine, b!"mem,h=1 f=2 9900\n"] ∧ Consistent exSets [stLine, b!"mem,h=1 f=2 9900\n"] ∧
    HandledAll x.inp.workers ws ∧ stored exSets ws (.inr (b!"cpu", b!"f", b!"9900")) = some b!"1" := by
  have ts : Timestamped exSets [stLine, b!"mem,h=1 f=2 9900\n"] := by
    intro line hline t t'
    rcases List.mem_cons.1 hline with rfl | hline
    · rfl
    · rw [List.mem_singleton.1 hline]; rfl
  have co : Consistent exSets [stLine, b!"mem,h=1 f=2 9900\n"] := by
    intro l hl l' hl' t t' key v v' ha hb
    rw [ts l hl t 0] at ha
    rw [ts l' hl' t' 0] at hb
    have e1 : exSets 0 stLine = [(.inr (b!"cpu", b!"f", b!"9900"), b!"1")] := rfl
    have e2 : exSets 0 b!"mem,h=1 f=2 9900\n" = [(.inr (b!"mem,h=1", b!"f", b!"9900"), b!"2")] := rfl
    rcases List.mem_cons.1 hl with rfl | hl <;> rcases List.mem_cons.1 hl' with rfl | hl'
    · rw [e1, List.mem_singleton] at ha hb
      injection ha with _ ha; injection hb with _ hb
      rw [ha, hb]
    · rw [List.mem_singleton.1 hl', e2, List.mem_singleton] at hb
      rw [e1, List.mem_singleton] at ha
      injection ha with ha _; injection hb with hb _
      rw [ha] at hb
      exact absurd hb (by simp)
    · rw [List.mem_singleton.1 hl, e2, List.mem_singleton] at ha
      rw [e1, List.mem_singleton] at hb
      injection ha with ha _; injection hb with hb _
      rw [ha] at hb
      exact absurd hb (by simp)
    · rw [List.mem_singleton.1 hl, e2, List.mem_singleton] at ha
      rw [List.mem_singleton.1 hl', e2, List.mem_singleton] at hb
      injection ha with _ ha; injection hb with _ hb
      rw [ha, hb]
  obtain ⟨k, h1, h2, hrest, hq⟩ := rw_end
  obtain ⟨f, N, F, hN⟩ := hq.schedule
  have hfin : (rwState (.udp stL [stEvent]) [stMsg] (stGroup b!"influx-spout" [] [stMsg] [] [] [stMsg] k)).Finished := by
    refine ⟨?_, ⟨?_, rfl⟩, (fun y hy => by cases hy), (fun y hy => by cases hy), ?_⟩
    · intro y hy
      rw [List.mem_singleton.1 hy]
      exact rfl
    · intro h; exact absurd rfl h
    · intro y hy
      rw [List.mem_singleton.1 hy]
      refine ⟨⟨?_, rfl⟩, ?_⟩
      · intro _ z hz
        rw [List.mem_singleton.1 hz]
      · intro k' hk'
        rw [List.mem_singleton.1 hk']
        exact hrest
  have hfair : Fair f := schedule_fair F fun n hn => by rw [hN n hn]; exact hfin
  have hlost : NothingLostRaw (rwState (.udp stL [stEvent]) [stMsg] (stGroup b!"influx-spout" [] [stMsg] [] [] [stMsg] k))
      (rwWriter (stGroup b!"influx-spout" [] [stMsg] [] [] [stMsg] k)) := ⟨(fun y hy => by cases hy), rfl, (fun y hy => by cases hy)⟩
  have hw : WriterOf (fun _ => none) (rawConf b!"writer.toml") (rwWriter (stGroup b!"influx-spout" [] [stMsg] [] [] [stMsg] k)) := by
    refine ⟨?_, rawWriter_conf⟩
    show [b!"influx-spout"] = _
    decide +kernel
  refine ⟨f, N, _, rwWriter _, [(stLine, 0), (b!"mem,h=1 f=2 9900\n", 0)], rawConfs_loaded, rw_start, rw_busy, rwBusy_deployed, rawConfs_separate,
    rfl, F, hfair, hN, ?_, List.mem_singleton.2 rfl, (fun h => by cases h), hw, hlost,
    raw_quiet hfin (List.mem_singleton.2 rfl) (fun h => by cases h) hlost, ?_, ?_, ?_,
    (C115_default (rawConf_read (n := b!"writer.toml") (l := rawWriter) rfl (by decide +kernel)) ⟨rfl, rfl⟩ ⟨rfl, rfl⟩).2 _, ts, co,
    ⟨[[(stLine, 0), (b!"mem,h=1 f=2 9900\n", 0)]], rfl, ?_, .refl _⟩, by decide⟩
  · intro y hy
    have hy : y = LComp.udp stL [stEvent] := List.mem_singleton.1 hy
    rw [hy]; decide
  · intro k' hk' i dd r t hi
    have hk' : k' = k := List.mem_singleton.1 hk'
    rw [hk', h1] at hi ⊢
    simp [rwHist] at hi
    rw [hi.1]
    exact Or.inl ⟨stMsg, .status 204, 0, by simp [rwHist], ok204⟩
  · have e : [stLine, b!"mem,h=1 f=2 9900\n"] = sentLines [stEvent] := by decide +kernel
    rw [e]
    exact .cons (.udp _ _) .nil
  · have e : (rawConf b!"writer.toml").batchMaxSize = 1000 := by decide +kernel
    rw [e]
    intro line hline
    rcases List.mem_cons.1 hline with rfl | hline
    · exact ⟨⟨b!"cpu f=1 9900", by decide, rfl⟩, by decide⟩
    · rw [List.mem_singleton.1 hline]
      exact ⟨⟨b!"mem,h=1 f=2 9900", by decide, rfl⟩, by decide⟩
  · intro i s l g1 g2
    match i with
    | 0 =>
      have g1 : [k][0]? = some s := g1
      simp only [List.getElem?_cons_zero, Option.some.injEq] at g1 g2
      rw [← g1, ← g2, h1]
      exact rw_handled
    | i + 1 => cases g2

end Spout.Deploy
