import Verif.Props.DeploymentSchema
import Verif.Props.DeploymentFilesArchive
import Verif.Props.DeploymentFilesRaw

/-! # Archives of archives, from configuration files (C121)

C117 and C120 for processes that are started from configuration files: the levels of an archive are read off the files. -/

namespace Spout.Deploy
open Spout Spout.Listener Spout.Pool Spout.Spec Spout.Delivery Spout.Conf Spout.Conf.Spec

/-! ## Specification -/

variable (compile : Bytes → Option (Bytes → Bool))

/-- The levels of the archive of subject `sub`, from the files of the downsamplers: a file with the subject makes the archive with the file's period on the subject with the file's suffix, and the archive of this is the next level.
`ps` are the periods of the levels, and `out` the subject of the last. -/
inductive Levels (cs : Confs) : Bytes → List Int → Bytes → Prop
  | none (sub : Bytes) : Levels cs sub [] sub
  | more (c : Config) (sub : Bytes) (ps : List Int) (out : Bytes) (hc : c ∈ cs.downsamplers) (hs : sub ∈ c.natsSubject)
      (rest : Levels cs (sub ++ c.downsampleSuffix) ps out) : Levels cs sub (c.downsamplePeriod :: ps) out

/-- The subjects of the archives, in the order of the files. -/
def Confs.archives (cs : Confs) : List Bytes := cs.downsamplers.flatMap fun c => c.natsSubject.map fun sub => sub ++ c.downsampleSuffix

/-- In the files, nobody but the listeners publishes to the filters, nobody but the filters on the subject `sub`, and the filters do not publish on the subject of an archive. -/
structure Confs.Layered (cs : Confs) (sub : Bytes) : Prop where
  rules : ∀ r ∈ cs.filter.rule, r.subject ∉ cs.filter.natsSubject ∧ r.subject ∉ cs.archives
  junk : cs.filter.natsSubjectJunkyard ∉ cs.filter.natsSubject ∧ cs.filter.natsSubjectJunkyard ∉ cs.archives
  downs : ∀ a ∈ cs.archives, a ∉ cs.filter.natsSubject ∧ a ≠ sub
  subject : sub ∉ cs.filter.natsSubject

/-! ## Proofs -/

variable {compile} {d : Setup} {cs : Confs} {s s0 s' : State d} {x : WComp} {wc : Config}

theorem Deployed.archives (D : Deployed compile cs s) : ∀ y ∈ s.downs, y.out ∈ cs.archives := by
  intro y hy
  obtain ⟨c, hc, hd⟩ := D.downs y hy
  rw [hd.out]
  exact List.mem_flatMap.2 ⟨c, hc, List.mem_map_of_mem hd.subject⟩

theorem Deployed.separateChain (L : cs.Loaded) (D : Deployed compile cs s) {sub out : Bytes} (hs : cs.Layered sub) {ys : List (DComp d.fo)} (C : Chain s sub ys out) :
    SeparateChain s sub ys := by
  obtain ⟨h1, h2, -, h4⟩ := D.setup L
  have ha : ∀ y ∈ ys, y.out ∈ cs.archives := fun y hy => D.archives y (chain_mem C y hy)
  refine ⟨?_, ?_, ?_, ?_⟩
  · intro r hr
    obtain ⟨r', hr', hd⟩ := described_left (rules_described h1) hr
    obtain ⟨a, b⟩ := hs.rules r' hr'
    rw [describes_subject hd]
    exact ⟨fun e => a (by rw [e, h2]; exact List.mem_singleton.2 rfl), fun y hy e => b (by rw [e]; exact ha y hy)⟩
  · rw [h4]
    exact ⟨fun e => hs.junk.1 (by rw [e, h2]; exact List.mem_singleton.2 rfl), fun y hy e => hs.junk.2 (by rw [e]; exact ha y hy)⟩
  · intro z hz
    obtain ⟨a, b⟩ := hs.downs z.out (D.archives z hz)
    exact ⟨fun e => a (by rw [e, h2]; exact List.mem_singleton.2 rfl), b⟩
  · intro e
    exact hs.subject (by rw [← e, h2]; exact List.mem_singleton.2 rfl)

theorem Deployed.acyclicChain (L : cs.Loaded) (D : Deployed compile cs s) {sub : Bytes} (hs : cs.Layered sub) : s.Acyclic := by
  obtain ⟨h1, h2, -, h4⟩ := D.setup L
  refine ⟨?_, ?_, ?_⟩
  · intro r hr e
    obtain ⟨r', hr', hd⟩ := described_left (rules_described h1) hr
    exact (hs.rules r' hr').1 (by rw [← describes_subject hd, e, h2]; exact List.mem_singleton.2 rfl)
  · intro e
    exact hs.junk.1 (by rw [← h4, e, h2]; exact List.mem_singleton.2 rfl)
  · intro y hy
    exact ⟨fun e => (hs.downs y.out (D.archives y hy)).1 (by rw [h2, e]; exact List.mem_singleton.2 rfl), fun z _ e => D.longer L hy e⟩

theorem run_trans {s1 s2 s3 : State d} (h : Run d s1 s2) (h' : Run d s2 s3) : Run d s1 s3 := by
  induction h' with
  | refl => exact h
  | step _ h' ih => exact .step ih h'

theorem run_same {s1 s2 : State d} (h : Run d s1 s2) : SameSetup s1 s2 := by
  induction h with
  | refl => exact .refl _
  | step _ h ih => exact ih.trans (step_same h)

theorem nodup_index {α : Type} {l : List α} (h : l.Nodup) {i j : Nat} {a : α} (hi : l[i]? = some a) (hj : l[j]? = some a) : j = i := by
  obtain ⟨hi', ei⟩ := List.getElem?_eq_some_iff.1 hi
  obtain ⟨hj', ej⟩ := List.getElem?_eq_some_iff.1 hj
  exact (List.Nodup.getElem_inj_iff h).1 (ej.trans ei.symm)

/-- A chain is determined by the subjects of the downsamplers. -/
theorem chain_of_levels {sub out : Bytes} {ps : List Int} (hl : Levels cs sub ps out) (hn : (s.downs.map (·.out)).Nodup) {now : Int}
    (H : ∀ c ∈ cs.downsamplers, ∀ sub ∈ c.natsSubject, ∃ y ∈ s.downs, DownOf c y ∧ y.subject = sub ∧ y.now0 = now) :
    ∃ ys, Chain s sub ys out ∧ ys.map (fun y => (y.period, y.now0)) = ps.map fun p => (p, now) := by
  induction hl with
  | none sub => exact ⟨[], .none sub, rfl⟩
  | more c sub ps out hc hs rest ih =>
    obtain ⟨ys, C, e⟩ := ih
    obtain ⟨y, hy, hd, rfl, hnow⟩ := H c hc sub hs
    obtain ⟨i, hi⟩ := List.mem_iff_getElem?.1 hy
    rw [← hd.out] at C
    refine ⟨y :: ys, .more i y ys out hi ?_ C, ?_⟩
    · intro j z hj ho
      refine nodup_index hn (a := y.out) ?_ ?_
      · rw [List.getElem?_map, hi]; rfl
      · rw [List.getElem?_map, hj]; exact congrArg some ho
    · rw [List.map_cons, List.map_cons, e, hd.period, hnow]

/-- **C121 (the levels of the files exist).** Processes are started from accepted files of which no two archives have the same subject. In every state that is reached by any steps of these processes, for all levels of archives of the files there are
downsamplers of which the first reads the subject, every other one what the one before publishes, where nobody else publishes, with the periods in the files. -/
theorem C121_levels_exist (L : cs.Loaded) {S : Sorter} {fo : FloatOps} {f : FConf} (procs pages n : Nat) (now : Int) (hn : cs.archives.Nodup) {s : State (f.setup S fo)}
    (h : Run (f.setup S fo) (startAll compile procs pages n now (f.setup S fo) cs) s) {sub out : Bytes} {ps : List Int} (hl : Levels cs sub ps out) :
    ∃ ys, Chain s sub ys out ∧ ys.map (fun y => (y.period, y.now0)) = ps.map fun p => (p, now) := by
  have key : SameSetup (startAll compile procs pages n now (f.setup S fo) cs) s := run_same h
  refine chain_of_levels hl ?_ ?_
  · have e : s.downs.map (·.out) = (startAll compile procs pages n now (f.setup S fo) cs).downs.map (·.out) := by
      have := congrArg (List.map fun z => z.2.1) key.downs
      simpa [List.map_map, Function.comp_def] using this
    rw [e]
    have e' : (startAll compile procs pages n now (f.setup S fo) cs).downs.map (·.out) = cs.archives := by
      show (cs.downsamplers.flatMap (startDownsampler fo now)).map (·.out) = _
      unfold Confs.archives
      rw [List.map_flatMap]
      congr 1
      funext c
      unfold startDownsampler
      rw [List.map_map]; rfl
    rw [e']
    exact hn
  · intro c hc sub hs
    obtain ⟨-, -, -, -, h⟩ := C112_everything_starts (compile := compile) L (S := S) (fo := fo) (f := f) procs pages n now
    obtain ⟨y, h1, h2, h3, h4, -⟩ := h c hc sub hs
    obtain ⟨z, hz, e⟩ := mem_of_map key.downs.symm h1
    simp only [Prod.mk.injEq] at e
    obtain ⟨e1, e2, e3, e4, -⟩ := e
    exact ⟨z, hz, ⟨by rw [e1]; exact h2.subject, by rw [e2, e1]; exact h2.out, by rw [e3]; exact h2.period⟩, e1.trans h3, e4.trans h4⟩

/-- **C121 (archives of archives, from files).** Processes started from accepted configuration files, in any schedule, with processes starting and crashing: when nothing is left to do and the downsamplers hold nothing, for every chain of
downsamplers and every writer whose file names the output of the last: if no publish failed, the lines were timely, nothing was lost, the lines that the filter's file sends to the first subject are measurements `pts` that conform to a schema, and
every downsampler gets its input on time, then the workers of the writer have sent to InfluxDB, each once, those of the lines that the levels of aggregation make of `pts` that the rules in its file take. -/
theorem C121_chain_archived (L : cs.Loaded) (h0 : Start d s0) (h : Reach d s0 s) (D : Deployed compile cs s) (hc : s.Complete) (hpl : PlainFloats d.fo) (hrd : ReadableFloats d.fo)
    {sub out : Bytes} (hsep : cs.Layered sub) {ys : List (DComp d.fo)} (C : Chain s sub ys out) (H : ∀ y ∈ ys, WellRun y)
    (hx : x ∈ s.writers) (hw : WriterOf compile wc x) (hxs : wc.natsSubject = [out])
    (sent : List (List Bytes)) (hs : Each2 Sent s.sources sent) (hl : ∀ line ∈ sent.flatten, TagsInOrder line) (hf : s.NoFailure) (ht : s.Timely) (hm : s.filters.members ≠ []) (hxm : x.inp.members ≠ [])
    (N : NothingLost s x) (pts : List Point) (hp : linesFor compile cs.filter sub sent.flatten = pts.map Point.text) (T : Schema) (hT : ∀ p ∈ pts, Conforms d.fo T p)
    (B : Int) (hB : ∀ p ∈ pts, p.ts < B) (hlim : B + (ys.map (·.period)).sum < 9223372036854775808) :
    ∃ (outs : List Point) (sentBy : List (List Bytes)), Archives d.fo (ys.map fun y => (y.period, y.now0)) pts outs ∧
      sentBy.map List.flatten = x.inp.workers.map (fun k => firstData k.hist) ∧ sentBy.flatten.Perm (taken compile wc (outs.map Point.text)) := by
  obtain ⟨outs, sentBy, a1, a2, a3⟩ := C120_chain_archived h0 h hc hpl hrd C (D.separateChain L hsep C) H hx (hw.subjects.trans hxs) (C112_sizes L D).1 sent hs hf ht hm hxm N pts
    (by rw [textsFor_linesFor L D x.conf sub hl, hp]) T hT B hB hlim
  exact ⟨outs, sentBy, a1, a2, by rwa [kept_taken hw] at a3⟩

theorem sum_periods {fo : FloatOps} {ys : List (DComp fo)} {ps : List Int} {now : Int} (e : ys.map (fun y => (y.period, y.now0)) = ps.map fun p => (p, now)) :
    (ys.map (·.period)).sum = ps.sum := by
  have := congrArg (fun l => (l.map Prod.fst).sum) e
  simpa [List.map_map, Function.comp_def] using this

/-- **C121 (under every fair schedule).** Processes are started from accepted files of which no two archives have the same subject; any steps follow, with any input, until nothing more is sent to the listeners. Under every schedule that is fair to the archive
there is a moment from which on nothing is left to do, and for all levels of archives of the files there are the downsamplers that make them: if no publish failed, the lines were timely and nothing was lost, the lines that the filter's file sends to
the first subject are measurements that conform to a schema, and these downsamplers get their input on time, then every writer whose file names the subject of the last level has sent to InfluxDB, each once, those of the lines that these levels make of
the measurements that the rules in its file take. -/
theorem C121_archives_from_files (L : cs.Loaded) (hcon : cs.Connected) {S : Sorter} {fo : FloatOps} {fc : FConf} (hfc : filterConf compile cs.filter = .ok (some fc)) (procs pages n : Nat) (now : Int)
    (hn : cs.archives.Nodup) (hn0 : n ≠ 0) (hpl : PlainFloats fo) (hrd : ReadableFloats fo) {s : State (fc.setup S fo)} (h : Run (fc.setup S fo) (startAll compile procs pages n now (fc.setup S fo) cs) s)
    {sub : Bytes} (hsep : cs.Layered sub) (sent : List (List Bytes)) (hs : Each2 Sent s.sources sent) (hl : ∀ line ∈ sent.flatten, TagsInOrder line)
    (pts : List Point) (hp : linesFor compile cs.filter sub sent.flatten = pts.map Point.text) (T : Schema) (hT : ∀ p ∈ pts, Conforms fo T p) (B : Int) (hB : ∀ p ∈ pts, p.ts < B)
    {f : Nat → State (fc.setup S fo)} (F : Schedule (fc.setup S fo) s f) (hfair : FairArchive f) :
    ∃ k0, ∀ k, k0 ≤ k → (f k).Complete ∧ ((f k).NoFailure → (f k).Timely → ∀ (ps : List Int) (out : Bytes), Levels cs sub ps out → B + ps.sum < 9223372036854775808 →
      (∃ ys, Chain (f k) sub ys out ∧ ys.map (fun y => (y.period, y.now0)) = ps.map (fun p => (p, now))) ∧
      ∀ ys, Chain (f k) sub ys out → ys.map (fun y => (y.period, y.now0)) = ps.map (fun p => (p, now)) → (∀ y ∈ ys, WellRun y) →
        ∀ (x : WComp) (wc : Config), x ∈ (f k).writers → WriterOf compile wc x → wc.natsSubject = [out] → x.inp.members ≠ [] → NothingLost (f k) x →
        ∃ (outs : List Point) (sentBy : List (List Bytes)), Archives fo (ps.map fun p => (p, now)) pts outs ∧
          sentBy.map List.flatten = x.inp.workers.map (fun w => firstData w.hist) ∧ sentBy.flatten.Perm (taken compile wc (outs.map Point.text))) := by
  obtain ⟨h0, D0⟩ := C112_starts (compile := compile) L hcon (S := S) (fo := fo) hfc procs pages n now
  have D := C112_stays D0 h
  have hr : Reach _ _ s := Reach.refl.run h
  obtain ⟨N, hN⟩ := C102_fair_completes h0 hr (D.acyclicChain L hsep) (C112_sizes L D).2 F hfair
  refine ⟨N, fun k hk => ⟨hN k hk, fun a b ps out hlv hlim => ?_⟩⟩
  obtain ⟨-, -, -, hrun⟩ := F.ok (inv_reach h0 hr) (D.acyclicChain L hsep) (C112_sizes L D).2 k
  have hall : Run (fc.setup S fo) (startAll compile procs pages n now (fc.setup S fo) cs) (f k) := run_trans h hrun
  refine ⟨C121_levels_exist (compile := compile) L procs pages n now hn hall hlv, fun ys C e H x wc hx hw hxs hxm hlost => ?_⟩
  have hsame : SameSetup (startAll compile procs pages n now (fc.setup S fo) cs) (f k) := run_same hall
  have hm : (f k).filters.members ≠ [] := by
    refine (Group.fixed_eq hsame.filters).2.2 ?_
    show List.replicate n _ ≠ []
    intro e
    exact hn0 (by simpa using congrArg List.length e)
  have := C121_chain_archived L h0 (hr.run hrun) (C112_stays D hrun) (hN k hk) hpl hrd hsep C H hx hw hxs sent (F.sent hs k) hl a b hm hxm hlost pts hp T hT B hB (by rw [sum_periods e]; exact hlim)
  rw [e] at this
  exact this

/-- **C121 (everything keeps to the schema, from files).** Whatever fails, crashes, is lost or comes late: if the lines that the filter's file sends to a subject are measurements that conform to a schema, then no downsampler of a chain from this subject counts an
invalid line, and everything on its last subject, and in the writes of the writers whose files name it, is lines of measurements that conform to the schema. (Provided that no line had to be cut.) -/
theorem C121_schema (L : cs.Loaded) (h0 : Start d s0) (h : Reach d s0 s) (D : Deployed compile cs s) (hpl : PlainFloats d.fo) (hrd : ReadableFloats d.fo) {sub out : Bytes} (hsep : cs.Layered sub)
    {ys : List (DComp d.fo)} (C : Chain s sub ys out) (H : ∀ y ∈ ys, Uncut y) (sent : List (List Bytes)) (hs : Each2 Sent s.sources sent) (hl : ∀ line ∈ sent.flatten, TagsInOrder line)
    (T : Schema) (B : Int) (ht : ∀ t ∈ linesFor compile cs.filter sub sent.flatten, TypedLine d.fo T B t) (hB : B + (ys.map (·.period)).sum ≤ 9223372036854775808) :
    (∀ y ∈ ys, ∀ k ∈ y.inp.workers, k.w.stats.invalidLines = 0) ∧
    (∀ m ∈ onSubj out s.out, Typed d.fo T (B + (ys.map (·.period)).sum) m) ∧
    ∀ x ∈ s.writers, ∀ wc, WriterOf compile wc x → wc.natsSubject = [out] → Fits x → ∀ k ∈ x.inp.workers, ∀ (i : Nat) (body : Bytes) (t : Int),
      ((∃ r, .first i body r t ∈ k.hist) ∨ .attempt i body t ∈ k.hist) → Typed d.fo T (B + (ys.map (·.period)).sum) body := by
  obtain ⟨a1, a2, a3⟩ := C120_deployment h0 h hpl hrd C (D.separateChain L hsep C) H (C112_sizes L D).1 sent hs (⟨0, 0, 0, [], 0, 0, 0⟩ : WConf) T B
    (by rw [textsFor_linesFor L D _ sub hl]; exact ht) hB
  exact ⟨a1, a2, fun x hx wc hw hxs F k hk i body t hb => a3 x hx (hw.subjects.trans hxs) F k hk i body t hb⟩

/-! ## A case: the deployment of `Props/DeploymentChain`, from files -/

def chFilter : Layer := { arcFilter with workers := some 1 }

/-- The second level: the archive of the archive. -/
def chDown : Layer := { mode := some b!"downsampler", natsSubject := some [b!"m-subject-archive"], downsamplePeriod := some 20 }

def chWriter : Layer := { arcWriter with natsSubject := some [b!"m-subject-archive-archive"], workers := some 1 }

/-- A machine with these files. -/
def chSystem : Bytes → FileState := fun n =>
  if n = b!"listener.toml" then .decoded arcListener else if n = b!"filter.toml" then .decoded chFilter
  else if n = b!"downsampler.toml" then .decoded arcDown else if n = b!"downsampler2.toml" then .decoded chDown
  else if n = b!"writer.toml" then .decoded chWriter else .notExist

def chConf (n : Bytes) : Config := (newConfigFromFile chSystem (fun _ => []) n).getD {}

def chConfs : Confs := ⟨[chConf b!"listener.toml"], chConf b!"filter.toml", [chConf b!"downsampler.toml", chConf b!"downsampler2.toml"], [chConf b!"writer.toml"]⟩

theorem chConf_read {n : Bytes} {l : Layer} (hn : chSystem n = .decoded l) (h : (newConfigFromFile chSystem (fun _ => []) n).isSome = true) :
    ReadFrom {} l (chConf n) := by
  refine ⟨chSystem, fun _ => [], n, ?_, .inr ⟨by decide +kernel, rfl⟩, hn⟩
  unfold chConf
  cases hn : newConfigFromFile chSystem (fun _ => []) n with
  | none => rw [hn] at h; cases h
  | some c => rfl

theorem chConfs_loaded : chConfs.Loaded := by
  refine ⟨?_, ⟨(chConf_read (n := b!"filter.toml") rfl (by decide +kernel)).loaded, by decide +kernel⟩, ?_, ?_⟩ <;> intro c hc
  · rw [List.mem_singleton.1 hc]
    exact ⟨(chConf_read rfl (by decide +kernel)).loaded, by decide +kernel⟩
  · rcases List.mem_cons.1 hc with rfl | hc
    · exact ⟨(chConf_read rfl (by decide +kernel)).loaded, by decide +kernel⟩
    · rw [List.mem_singleton.1 hc]
      exact ⟨(chConf_read rfl (by decide +kernel)).loaded, by decide +kernel⟩
  · rw [List.mem_singleton.1 hc]
    exact ⟨(chConf_read rfl (by decide +kernel)).loaded, by decide +kernel⟩

theorem chConfs_connected : chConfs.Connected := by
  intro c hc
  rw [List.mem_singleton.1 hc]
  decide +kernel

def chF : FConf := ⟨b!"influx-spout", 1000, arRules, b!"junk"⟩

theorem chFilter_conf : filterConf (fun _ => none) chConfs.filter = .ok (some chF) := by
  have e : chConfs.filter.rule = [⟨b!"basic", b!"m", [], b!"m-subject"⟩] := by decide +kernel
  have e1 : chConfs.filter.natsSubject = [b!"influx-spout"] := by decide +kernel
  have e2 : chConfs.filter.maxTimeDelta = 1000 := by decide +kernel
  have e3 : chConfs.filter.natsSubjectJunkyard = b!"junk" := by decide +kernel
  unfold filterConf
  rw [e, e1, e2, e3]
  rfl

theorem chWriter_conf : writerConf (fun _ => none) (chConf b!"writer.toml") = .ok (some adConf) := by
  have e : (chConf b!"writer.toml").rule = [] := by decide +kernel
  have e1 : (chConf b!"writer.toml").batchMaxCount = 1 ∧ (chConf b!"writer.toml").batchMaxSize = 1000 ∧ (chConf b!"writer.toml").batchMaxAge = 10 ∧
    (chConf b!"writer.toml").writerRetryBatches = 1 ∧ (chConf b!"writer.toml").writerRetryInterval = 5 ∧
    (chConf b!"writer.toml").writerRetryTimeout = 100 := by decide +kernel
  unfold writerConf
  rw [e, e1.1, e1.2.1, e1.2.2.1, e1.2.2.2.1, e1.2.2.2.2.1, e1.2.2.2.2.2]
  rfl

theorem chConfs_layered : chConfs.Layered b!"m-subject" := by
  refine ⟨by decide +kernel, by decide +kernel, by decide +kernel, by decide +kernel⟩

theorem chConfs_levels : Levels chConfs b!"m-subject" [10, 20] b!"m-subject-archive-archive" := by
  have e1 : (chConf b!"downsampler.toml").downsamplePeriod = 10 ∧ b!"m-subject" ++ (chConf b!"downsampler.toml").downsampleSuffix = b!"m-subject-archive" := by decide +kernel
  have e2 : (chConf b!"downsampler2.toml").downsamplePeriod = 20 ∧ b!"m-subject-archive" ++ (chConf b!"downsampler2.toml").downsampleSuffix = b!"m-subject-archive-archive" := by decide +kernel
  have r0 : Levels chConfs b!"m-subject-archive-archive" [] b!"m-subject-archive-archive" := .none _
  rw [← e2.2] at r0
  have r1 := Levels.more (chConf b!"downsampler2.toml") b!"m-subject-archive" [] _ (.tail _ (.head _)) (by decide +kernel) r0
  rw [e2.1, e2.2, ← e1.2] at r1
  have r2 := Levels.more (chConf b!"downsampler.toml") b!"m-subject" [20] _ (.head _) (by decide +kernel) r1
  rw [e1.1] at r2
  exact r2

theorem ch_start : startAll (fun _ => none) 4 0 1 15 adSetup chConfs = ccStart := by
  have l1 : (chConf b!"listener.toml").mode = b!"listener" := by decide +kernel
  have l2 : listenerConf (chConf b!"listener.toml") = ⟨3, 1000, 1048576⟩ := by decide +kernel
  have f1 : chConfs.filter.workers = 1 := by decide +kernel
  have d1 : (chConf b!"downsampler.toml").natsSubject = [b!"m-subject"] ∧ (chConf b!"downsampler.toml").downsamplePeriod = 10 ∧ b!"m-subject" ++ (chConf b!"downsampler.toml").downsampleSuffix = b!"m-subject-archive" := by decide +kernel
  have d2 : (chConf b!"downsampler2.toml").natsSubject = [b!"m-subject-archive"] ∧ (chConf b!"downsampler2.toml").downsamplePeriod = 20 ∧
    b!"m-subject-archive" ++ (chConf b!"downsampler2.toml").downsampleSuffix = b!"m-subject-archive-archive" := by decide +kernel
  have w1 : (chConf b!"writer.toml").workers = 1 ∧ (chConf b!"writer.toml").natsSubject = [b!"m-subject-archive-archive"] := by decide +kernel
  have a1 : chConfs.listeners.filterMap (startListener 15) = ccStart.listeners := by
    show [chConf b!"listener.toml"].filterMap (startListener 15) = _
    have : startListener 15 (chConf b!"listener.toml") = some (.udp (Listener.new ⟨3, 1000, 1048576⟩ 15) []) := by
      unfold startListener
      rw [if_pos l1, l2]
    rw [List.filterMap_cons, this]; rfl
  have a2 : filterWorkers adSetup chConfs.filter = [FComp.new adSetup] := by
    unfold filterWorkers; rw [f1]; rfl
  have a3 : chConfs.downsamplers.flatMap (startDownsampler adSetup.fo 15) = ccStart.downs := by
    show [chConf b!"downsampler.toml", chConf b!"downsampler2.toml"].flatMap (startDownsampler adSetup.fo 15) = _
    rw [List.flatMap_cons, List.flatMap_cons, List.flatMap_nil, List.append_nil]
    unfold startDownsampler
    rw [d1.1, d1.2.1, d2.1, d2.2.1, List.map_cons, List.map_cons, List.map_nil, List.map_nil, d1.2.2, d2.2.2]
    rfl
  have a4 : chConfs.writers.filterMap (startWriter (fun _ => none) 4 0 15) = ccStart.writers := by
    show [chConf b!"writer.toml"].filterMap (startWriter (fun _ => none) 4 0 15) = _
    have w2 : writerWorkers 4 (chConf b!"writer.toml") = 1 := by unfold writerWorkers; rw [w1.1]; rfl
    have : startWriter (fun _ => none) 4 0 15 (chConf b!"writer.toml") = some ⟨[b!"m-subject-archive-archive"], adConf, exGroup b!"m-subject-archive-archive" [WSys.start adConf 0 15]⟩ := by
      unfold startWriter
      rw [if_neg (by rw [w1.1]; decide), chWriter_conf, w1.2, w2]; rfl
    rw [List.filterMap_cons, this]; rfl
  unfold startAll
  rw [a1, a2, a3, a4]
  rfl

theorem ar_inOrder : ∀ line ∈ [sentLines arUDP].flatten, TagsInOrder line := by
  have hk : ∀ line ∈ [sentLines arUDP].flatten, ∃ p ∈ [(⟨b!"m", [], b!"f=1i 5\n"⟩ : Parsed), ⟨b!"m", [], b!"f=10i 16\n"⟩, ⟨b!"m", [], b!"f=4i 6\n"⟩],
      parseTags line = .ok (some p) := by decide +kernel
  intro line hline p hp
  obtain ⟨p', hp', e⟩ := hk line hline
  rw [e] at hp
  injection hp with hp; injection hp with hp
  subst hp
  rw [← isSortedTags_iff]
  clear e
  revert p'
  decide

/-- The hypotheses of C121 are met: two levels of archives, read off files, and a schedule under which they are made. -/
theorem ch_case : chConfs.Loaded ∧ chConfs.Connected ∧ filterConf (fun _ => none) chConfs.filter = .ok (some chF) ∧ chConfs.archives.Nodup ∧
    Run (chF.setup insertionSorter wholeFloats) (startAll (fun _ => none) 4 0 1 15 (chF.setup insertionSorter wholeFloats) chConfs) ccBusy ∧ chConfs.Layered b!"m-subject" ∧
    Each2 Sent ccBusy.sources [sentLines arUDP] ∧ (∀ line ∈ [sentLines arUDP].flatten, TagsInOrder line) ∧
    linesFor (fun _ => none) chConfs.filter b!"m-subject" [sentLines arUDP].flatten = arPts.map Point.text ∧ (∀ p ∈ arPts, Conforms wholeFloats (fun _ _ => .integer) p) ∧ (∀ p ∈ arPts, p.ts < 100) ∧
    Levels chConfs b!"m-subject" [10, 20] b!"m-subject-archive-archive" ∧
    ∃ f, Schedule adSetup ccBusy f ∧ FairArchive f ∧ ∃ N, ∀ n, N ≤ n → (f n).NoFailure ∧ (f n).Timely ∧ ∃ (ys : List (DComp adSetup.fo)) (x : WComp),
      Chain (f n) b!"m-subject" ys b!"m-subject-archive-archive" ∧ ys.map (fun y => (y.period, y.now0)) = [10, 20].map (fun p => (p, 15)) ∧ (∀ y ∈ ys, WellRun y) ∧ x ∈ (f n).writers ∧ WriterOf (fun _ => none) (chConf b!"writer.toml") x ∧
      (chConf b!"writer.toml").natsSubject = [b!"m-subject-archive-archive"] ∧ x.inp.members ≠ [] ∧ NothingLost (f n) x ∧
      x.inp.workers.map (fun k => firstData k.hist) = [b!"m f=2i 20\nm f=10i 40\n"] ∧ Fits x ∧ x.inp.workers.all (fun k => k.hist.all okEv) = true := by
  obtain ⟨s, ⟨hq, h⟩, hc, hf, ht, hb, hs, hm, ys, x, e, C, hsep, H, hx, hxs, hxm, N, hp, hd, F, hcf, hok⟩ := cc_schema
  have hrun : Run (chF.setup insertionSorter wholeFloats) (startAll (fun _ => none) 4 0 1 15 (chF.setup insertionSorter wholeFloats) chConfs) ccBusy := by
    show Run adSetup (startAll (fun _ => none) 4 0 1 15 adSetup chConfs) ccBusy
    rw [ch_start]
    exact cc_run
  have D : Deployed (fun _ => none) chConfs ccBusy := C112_stays (C112_starts chConfs_loaded chConfs_connected chFilter_conf 4 0 1 15).2 hrun
  obtain ⟨f, M, Fs, hM⟩ := hq.schedule
  refine ⟨chConfs_loaded, chConfs_connected, chFilter_conf, by decide +kernel, hrun, chConfs_layered, .cons (.udp _ _) .nil, ar_inOrder, ?_, arPts_conform, by decide, chConfs_levels,
    f, Fs, schedule_fairArchive Fs fun n hn => by rw [hM n hn]; exact hc, M, fun n hn => ?_⟩
  · have := textsFor_linesFor chConfs_loaded D adConf b!"m-subject" ar_inOrder
    rw [← this]
    show [sentLines arUDP].flatten.flatMap (textsTo insertionSorter arRules b!"junk" [b!"m-subject"]) = arPts.map Point.text
    decide +kernel
  · rw [hM n hn]
    obtain ⟨c, hcw, hw⟩ := (C112_stays D hq.run).writers x hx
    rw [List.mem_singleton.1 hcw] at hw
    exact ⟨hf, ht, ys, x, C, e, H, hx, hw, hw.subjects.symm.trans hxs, hxm, N, hd, F, hok⟩

/-- What the theorem says of the example: the archive of the archive is in InfluxDB. -/
example : ∃ (outs : List Point) (sentBy : List (List Bytes)), Archives wholeFloats [(10, 15), (20, 15)] arPts outs ∧ sentBy.map List.flatten = [b!"m f=2i 20\nm f=10i 40\n"] ∧
    sentBy.flatten.Perm (taken (fun _ => none) (chConf b!"writer.toml") (outs.map Point.text)) := by
  obtain ⟨h1, h2, h3, h4, h5, h6, h7, h8, h9, h10, h11, h12, f, F, hf, N, hN⟩ := ch_case
  obtain ⟨k0, hk⟩ := C121_archives_from_files h1 h2 h3 4 0 1 15 h4 (by decide) wholeFloats_plain wholeFloats_readable h5 h6 _ h7 h8 arPts h9 _ h10 100 h11 F hf
  obtain ⟨a, b, ys, x, C, e, H, hx, hw, hxs, hxm, hl, hd, -⟩ := hN (max N k0) (by omega)
  obtain ⟨-, c⟩ := hk (max N k0) (by omega)
  obtain ⟨-, g⟩ := c a b _ _ h12 (by decide)
  obtain ⟨outs, sentBy, g1, g2, g3⟩ := g ys C e H x _ hx hw hxs hxm hl
  exact ⟨outs, sentBy, g1, g2.trans hd, g3⟩

end Spout.Deploy
