import Verif.Props.DeploymentArchive
import Verif.Props.DeploymentLimits

/-! # The archive, from configuration files (C114)

C102 for processes that are started from configuration files, and what a negative period does. -/

namespace Spout.Deploy
open Spout Spout.Listener Spout.Pool Spout.Spec Spout.Delivery Spout.Conf Spout.Conf.Spec

/-! ## Specification -/

variable (compile : Bytes → Option (Bytes → Bool))

/-- The subjects in the files do not get in the way of the measurements on subject `sub` of the downsampler with configuration `dc`, nor of its output to the writer with configuration `wc`. -/
structure Confs.SeparateArchive (cs : Confs) (dc : Config) (sub : Bytes) (wc : Config) : Prop where
  rules : ∀ r ∈ cs.filter.rule, r.subject ∉ cs.filter.natsSubject ∧ r.subject ≠ sub ++ dc.downsampleSuffix
  junk : cs.filter.natsSubjectJunkyard ∉ cs.filter.natsSubject ∧ cs.filter.natsSubjectJunkyard ≠ sub ++ dc.downsampleSuffix
  downs : ∀ c ∈ cs.downsamplers, ∀ t ∈ c.natsSubject, t ++ c.downsampleSuffix ∉ cs.filter.natsSubject ∧ t ++ c.downsampleSuffix ≠ sub
  subject : sub ∉ cs.filter.natsSubject ∧ sub ++ dc.downsampleSuffix ∉ cs.filter.natsSubject
  writer : wc.natsSubject = [sub ++ dc.downsampleSuffix]

/-- `y`, the `i`-th downsampler that is or was running, is the only one that publishes on its output subject. -/
def OnlyDown {d : Setup} (s : State d) (i : Nat) (y : DComp d.fo) : Prop := ∀ (j : Nat) (z : DComp d.fo), s.downs[j]? = some z → z.out = y.out → j = i

open Classical in
/-- The lines that the filter should send to a subject. -/
noncomputable def linesFor (fc : Config) (sub : Bytes) (lines : List Bytes) : List Bytes := lines.filter fun line => decide (GoesTo compile fc line sub)

/-- The period of a downsampler: one minute by default (and for 0). -/
def periodSetting (k l : Layer) : Int :=
  match setting l.downsamplePeriod k.downsamplePeriod 0 with
  | 0 => 60000000000
  | p => p

/-! ## Proofs -/

variable {compile} {d : Setup} {cs : Confs} {s s0 : State d} {x : WComp} {k l : Layer} {dc wc : Config}

theorem ReadFrom.period (h : ReadFrom k l dc) (hm : dc.mode = b!"downsampler") : dc.downsamplePeriod = periodSetting k l := by
  obtain ⟨-, env, f, D⟩ := h.keys
  rw [D.downsamplePeriod]
  unfold periodSetting
  split
  · rename_i e; rw [e.2]; rfl
  · rename_i e
    have e : setting l.downsamplePeriod k.downsamplePeriod 0 ≠ 0 := fun h => e ⟨hm, h⟩
    split
    · rename_i h; exact absurd h e
    · rfl

theorem Deployed.separateArchive (L : cs.Loaded) (D : Deployed compile cs s) {i : Nat} {y : DComp d.fo} (hy : DownOf dc y) (hw : WriterOf compile wc x)
    (hs : cs.SeparateArchive dc y.subject wc) (ho : OnlyDown s i y) : Deploy.SeparateArchive s i y x := by
  obtain ⟨h1, h2, -, h4⟩ := D.setup L
  have ho' : y.out = y.subject ++ dc.downsampleSuffix := hy.out
  refine ⟨?_, ?_, ?_, ho, ?_, ?_⟩
  · intro r hr
    obtain ⟨r', hr', hd⟩ := described_left (rules_described h1) hr
    obtain ⟨a, b⟩ := hs.rules r' hr'
    rw [describes_subject hd, ho']
    exact ⟨fun e => a (by rw [e, h2]; exact List.mem_singleton.2 rfl), b⟩
  · rw [h4, ho']
    exact ⟨fun e => hs.junk.1 (by rw [e, h2]; exact List.mem_singleton.2 rfl), hs.junk.2⟩
  · intro z hz
    obtain ⟨c, hc, hd⟩ := D.downs z hz
    obtain ⟨a, b⟩ := hs.downs c hc z.subject hd.subject
    rw [hd.out]
    exact ⟨fun e => a (by rw [e, h2]; exact List.mem_singleton.2 rfl), b⟩
  · rw [ho']
    exact ⟨fun e => hs.subject.1 (by rw [← e, h2]; exact List.mem_singleton.2 rfl), fun e => hs.subject.2 (by rw [← e, h2]; exact List.mem_singleton.2 rfl)⟩
  · rw [hw.subjects, hs.writer, ho']

open Classical in
/-- The texts for a downsampler are the lines that the filter's file sends to its subject. -/
theorem textsFor_linesFor (L : cs.Loaded) (D : Deployed compile cs s) (c : WConf) (sub : Bytes) {lines : List Bytes} (ho : ∀ line ∈ lines, TagsInOrder line) :
    textsFor d (noWriter c [sub]) lines = linesFor compile cs.filter sub lines := by
  obtain ⟨h1, -, -, h4⟩ := D.setup L
  unfold textsFor linesFor noWriter
  induction lines with
  | nil => rfl
  | cons line lines ih =>
    rw [List.flatMap_cons, ih fun l hl => ho l (List.mem_cons_of_mem _ hl), List.filter_cons, h4,
      textsTo_inOrder h1 d.S (ho line List.mem_cons_self) (by simp)]
    by_cases hg : GoesTo compile cs.filter line sub
    · rw [if_pos ⟨sub, List.mem_singleton.2 rfl, hg⟩, if_pos (decide_eq_true hg)]; rfl
    · rw [if_neg, if_neg (by simpa using hg)]
      · rfl
      · rintro ⟨t, ht, g⟩
        rw [List.mem_singleton.1 ht] at g
        exact hg g

/-- **C114 (the archive is complete).** Processes started from accepted configuration files, in any schedule, with processes starting and crashing: when nothing is left to do and the downsamplers hold nothing, if no publish failed,
the lines were timely, nothing was lost, the downsampler counted no invalid line or timestamp, and the lines that the filter's file sends to the subject `y.subject` of the downsampler are well-formed measurements `pts`, then
the writer whose file names the output subject was made to send to InfluxDB the aggregations of consecutive windows, as long as the period in the downsampler's file, in which all these measurements are, each once. -/
theorem C114_archive_complete (L : cs.Loaded) (h0 : Start d s0) (h : Reach d s0 s) (D : Deployed compile cs s) (hc : s.Complete) {i : Nat} {y : DComp d.fo}
    (hy : s.downs[i]? = some y) (hdc : DownOf dc y) (hr : ReadFrom k l dc) (hm : dc.mode = b!"downsampler") (hper : 0 < periodSetting k l) (hx : x ∈ s.writers)
    (hw : WriterOf compile wc x) (hsep : cs.SeparateArchive dc y.subject wc) (ho : OnlyDown s i y) (sent : List (List Bytes)) (hs : Each2 Sent s.sources sent)
    (hl : ∀ line ∈ sent.flatten, TagsInOrder line) (hf : s.NoFailure) (ht : s.Timely) (hfm : s.filters.members ≠ []) (hym : y.inp.members ≠ []) (hxm : x.inp.members ≠ [])
    (N : NothingLostArchive s y x) :
    ∃ (q : Pool) (w : DState d.fo), y.inp.all = [⟨q, [w]⟩] ∧ y.period = periodSetting k l ∧
      (w.w.stats.invalidTimestamps = 0 ∧ w.w.stats.invalidLines = 0 ∧ w.w.stats.failedPublish = 0 → ∀ pts : List Point,
        linesFor compile cs.filter y.subject sent.flatten = pts.map Point.text → (∀ p ∈ pts, p.WF) →
        ∃ (order : List Point) (E0 : Int) (em : List Emission) (gotBy : List (List Bytes)), Archived d y x pts order E0 em (w.w.pubs.map (·.data)) gotBy) := by
  have hp : y.period = periodSetting k l := by rw [hdc.period, hr.period hm]
  obtain ⟨q, w, h1, h2⟩ := C102_archive_complete h0 h hc hy hx (D.separateArchive L hdc hw hsep ho) (C112_sizes L D).1 sent hs hf ht (by rw [hp]; exact hper) hfm hym hxm N
  refine ⟨q, w, h1, hp, fun hv pts hpts hwf => h2 hv pts ?_ hwf⟩
  rw [textsFor_linesFor L D x.conf y.subject hl, hpts]

/-- **C114 (every measurement gets into the archive).** This is so from some moment on in every schedule after the last input that is fair to the archive. -/
theorem C114_every_measurement_archived (L : cs.Loaded) (h0 : Start d s0) (h : Reach d s0 s) (D : Deployed compile cs s) (hr : ReadFrom k l dc)
    (hm : dc.mode = b!"downsampler") (hper : 0 < periodSetting k l) {sub : Bytes} (hsep : cs.SeparateArchive dc sub wc)
    (hfm : s.filters.members ≠ []) (sent : List (List Bytes)) (hs : Each2 Sent s.sources sent) (hl : ∀ line ∈ sent.flatten, TagsInOrder line)
    {f : Nat → State d} (F : Schedule d s f) (hfair : FairArchive f) :
    ∃ N, ∀ n, N ≤ n → (f n).Complete ∧ ((f n).NoFailure → (f n).Timely → ∀ (i : Nat) (y : DComp d.fo) (x : WComp), (f n).downs[i]? = some y → x ∈ (f n).writers →
      y.subject = sub → DownOf dc y → WriterOf compile wc x → OnlyDown (f n) i y → y.inp.members ≠ [] → x.inp.members ≠ [] → NothingLostArchive (f n) y x →
      ∃ (q : Pool) (w : DState d.fo), y.inp.all = [⟨q, [w]⟩] ∧ y.period = periodSetting k l ∧
        (w.w.stats.invalidTimestamps = 0 ∧ w.w.stats.invalidLines = 0 ∧ w.w.stats.failedPublish = 0 → ∀ pts : List Point,
          linesFor compile cs.filter sub sent.flatten = pts.map Point.text → (∀ p ∈ pts, p.WF) →
          ∃ (order : List Point) (E0 : Int) (em : List Emission) (gotBy : List (List Bytes)), Archived d y x pts order E0 em (w.w.pubs.map (·.data)) gotBy)) := by
  have A : s.Acyclic := by
    obtain ⟨h1, h2, -, h4⟩ := D.setup L
    refine ⟨?_, ?_, ?_⟩
    · intro r hr e
      obtain ⟨r', hr', hd⟩ := described_left (rules_described h1) hr
      exact (hsep.rules r' hr').1 (by rw [← describes_subject hd, e, h2]; exact List.mem_singleton.2 rfl)
    · intro e
      exact hsep.junk.1 (by rw [← h4, e, h2]; exact List.mem_singleton.2 rfl)
    · intro y hy
      obtain ⟨c, hc, hd⟩ := D.downs y hy
      exact ⟨fun e => (hsep.downs c hc y.subject hd.subject).1 (by rw [← hd.out, h2, e]; exact List.mem_singleton.2 rfl), fun z _ e => D.longer L hy e⟩
  have B := (C112_sizes L D).2
  obtain ⟨N, hN⟩ := C102_fair_completes h0 h A B F hfair
  refine ⟨N, fun n hn => ⟨hN n hn, fun a b i y x hy hx hsub hdc hw ho hym hxm hl' => ?_⟩⟩
  have hsame : SameSetup s (f n) := by
    have := F.same (Nat.zero_le n)
    rw [F.start] at this
    exact this
  obtain ⟨-, -, -, hrun⟩ := F.ok (inv_reach h0 h) A B n
  subst hsub
  exact C114_archive_complete L h0 (h.run hrun) (C112_stays D hrun) (hN n hn) hy hdc hr hm hper hx hw hsep ho sent (F.sent hs n) hl a b
    ((Group.fixed_eq hsame.filters).2.2 hfm) hym hxm hl'

/-! ## A negative period -/

/-- With a negative period the windows are empty: no line is in one of them. -/
structure NoWindow {fo : FloatOps} (p now0 : Int) (a : Assigner fo) : Prop where
  period : a.period = p
  ends : a.next.ts ≤ a.curr.ts ∧ a.curr.ts ≤ a.prev.ts ∧ a.prev.ts ≤ a.tmin
  start : a.curr.ts < now0
  empty : a.prev.lines = [] ∧ a.curr.lines = [] ∧ a.next.lines = []

theorem noWindow_new (fo : FloatOps) {p : Int} (hp : p < 0) (now0 : Int) : NoWindow p now0 (Assigner.new fo p now0) := by
  have ht : ∀ t, truncateTime t p = t := fun t => if_pos (by omega)
  refine ⟨rfl, ?_, ?_, rfl, rfl, rfl⟩
  · simp only [Assigner.new, nextT, prevT, ht, Bucket.new]; omega
  · simp only [Assigner.new, nextT, ht, Bucket.new]; omega

theorem noWindow_line {fo : FloatOps} {p now0 : Int} {a : Assigner fo} (h : NoWindow p now0 a) (now : Int) (line : Bytes) :
    ∃ es, a.updateLine now line = .ok (a, es) ∧ (es.countP fun e => e.isTimestamp) = (if line = [] then 0 else 1) ∧ (es.countP fun e => !e.isTimestamp) = 0 := by
  unfold Assigner.updateLine
  cases line with
  | nil => exact ⟨[], rfl, rfl, rfl⟩
  | cons b bs =>
    obtain ⟨ts, body, h1, -⟩ := dsTimestamp_spec now (b :: bs)
    rw [if_neg (by simp), h1]
    have hf : ∃ e, a.findBucket ts = .error e ∧ e.isTimestamp = true := by
      unfold Assigner.findBucket
      have := h.ends
      by_cases c1 : ts < a.tmin
      · exact ⟨_, if_pos c1, rfl⟩
      · rw [if_neg c1, if_neg (by omega), if_neg (by omega), if_neg (by omega)]
        exact ⟨_, rfl, rfl⟩
    obtain ⟨e, h2, h3⟩ := hf
    refine ⟨[e], ?_, ?_, ?_⟩
    · show (match a.findBucket ts with | .error e => (Go.ok (a, [e]) : Go _) | .ok s => a.addTo s body) = _
      rw [h2]
    · simp [h3]
    · simp [h3]

theorem noWindow_lines {fo : FloatOps} {p now0 : Int} {a : Assigner fo} (h : NoWindow p now0 a) (clk : Nat → Int) (lines : List Bytes) : ∀ i,
    ∃ es, Assigner.updateLines clk i a lines = .ok (a, es) ∧ (es.countP fun e => e.isTimestamp) = (lines.filter fun l => l ≠ []).length ∧
      (es.countP fun e => !e.isTimestamp) = 0 := by
  induction lines with
  | nil => exact fun i => ⟨[], rfl, rfl, rfl⟩
  | cons line lines ih =>
    intro i
    obtain ⟨es, h1, h2, h3⟩ := noWindow_line h (clk i) line
    obtain ⟨fs, g1, g2, g3⟩ := ih (i + 1)
    refine ⟨es ++ fs, ?_, ?_, ?_⟩
    · unfold Assigner.updateLines
      rw [h1, Go.ok_bind]
      dsimp only
      rw [g1]; rfl
    · rw [List.countP_append, h2, g2, List.filter_cons]
      cases line <;> simp; omega
    · rw [List.countP_append, h3, g3]

/-- **C114 (every subject has its downsampler).** For every subject in the accepted file of a downsampler, there is a downsampler from the start that reads this subject, publishes on the subject with the suffix, and has the period of the files. -/
theorem C114_every_subject (L : cs.Loaded) {S : Sorter} {fo : FloatOps} {f : FConf} (procs pages n : Nat) (now : Int) {dc : Config} (hdc : dc ∈ cs.downsamplers) {k l : Layer}
    (hr : ReadFrom k l dc) {sub : Bytes} (hs : sub ∈ dc.natsSubject) :
    ∃ y ∈ (startAll compile procs pages n now (f.setup S fo) cs).downs, y.subject = sub ∧ y.out = sub ++ dc.downsampleSuffix ∧ y.period = periodSetting k l ∧
      y.now0 = now ∧ y.inp.members.length = 1 := by
  obtain ⟨-, -, -, -, h⟩ := C112_everything_starts (compile := compile) L (S := S) (fo := fo) (f := f) procs pages n now
  obtain ⟨y, h1, h2, h3, h4, h5⟩ := h dc hdc sub hs
  refine ⟨y, h1, h3, by rw [h2.out, h3], ?_, h4, h5⟩
  rw [h2.period, hr.period (L.downsamplers dc hdc).2]

/-- **C114 (negative period).** A downsampler with a negative period, which is accepted in its file, counts every line it receives as one with an invalid timestamp, never publishes anything and never waits: its timer is always set to 0. -/
theorem C114_negative_period (fo : FloatOps) (S : Sorter) (p now0 : Int) (hp : p < 0) (evs : List DEvent) :
    ∃ w, DWorker.run S (DWorker.new fo p now0) evs = .ok w ∧ w.pubs = [] ∧
      w.stats.invalidTimestamps = (((messagesIn evs).flatMap splitNL).filter fun l => l ≠ []).length ∧ ∀ now, now0 ≤ now → w.a.untilNext now = 0 := by
  have key : ∀ (evs : List DEvent) (w : DWorker fo), NoWindow p now0 w.a → w.pubs = [] → ∃ w', DWorker.run S w evs = .ok w' ∧ NoWindow p now0 w'.a ∧ w'.pubs = [] ∧
      w'.stats.invalidTimestamps = w.stats.invalidTimestamps + (((messagesIn evs).flatMap splitNL).filter fun l => l ≠ []).length := by
    intro evs
    induction evs with
    | nil => exact fun w h1 h2 => ⟨w, rfl, h1, h2, rfl⟩
    | cons e evs ih =>
      intro w h1 h2
      have hrec : ∃ w1, w.receive e.input = .ok w1 ∧ w1.a = w.a ∧ w1.pubs = w.pubs ∧
          w1.stats.invalidTimestamps = w.stats.invalidTimestamps + (((messagesIn [e]).flatMap splitNL).filter fun l => l ≠ []).length := by
        cases hi : e.input with
        | timeout => exact ⟨w, rfl, rfl, rfl, by simp [messagesIn, hi]⟩
        | msg lines clk =>
          obtain ⟨es, g1, g2, -⟩ := noWindow_lines h1 clk (splitNL lines) 0
          refine ⟨⟨w.a, { w.stats with
            received := w.stats.received + 1
            invalidTimestamps := w.stats.invalidTimestamps + es.countP (·.isTimestamp)
            invalidLines := w.stats.invalidLines + es.countP (fun e => !e.isTimestamp) }, w.pubs⟩, ?_, rfl, rfl, ?_⟩
          · unfold DWorker.receive Assigner.update
            dsimp only
            rw [g1]; rfl
          · show w.stats.invalidTimestamps + es.countP (fun e => e.isTimestamp) = _
            rw [g2]
            simp [messagesIn, hi]
      obtain ⟨w1, r1, r2, r3, r4⟩ := hrec
      have hem : ∃ w2, w1.emit S e = .ok w2 ∧ NoWindow p now0 w2.a ∧ w2.pubs = [] ∧ w2.stats = w1.stats := by
        have hb : ∃ a, w1.a.bytes S e.ord e.now = (a, []) ∧ NoWindow p now0 a := by
          rw [r2]
          unfold Assigner.bytes
          by_cases hlt : e.now < w.a.curr.ts
          · exact ⟨w.a, if_pos hlt, h1⟩
          · rw [if_neg hlt]
            have ht : ∀ t, truncateTime t w.a.period = t := fun t => if_pos (by rw [h1.period]; omega)
            obtain ⟨e1, e2, e3⟩ := h1.empty
            refine ⟨_, Prod.ext rfl ?_, h1.period, ?_, ?_, e2, e3, rfl⟩
            · show w.a.prev.bytes S e.ord = []
              unfold Bucket.bytes
              have : e.ord.order w.a.prev.lines = [] := by rw [e1]; exact List.Perm.eq_nil (e.ord.perm _)
              rw [this]; rfl
            · have := h1.ends
              have hpe := h1.period
              simp only [nextT, ht, Bucket.new]
              omega
            · have := h1.ends
              have := h1.start
              dsimp only
              omega
        obtain ⟨a, b1, b2⟩ := hb
        refine ⟨⟨a, w1.stats, w1.pubs⟩, ?_, b2, by show w1.pubs = []; rw [r3, h2], rfl⟩
        unfold DWorker.emit
        rw [b1]
        rfl
      obtain ⟨w2, q1, q2, q3, q4⟩ := hem
      obtain ⟨w', t1, t2, t3, t4⟩ := ih w2 q2 q3
      refine ⟨w', ?_, t2, t3, ?_⟩
      · show ((w.receive e.input).bind fun w => w.emit S e).bind (fun w => DWorker.run S w evs) = _
        rw [r1]
        show (w1.emit S e).bind (fun w => DWorker.run S w evs) = _
        rw [q1]
        exact t1
      · rw [t4, q4, r4]
        have : messagesIn (e :: evs) = messagesIn [e] ++ messagesIn evs := by simp [messagesIn]
        rw [this, List.flatMap_append, List.filter_append, List.length_append]
        omega
  obtain ⟨w, h1, h2, h3, h4⟩ := key evs (DWorker.new fo p now0) (noWindow_new fo hp now0) rfl
  refine ⟨w, h1, h3, by rw [h4]; simp [DWorker.new], ?_⟩
  intro now hnow
  have := h2.start
  unfold Assigner.untilNext
  split
  · rfl
  · omega

/-! ## A case: the deployment of `Props/DeploymentArchive`, from files -/

def arcListener : Layer := { mode := some b!"listener", batchMaxCount := some 3, batchMaxAge := some 1000 }

def arcFilter : Layer :=
  { mode := some b!"filter", maxTimeDelta := some 1000, natsSubjectJunkyard := some b!"junk",
    rule := some [{ rtype := some b!"basic", match_ := some b!"m", subject := some b!"m-subject" }] }

def arcDown : Layer := { mode := some b!"downsampler", natsSubject := some [b!"m-subject"], downsamplePeriod := some 10 }

def arcWriter : Layer :=
  { mode := some b!"writer", natsSubject := some [b!"m-subject-archive"], batchMaxCount := some 1, batchMaxSize := some 1000, batchMaxAge := some 10,
    writerRetryBatches := some 1, writerRetryInterval := some 5, writerRetryTimeout := some 100 }

/-- A machine with these files. -/
def arcSystem : Bytes → FileState := fun n =>
  if n = b!"listener.toml" then .decoded arcListener else if n = b!"filter.toml" then .decoded arcFilter
  else if n = b!"downsampler.toml" then .decoded arcDown else if n = b!"writer.toml" then .decoded arcWriter else .notExist

def arcConf (n : Bytes) : Config := (newConfigFromFile arcSystem (fun _ => []) n).getD {}

def arcConfs : Confs := ⟨[arcConf b!"listener.toml"], arcConf b!"filter.toml", [arcConf b!"downsampler.toml"], [arcConf b!"writer.toml"]⟩

theorem arcConf_read {n : Bytes} {l : Layer} (hn : arcSystem n = .decoded l) (h : (newConfigFromFile arcSystem (fun _ => []) n).isSome = true) :
    ReadFrom {} l (arcConf n) := by
  refine ⟨arcSystem, fun _ => [], n, ?_, .inr ⟨by decide +kernel, rfl⟩, hn⟩
  unfold arcConf
  cases hn : newConfigFromFile arcSystem (fun _ => []) n with
  | none => rw [hn] at h; cases h
  | some c => rfl

theorem ReadFrom.loaded {c : Config} (h : ReadFrom k l c) : Loaded c := by
  obtain ⟨fs, env, f, h, -⟩ := h
  exact ⟨fs, env, f, h⟩

theorem arcConfs_loaded : arcConfs.Loaded := by
  refine ⟨?_, ⟨(arcConf_read (n := b!"filter.toml") rfl (by decide +kernel)).loaded, by decide +kernel⟩, ?_, ?_⟩ <;> intro c hc <;> rw [List.mem_singleton.1 hc]
  · exact ⟨(arcConf_read rfl (by decide +kernel)).loaded, by decide +kernel⟩
  · exact ⟨(arcConf_read rfl (by decide +kernel)).loaded, by decide +kernel⟩
  · exact ⟨(arcConf_read rfl (by decide +kernel)).loaded, by decide +kernel⟩

theorem arcFilter_conf : filterConf (fun _ => none) arcConfs.filter = .ok (some ⟨b!"influx-spout", 1000, arRules, b!"junk"⟩) := by
  have e : arcConfs.filter.rule = [⟨b!"basic", b!"m", [], b!"m-subject"⟩] := by decide +kernel
  have e1 : arcConfs.filter.natsSubject = [b!"influx-spout"] := by decide +kernel
  have e2 : arcConfs.filter.maxTimeDelta = 1000 := by decide +kernel
  have e3 : arcConfs.filter.natsSubjectJunkyard = b!"junk" := by decide +kernel
  unfold filterConf
  rw [e, e1, e2, e3]
  rfl

theorem arcWriter_conf : writerConf (fun _ => none) (arcConf b!"writer.toml") = .ok (some adConf) := by
  have e : (arcConf b!"writer.toml").rule = [] := by decide +kernel
  have e1 : (arcConf b!"writer.toml").batchMaxCount = 1 ∧ (arcConf b!"writer.toml").batchMaxSize = 1000 ∧ (arcConf b!"writer.toml").batchMaxAge = 10 ∧
    (arcConf b!"writer.toml").writerRetryBatches = 1 ∧ (arcConf b!"writer.toml").writerRetryInterval = 5 ∧
    (arcConf b!"writer.toml").writerRetryTimeout = 100 := by decide +kernel
  unfold writerConf
  rw [e, e1.1, e1.2.1, e1.2.2.1, e1.2.2.2.1, e1.2.2.2.2.1, e1.2.2.2.2.2]
  rfl

theorem adBusy_deployed : Deployed (fun _ => none) arcConfs adBusy := by
  refine ⟨⟨_, arcFilter_conf, rfl⟩, ?_, ?_, ?_⟩
  · intro y hy
    rw [List.mem_singleton.1 hy]
    refine ⟨_, List.mem_singleton.2 rfl, .udp _ _ (by decide +kernel) ?_, by decide +kernel⟩
    decide +kernel
  · intro y hy
    rw [List.mem_singleton.1 hy]
    refine ⟨_, List.mem_singleton.2 rfl, ?_, ?_, ?_⟩
    · show b!"m-subject" ∈ _
      decide +kernel
    · show b!"m-subject-archive" = b!"m-subject" ++ _
      decide +kernel
    · show (10 : Int) = _
      decide +kernel
  · intro y hy
    rw [List.mem_singleton.1 hy]
    refine ⟨_, List.mem_singleton.2 rfl, ?_, arcWriter_conf⟩
    show [b!"m-subject-archive"] = _
    decide +kernel

theorem arcConfs_separate : arcConfs.SeparateArchive (arcConf b!"downsampler.toml") b!"m-subject" (arcConf b!"writer.toml") := by
  refine ⟨by decide +kernel, by decide +kernel, by decide +kernel, by decide +kernel, by decide +kernel⟩

/-- The hypotheses of C114 are met: in a schedule that is fair to the archive, from some moment on. -/
example : ∃ f, arcConfs.Loaded ∧ Start adSetup adStart ∧ Reach adSetup adStart adBusy ∧ Deployed (fun _ => none) arcConfs adBusy ∧
    ReadFrom {} arcDown (arcConf b!"downsampler.toml") ∧ (arcConf b!"downsampler.toml").mode = b!"downsampler" ∧ periodSetting {} arcDown = 10 ∧
    arcConfs.SeparateArchive (arcConf b!"downsampler.toml") b!"m-subject" (arcConf b!"writer.toml") ∧ adBusy.filters.members ≠ [] ∧
    Each2 Sent adBusy.sources [sentLines arUDP] ∧ (∀ line ∈ [sentLines arUDP].flatten, TagsInOrder line) ∧
    linesFor (fun _ => none) arcConfs.filter b!"m-subject" [sentLines arUDP].flatten = arPts.map Point.text ∧ (∀ p ∈ arPts, p.WF) ∧
    Schedule adSetup adBusy f ∧ FairArchive f ∧ ∃ N, ∀ n, N ≤ n → (f n).NoFailure ∧ (f n).Timely ∧ ∃ (y : DComp adSetup.fo) (x : WComp),
      (f n).downs[0]? = some y ∧ x ∈ (f n).writers ∧ y.subject = b!"m-subject" ∧ DownOf (arcConf b!"downsampler.toml") y ∧
      WriterOf (fun _ => none) (arcConf b!"writer.toml") x ∧ OnlyDown (f n) 0 y ∧ y.inp.members ≠ [] ∧ x.inp.members ≠ [] ∧ NothingLostArchive (f n) y x ∧
      x.inp.workers.map (fun k => firstData k.hist) = [b!"m f=2i 10\nm f=10i 20\n"] := by
  obtain ⟨f, F, hfair, N, hN⟩ := ad_case
  have hl : ∀ line ∈ [sentLines arUDP].flatten, TagsInOrder line := by
    have hk : ∀ line ∈ [sentLines arUDP].flatten, ∃ p ∈ [(⟨b!"m", [], b!"f=1i 5\n"⟩ : Parsed), ⟨b!"m", [], b!"f=10i 16\n"⟩, ⟨b!"m", [], b!"f=4i 6\n"⟩],
        parseTags line = .ok (some p) := by decide +kernel
    intro line hline p hp
    obtain ⟨p', hp', e⟩ := hk line hline
    rw [e] at hp
    injection hp with hp; injection hp with hp
    subst hp
    rw [← isSortedTags_iff]
    clear e
    revert p'
    decide
  refine ⟨f, arcConfs_loaded, ad_start, ad_reach, adBusy_deployed, arcConf_read rfl (by decide +kernel), by decide +kernel, rfl, arcConfs_separate,
    by decide, .cons (.udp _ _) .nil, hl, ?_, arPts_WF, F, hfair, N, fun n hn => ?_⟩
  · rw [← textsFor_linesFor arcConfs_loaded adBusy_deployed adConf b!"m-subject" hl]
    show [sentLines arUDP].flatten.flatMap (textsTo insertionSorter arRules b!"junk" [b!"m-subject"]) = arPts.map Point.text
    decide +kernel
  · obtain ⟨h1, h2, y, x, h3, h4, h5, h6, h7, h8, h9, -, h11, -⟩ := hN n hn
    obtain ⟨-, -, -, hrun⟩ := F.ok (inv_reach ad_start ad_reach) ad_acyclic ad_sizes n
    have D := C112_stays adBusy_deployed hrun
    obtain ⟨c, hc, hd⟩ := D.downs y (get_mem h3)
    obtain ⟨c', hc', hw⟩ := D.writers x h4
    rw [List.mem_singleton.1 hc] at hd
    rw [List.mem_singleton.1 hc'] at hw
    have hsub : y.subject = b!"m-subject" := by
      have e : (arcConf b!"downsampler.toml").natsSubject = [b!"m-subject"] := by decide +kernel
      have := hd.subject
      rw [e] at this
      exact List.mem_singleton.1 this
    exact ⟨h1, h2, y, x, h3, h4, hsub, hd, hw, h8.others, h5, h6, h9, h11⟩

/-- A negative period is accepted, and there are histories with lines. -/
example : (∀ env, ∃ c, newConfigFromFile (fun n => if n = b!"d.toml" then .decoded { mode := some b!"downsampler", downsamplePeriod := some (-5) } else .notExist) env b!"d.toml" = some c ∧
      c.downsamplePeriod = -5) ∧
    (((messagesIn [⟨.msg b!"m f=1i 5\nm f=2i 6\n" (fun _ => 7), 8, idOrder, fun _ => false⟩]).flatMap splitNL).filter fun l => l ≠ []).length = 2 := by
  refine ⟨fun env => ⟨_, rfl, rfl⟩, by decide +kernel⟩

/-- The downsampler of the example starts from its file. -/
example : ∃ y ∈ (startAll (fun _ => none) 4 0 2 15 adSetup arcConfs).downs, y.subject = b!"m-subject" ∧ y.out = b!"m-subject-archive" ∧ y.period = 10 ∧ y.now0 = 15 ∧ y.inp.members.length = 1 := by
  obtain ⟨y, h1, h2, h3, h4, h5, h6⟩ := C114_every_subject (compile := fun _ => none) (S := insertionSorter) (fo := wholeFloats)
    (f := ⟨b!"influx-spout", 1000, arRules, b!"junk"⟩) arcConfs_loaded 4 0 2 15 (List.mem_singleton.2 rfl) (arcConf_read (n := b!"downsampler.toml") (l := arcDown) rfl (by decide +kernel)) (sub := b!"m-subject") (by decide +kernel)
  have e : b!"m-subject" ++ (arcConf b!"downsampler.toml").downsampleSuffix = b!"m-subject-archive" := by decide +kernel
  exact ⟨y, h1, h2, h3.trans e, h4, h5, h6⟩

end Spout.Deploy
