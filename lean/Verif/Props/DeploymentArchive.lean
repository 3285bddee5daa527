import Verif.Props.DeploymentSettles
import Verif.Lemmas.DeploymentExec

/-! # C102: without new input every measurement gets into the archive -/

set_option linter.unusedSimpArgs false

namespace Spout.Deploy
open Spout Spout.Listener Spout.Pool Spout.Spec Spout.Delivery

universe u

variable {d : Setup} {s0 s s' : State d} {F : Prop} {sent : List (List Bytes)}

/-! ## Specification -/

/-- Nothing is left to do for the processes that are running, and the downsamplers hold nothing. -/
structure State.Complete (s : State d) : Prop where
  finished : s.Finished
  windows : ∀ y ∈ s.downs, ∀ k ∈ y.inp.live, k.w.a.prev.lines = [] ∧ k.w.a.curr.lines = [] ∧ k.w.a.next.lines = []

/-- A schedule is fair to the archive if something is done as long as something is left to do or a downsampler holds a window that is not empty: no process, no clock and no part of NATS
stands still forever, and InfluxDB does not refuse forever what is in the retry queues. -/
def FairArchive (f : Nat → State d) : Prop := ∀ n, ¬ (f n).Complete → ∃ m, n ≤ m ∧ ¬ SameWork (f n) (f m)

/-- Nothing is lost on the way through the downsampler `y` to the writer `x` of its output: NATS has dropped nothing, and the processes that have crashed held nothing. -/
structure NothingLostArchive (s : State d) (y : DComp d.fo) (x : WComp) : Prop where
  writer : NothingLost s x
  down : y.inp.gone = []

/-! ## Proofs -/

theorem windowsLeft_zero {fo : FloatOps} {a : Assigner fo} : windowsLeft a = 0 ↔ a.prev.lines = [] ∧ a.curr.lines = [] ∧ a.next.lines = [] := by
  unfold windowsLeft
  rw [← List.isEmpty_iff, ← List.isEmpty_iff, ← List.isEmpty_iff]
  cases a.prev.lines.isEmpty <;> cases a.curr.lines.isEmpty <;> cases a.next.lines.isEmpty <;> simp

/-- When the current window has ended, the windows move on. -/
theorem timeout_due {fo : FloatOps} {S : Sorter} {w w' : DWorker fo} {ord : MapOrder} {fail : Nat → Bool}
    (h : w.step S ⟨.timeout, w.a.curr.ts, ord, fail⟩ = .ok w') (hw : 0 < windowsLeft w.a) : windowsLeft w'.a < windowsLeft w.a := by
  unfold DWorker.step DWorker.receive at h
  rw [Go.ok_bind] at h
  unfold DWorker.emit at h
  generalize hb : w.a.bytes S ord w.a.curr.ts = r at h
  obtain ⟨a, buf⟩ := r
  dsimp only at h
  have ha : w'.a = a := by
    split at h
    · cases hc : splitAll buf maxNATSMsgSize with
      | panic => rw [hc] at h; cases h
      | ok cs => rw [hc] at h; injection h with h; rw [← h]
    · injection h with h; rw [← h]
  unfold Assigner.bytes at hb
  rw [if_neg (by omega)] at hb
  injection hb with h1 h2
  rw [ha, ← h1]
  unfold windowsLeft at hw ⊢
  dsimp only
  have : (Bucket.new fo (nextT w.a.period w.a.next.ts)).lines.isEmpty = true := rfl
  rw [this]
  revert hw
  cases w.a.prev.lines.isEmpty <;> cases w.a.curr.lines.isEmpty <;> cases w.a.next.lines.isEmpty <;> simp

/-- A downsampler whose clock goes on emits all its windows. -/
theorem complete_down {i : Nat} (n : Nat) : ∀ {s : State d} {y : DComp d.fo}, Can F sent s0 s → s.downs[i]? = some y → y.inp.Empty →
    (y.inp.count fun k => windowsLeft k.w.a) ≤ n →
    ∃ s' y', Can F sent s0 s' ∧ Worked s s' i y y' ∧ y'.inp.Empty ∧ (y'.inp.count fun k => windowsLeft k.w.a) = 0 := by
  induction n with
  | zero =>
    intro s y C hy he hn
    exact ⟨s, y, C, .refl hy, he, by omega⟩
  | succ n ih =>
    intro s y C hy he hn
    have hym := get_mem hy
    by_cases hw0 : (y.inp.count fun k => windowsLeft k.w.a) = 0
    · exact ⟨s, y, C, .refl hy, he, hw0⟩
    · obtain ⟨gok, q, k, hk, hrun⟩ := C.inv.downs y hym
      obtain ⟨hR0, hper⟩ := C.running.downs y hym
      obtain ⟨g, w, k', hat, hpos⟩ := Group.count_pos (c := y.inp) (f := fun k => windowsLeft k.w.a) (by omega)
      have hkk : k' = k := by
        have := hat.mem
        unfold Group.workers at this
        rw [hk] at this
        simpa using this
      subst hkk
      obtain ⟨w', hstep⟩ := down_ok hper hrun ⟨.timeout, k'.w.a.curr.ts, idOrder, fun _ => false⟩
      obtain ⟨c, hwork, -, -, hwt, hR, hsub, hcount⟩ := Group.work_at (⟨w', k'.evs ++ [⟨.timeout, k'.w.a.curr.ts, idOrder, fun _ => false⟩]⟩ : DState d.fo) hR0 hat
      have hst := Step.downTimeout s i y c k'.w.a.curr.ts idOrder (fun _ => false) k' w' hy hstep hwork
      have hrun' : ({ s with downs := s.downs.set i { y with inp := c } } : State d).Running :=
        ⟨C.running.filters, all_set C.running.downs ⟨hR, hper⟩, C.running.writers⟩
      have hL : SameLost s ({ s with downs := s.downs.set i { y with inp := c } } : State d) :=
        ⟨rfl, rfl, map_set_same _ _ hy (by dsimp only; unfold Group.dropped; rw [hsub]), rfl⟩
      have C' := C.step hst (hL.publish _) (hrun'.publish _) (by
        intro f
        obtain ⟨G, -⟩ := C.fine f
        refine State.Fine.publish ?_ _
        exact ⟨G.sent, G.published, G.will, G.timely⟩)
      have W := C.worked hy hsub (w'.pubs.drop k'.w.pubs.length)
      have hlt := timeout_due hstep hpos
      have hc := hcount fun k => windowsLeft k.w.a
      dsimp only at hc
      obtain ⟨s', y', C2, W2, e4, e5⟩ := ih C' W.self (Group.waiting_empty hwork.settles.2.1 he) (show c.count _ ≤ n by omega)
      exact ⟨s', y', C2, W.trans W2, e4, e5⟩

/-- All of them. -/
theorem complete_downs (C : Can F sent s0 s) :
    ∃ s', Can F sent s0 s' ∧ s'.listeners = s.listeners ∧ s'.filters = s.filters ∧
      ∀ y ∈ s'.downs, y.inp.Empty ∧ (y.inp.count fun k => windowsLeft k.w.a) = 0 := by
  refine all_levels (fun C hy => ?_) C
  obtain ⟨s1, y1, C1, W1, h1⟩ := finish_down _ C hy (Nat.le_refl _)
  obtain ⟨s2, y2, C2, W2, h2⟩ := complete_down _ C1 W1.self h1 (Nat.le_refl _)
  exact ⟨s2, y2, C2, W1.trans W2, h2⟩

theorem complete (hT : F → ∃ now, InTime d now sent.flatten) (C : Can F sent s0 s) : ∃ s', Can F sent s0 s' ∧ s'.Complete := by
  obtain ⟨s1, C1, h1⟩ := finish hT C
  obtain ⟨s2, C2, b1, b2, b3⟩ := complete_downs C1
  obtain ⟨s3, C3, c1, c2, c3, c4⟩ := finish_writers C2 s0.writers.length
  refine ⟨s3, C3, ⟨?_, ?_, ?_, ?_, ?_⟩, ?_⟩
  · rw [c1, b1]; exact h1.listeners
  · rw [c2, b2]; exact h1.filters
  · rw [c2, b2]; exact h1.working
  · rw [c3]; exact fun y hy => (b3 y hy).1
  · intro x hx
    obtain ⟨j, hj⟩ := List.getElem?_of_mem hx
    have e := congrArg List.length C3.same.writers
    rw [List.length_map, List.length_map] at e
    exact c4 j (by rw [← e]; exact (List.getElem?_eq_some_iff.1 hj).1) x hj
  · intro y hy k hk
    rw [c3] at hy
    exact windowsLeft_zero.1 (Group.count_zero (b3 y hy).2 k hk)

/-- **C102 (the archive can always be completed).** In whatever state a deployment is: as long as the processes that are running are not stopped and messages do not run in circles, it can go on, without input and without
losing a message, to a state in which nothing is left to do and the downsamplers hold no measurement. -/
theorem C102_can_complete (h0 : Start d s0) (h : Reach d s0 s) (hr : s.Running) (ha : s.Acyclic) :
    ∃ s', Run d s s' ∧ SameSetup s s' ∧ SameLost s s' ∧ s'.Complete ∧ s'.Running := by
  obtain ⟨s', C, hf⟩ := complete (F := False) (sent := []) (s0 := s) (s := s) (fun h => h.elim)
    ⟨.refl, .refl s, .refl s, inv_reach h0 h, hr, ha, fun h => h.elim⟩
  exact ⟨s', C.reach, C.same, C.lost, hf, C.running⟩

theorem SameWork.complete (h : SameWork s s') (hs : SameSetup s s') (hf : s.Complete) : s'.Complete := by
  refine ⟨h.finished hs hf.finished, ?_⟩
  intro y hy k hk
  obtain ⟨z, hz, e⟩ := mem_of_map h.windows hy
  obtain ⟨k', hk', e'⟩ := mem_of_map e.symm hk
  exact windowsLeft_zero.1 (e'.symm.trans (windowsLeft_zero.2 (hf.windows z hz k' hk')))

/-- **C102 (a fair schedule completes the archive).** Under every schedule without input that is fair to the archive, there is a moment from which on nothing is left to do and the downsamplers hold nothing. -/
theorem C102_fair_completes (h0 : Start d s0) (h : Reach d s0 s) (A : s.Acyclic) (B : s.Sizes) {f : Nat → State d} (F : Schedule d s f) (hf : FairArchive f) :
    ∃ N, ∀ n, N ≤ n → (f n).Complete := by
  obtain ⟨N, hN⟩ := C101_settles h0 h A B F
  have hfin : (f N).Complete := Classical.byContradiction fun hn => by
    obtain ⟨m, hm, hne⟩ := hf N hn
    exact hne (hN m hm)
  exact ⟨N, fun n hn => (hN n hn).complete (F.same hn) hfin⟩

theorem schedule_fairArchive {f : Nat → State d} (F : Schedule d s f) {N : Nat} (h : ∀ n, N ≤ n → (f n).Complete) : FairArchive f := by
  intro n hn
  have hlt : n < N := Classical.byContradiction fun hc => hn (h n (by omega))
  refine ⟨N, by omega, fun hs => hn ?_⟩
  have hsame := F.same (Nat.le_of_lt hlt)
  refine SameWork.complete (s := f N) hs.symm ?_ (h N (Nat.le_refl _))
  exact ⟨hsame.listeners.symm, hsame.crashed.symm, hsame.filters.symm, hsame.downs.symm, hsame.writers.symm⟩

/-- **C102 (there are such schedules).** From every state in which the processes that are running are not stopped. -/
theorem C102_fair_schedule_exists (h0 : Start d s0) (h : Reach d s0 s) (hr : s.Running) (ha : s.Acyclic) : ∃ f, Schedule d s f ∧ FairArchive f := by
  obtain ⟨s', C, hf⟩ := complete (F := False) (sent := []) (s0 := s) (s := s) (fun h => h.elim)
    ⟨.refl, .refl s, .refl s, inv_reach h0 h, hr, ha, fun h => h.elim⟩
  obtain ⟨f, N, F, hN⟩ := C.path.schedule
  exact ⟨f, F, schedule_fairArchive F fun n hn => by rw [hN n hn]; exact hf⟩

/-- The archive of the measurements `pts` is complete: for some order of the measurements, `emissions` (with their window ends) are the aggregations of consecutive windows of `period`, every measurement is in one of these windows,
and what the workers of the writer have sent to InfluxDB (those lines that match its rules, if it has rules) is these aggregations, each message by exactly one worker. -/
structure Archived (d : Setup) (y : DComp d.fo) (x : WComp) (pts : List Point) (order : List Point) (E0 : Int) (em : List Emission) (msgs : List Bytes) (gotBy : List (List Bytes)) : Prop where
  perm : order.Perm pts
  aligned : Aligned y.period E0
  start : E0 ≤ y.now0 ∧ y.now0 < E0 + y.period
  windows : ∀ (i : Nat) (m : Emission), em[i]? = some m → m.wend = E0 + i * y.period ∧ m.wend + y.period ≤ m.now ∧
    ∃ rows, Aggregates d.fo (inWindow y.period m.wend order) rows ∧ m.text = rows.flatMap (Row.text (wrap64 m.wend))
  all : ∀ p ∈ pts, ∃ m ∈ em, m.wend - y.period ≤ p.ts ∧ p.ts < m.wend
  messages : msgs.flatten = (em.map (·.text)).flatten
  sent : (gotBy.map fun g => (g.flatMap fun m => pieces x.conf.rules m).flatten) = x.inp.workers.map (fun k => firstData k.hist)
  once : gotBy.flatten.Perm msgs

/-- **C102 (the archive is complete).** In every reachable state in which nothing is left to do and the downsamplers hold nothing, if no publish has failed, the lines were in the filters' time window, nothing was lost, the downsampler
counted no invalid line or timestamp and the texts for its subject are well-formed measurements: InfluxDB was sent the aggregations of consecutive windows in which all the measurements are, each once. -/
theorem C102_archive_complete (h0 : Start d s0) (h : Reach d s0 s) (hc : s.Complete) {i : Nat} {y : DComp d.fo} {x : WComp} (hy : s.downs[i]? = some y) (hx : x ∈ s.writers)
    (hsep : SeparateArchive s i y x) (hb : SmallBatches s) (sent : List (List Bytes)) (hs : Each2 Sent s.sources sent) (hf : s.NoFailure) (ht : s.Timely) (hper : 0 < y.period)
    (hm : s.filters.members ≠ []) (hym : y.inp.members ≠ []) (hxm : x.inp.members ≠ []) (N : NothingLostArchive s y x) :
    ∃ (q : Pool) (k : DState d.fo), y.inp.all = [⟨q, [k]⟩] ∧
      (k.w.stats.invalidTimestamps = 0 ∧ k.w.stats.invalidLines = 0 ∧ k.w.stats.failedPublish = 0 → ∀ pts : List Point,
        textsFor d (noWriter x.conf [y.subject]) sent.flatten = pts.map Point.text → (∀ p ∈ pts, p.WF) →
        ∃ (order : List Point) (E0 : Int) (em : List Emission) (gotBy : List (List Bytes)), Archived d y x pts order E0 em (k.w.pubs.map (·.data)) gotBy) := by
  have Q := hc.finished.quiet hx hm hxm N.writer
  obtain ⟨q, k, hk, hA⟩ := C90_deployment h0 h i y hy hx hsep hb sent hs hf ht hper Q.listeners Q.filters Q.working
    (by rw [(hc.finished.downs y (get_mem hy)).onTheWay hym]; exact N.down)
  refine ⟨q, k, hk, ?_⟩
  rintro ⟨v1, v2, v3⟩ pts hp hwf
  obtain ⟨order, E0, em, a1, a2, a3, a4, a5, -, a7, a8, gotBy, a9, a10⟩ := hA ⟨v1, v2⟩ pts hp hwf
  have hlive : k ∈ y.inp.live := by
    unfold Group.all at hk
    unfold Group.live
    cases hmem : y.inp.members with
    | nil => exact absurd hmem hym
    | cons z zs =>
      rw [hmem, List.cons_append] at hk
      injection hk with h1 h2
      rw [h1]
      simp
  obtain ⟨w1, w2, w3⟩ := hc.windows y (get_mem hy) k hlive
  have hfail : (k.w.pubs.filter fun p => p.failed) = [] := by
    obtain ⟨-, q', k', hk', hrun⟩ := (inv_reach h0 h).downs y (get_mem hy)
    rw [hk] at hk'
    injection hk' with e _
    injection e with _ e
    injection e with e _
    subst e
    obtain ⟨w, -, -, -, -, e1, -, -, -, -, -, -, -, e2⟩ := C68_downsampler_stream d.fo d.S y.period y.now0 hper k.evs
    rw [hrun] at e1
    injection e1 with e1
    subst e1
    rw [v3] at e2
    rw [List.filter_eq_nil_iff]
    exact List.countP_eq_zero.1 e2.symm
  refine ⟨order, E0, em, gotBy, a1, a2, ⟨a3, a4⟩, a5, a7 w1 w2 w3, a8, ?_, ?_⟩
  · rw [a9]
    apply List.map_congr_left
    intro k hk
    rw [Q.unsent k hk, List.append_nil]
  · rw [hfail, Q.writers] at a10
    simpa using a10

/-- **C102 (under every fair schedule, every measurement gets into the archive).** Let nothing more be sent to the listeners of a deployment in which a filter is running. Under every schedule that is fair to the archive there is a moment from which on,
for every downsampler and writer of its output that are running, if until then no publish failed, the lines processed were in the filters' time window, nothing was lost, the downsampler counted no invalid line or timestamp and the texts for its subject are well-formed measurements:
InfluxDB was sent the aggregations of consecutive windows in which all the measurements are, each once. -/
theorem C102_every_measurement_archived (h0 : Start d s0) (h : Reach d s0 s) (A : s.Acyclic) (B : s.Sizes) (hb : SmallBatches s) (hm : s.filters.members ≠ [])
    (sent : List (List Bytes)) (hs : Each2 Sent s.sources sent) {f : Nat → State d} (F : Schedule d s f) (hf : FairArchive f) :
    ∃ N, ∀ n, N ≤ n → (f n).Complete ∧ ((f n).NoFailure → (f n).Timely → ∀ (i : Nat) (y : DComp d.fo) (x : WComp), (f n).downs[i]? = some y → x ∈ (f n).writers →
      y.inp.members ≠ [] → x.inp.members ≠ [] → 0 < y.period → SeparateArchive (f n) i y x → NothingLostArchive (f n) y x →
        ∃ (q : Pool) (k : DState d.fo), y.inp.all = [⟨q, [k]⟩] ∧
          (k.w.stats.invalidTimestamps = 0 ∧ k.w.stats.invalidLines = 0 ∧ k.w.stats.failedPublish = 0 → ∀ pts : List Point,
            textsFor d (noWriter x.conf [y.subject]) sent.flatten = pts.map Point.text → (∀ p ∈ pts, p.WF) →
            ∃ (order : List Point) (E0 : Int) (em : List Emission) (gotBy : List (List Bytes)), Archived d y x pts order E0 em (k.w.pubs.map (·.data)) gotBy)) := by
  obtain ⟨N, hN⟩ := C102_fair_completes h0 h A B F hf
  refine ⟨N, fun n hn => ⟨hN n hn, fun a b i y x hy hx hym hxm hper hsep hl => ?_⟩⟩
  have hsame : SameSetup s (f n) := by
    have := F.same (Nat.zero_le n)
    rw [F.start] at this
    exact this
  obtain ⟨-, -, -, hrun⟩ := F.ok (inv_reach h0 h) A B n
  exact C102_archive_complete h0 (h.run hrun) (hN n hn) hy hx hsep (hsame.small hb) sent (F.sent hs n) a b hper ((Group.fixed_eq hsame.filters).2.2 hm) hym hxm hl

/-! ## A deployment that meets the hypotheses -/

/-- Choices that send nothing to a listener. -/
def DAct.quiet : DAct → Bool
  | .udp _ e => e.data.isEmpty
  | .request _ _ => false
  | _ => true

theorem dAct_quiet {a : DAct} (h : dAct s a = some s') (hq : a.quiet = true) : NoInput s s' := by
  unfold NoInput
  cases a with
  | udp i e =>
    simp only [dAct] at h
    split at h
    · rename_i l got hl
      split at h
      · simp only [Option.bind_eq_some_iff] at h
        obtain ⟨l', hr, h⟩ := h
        injection h with h
        subst h
        have he : e.data = [] := List.isEmpty_iff.1 hq
        exact map_set_same _ _ hl (by simp [LComp.input, he])
      · cases h
    · cases h
  | request i q => cases hq
  | http i j =>
    simp only [dAct] at h
    split at h
    · rename_i l reqs wakeups order hl
      split at h
      · rename_i q done e todo hj
        simp only [Option.bind_eq_some_iff] at h
        obtain ⟨l', hr, h⟩ := h
        injection h with h
        subst h
        exact map_set_same _ _ hl (congrArg (Prod.mk []) (map_set_same _ _ hj rfl))
      · cases h
    · cases h
  | wake i t t2 fail =>
    simp only [dAct] at h
    split at h
    · rename_i l reqs wakeups order hl
      simp only [Option.bind_eq_some_iff] at h
      obtain ⟨l', hr, h⟩ := h
      injection h with h
      subst h
      exact map_set_same _ _ hl rfl
    · cases h
  | filterDeliver g i n => simp only [dAct, Option.bind_eq_some_iff] at h; obtain ⟨c, -, h⟩ := h; injection h with h; subst h; rfl
  | filterPush g i => simp only [dAct, Option.bind_eq_some_iff] at h; obtain ⟨c, -, h⟩ := h; injection h with h; subst h; rfl
  | filterTake g w => simp only [dAct, Option.bind_eq_some_iff] at h; obtain ⟨c, -, h⟩ := h; injection h with h; subst h; rfl
  | filterDo g w now fail => simp only [dAct, Option.bind_eq_some_iff] at h; obtain ⟨c, -, h⟩ := h; injection h with h; subst h; rfl
  | downDeliver j g i n => simp only [dAct, Option.bind_eq_some_iff] at h; obtain ⟨x, -, c, -, h⟩ := h; injection h with h; subst h; rfl
  | downPush j g i => simp only [dAct, Option.bind_eq_some_iff] at h; obtain ⟨x, -, c, -, h⟩ := h; injection h with h; subst h; rfl
  | downTake j g w clk now fail => simp only [dAct, Option.bind_eq_some_iff] at h; obtain ⟨x, -, c, -, h⟩ := h; injection h with h; subst h; rfl
  | downTimeout j g w now fail => simp only [dAct, Option.bind_eq_some_iff] at h; obtain ⟨x, -, c, -, h⟩ := h; injection h with h; subst h; rfl
  | writerDeliver j g i n => simp only [dAct, Option.bind_eq_some_iff] at h; obtain ⟨x, -, c, -, h⟩ := h; injection h with h; subst h; rfl
  | writerDrop j i n => simp only [dAct, Option.bind_eq_some_iff] at h; obtain ⟨x, -, c, -, h⟩ := h; injection h with h; subst h; rfl
  | writerPush j g i => simp only [dAct, Option.bind_eq_some_iff] at h; obtain ⟨x, -, c, -, h⟩ := h; injection h with h; subst h; rfl
  | writerTake j g w => simp only [dAct, Option.bind_eq_some_iff] at h; obtain ⟨x, -, c, -, h⟩ := h; injection h with h; subst h; rfl
  | writer j g w a => simp only [dAct, Option.bind_eq_some_iff] at h; obtain ⟨x, -, c, -, h⟩ := h; injection h with h; subst h; rfl

theorem dActs_quiet {as : List DAct} (h0 : QRun d s0 s) (h : dActs s as = some s') (hq : as.all DAct.quiet = true) : QRun d s0 s' := by
  induction as generalizing s with
  | nil => simp only [dActs] at h; injection h with h; subst h; exact h0
  | cons a as ih =>
    simp only [dActs] at h
    rw [List.all_cons, Bool.and_eq_true] at hq
    cases ha : dAct s a with
    | none => rw [ha] at h; cases h
    | some s1 => rw [ha] at h; exact ih (h0.step (dAct_sound ha) (dAct_quiet ha hq.1)) h hq.2

/-- A property of the state after some choices. -/
def after (s : State d) (as : List DAct) (P : State d → Bool) : Bool :=
  match dActs s as with
  | some s' => P s'
  | none => false

theorem after_some {as : List DAct} {P : State d → Bool} (h : after s as P = true) : ∃ s', dActs s as = some s' ∧ P s' = true := by
  unfold after at h
  split at h
  · rename_i s1 e
    exact ⟨s1, e, h⟩
  · cases h

def adSetup : Setup := ⟨insertionSorter, wholeFloats, b!"influx-spout", 1000, arRules, b!"junk"⟩

def adConf : WConf := ⟨1, 1000, 10, [], 1, 5, 100⟩

/-- A listener, a filter, a downsampler and a writer of its output. -/
def adStart : State adSetup where
  listeners := [.udp (Listener.new ⟨3, 1000, 1048576⟩ 0) []]
  crashed := []
  filters := exGroup b!"influx-spout" [FComp.new adSetup]
  downs := [⟨b!"m-subject", b!"m-subject-archive", 10, 15, exGroup b!"m-subject" [⟨DWorker.new wholeFloats 10 15, []⟩]⟩]
  writers := [⟨[b!"m-subject-archive"], adConf, exGroup b!"m-subject-archive" [WSys.start adConf 0 0]⟩]

/-- The listener has received two datagrams and waits for a third. -/
def adBusy : State adSetup :=
  { adStart with listeners := [.udp ⟨⟨3, 1000, 1048576⟩, ⟨b!"m f=1i 5\nm f=10i 16\nm f=4i 6\n", 1048576, 2, 1⟩, ⟨2, 0, 0, 0⟩, []⟩ arUDP] }

/-- Time passes: the listener sends its batch, the filter processes the message, the downsampler receives what the filter publishes and emits two windows, the writer writes both. -/
def adActs : List DAct :=
  [.udp 0 ⟨[], true, 1, 5000, 3, fun _ => false⟩, .filterDeliver 0 0 0, .filterPush 0 0, .filterTake 0 0, .filterDo 0 0 15 fun _ => false,
   .downDeliver 0 0 0 0, .downPush 0 0 0, .downTake 0 0 0 (fun _ => 16) 16 fun _ => false, .downTimeout 0 0 0 20 fun _ => false, .downTimeout 0 0 0 30 fun _ => false,
   .writerDeliver 0 0 0 0, .writerPush 0 0 0, .writerTake 0 0 0, .writer 0 0 0 .check, .writer 0 0 0 (.first (.status 204)), .writer 0 0 0 .sent,
   .writerDeliver 0 0 0 0, .writerPush 0 0 0, .writerTake 0 0 0, .writer 0 0 0 .check, .writer 0 0 0 (.first (.status 204)), .writer 0 0 0 .sent]

theorem ad_reach : Reach adSetup adStart adBusy := by
  have h1 : (Listener.new ⟨3, 1000, 1048576⟩ 0).udpStep ⟨b!"m f=1i 5\nm f=10i 16\n", false, 1, 2, 3, fun _ => false⟩ =
      .ok ⟨⟨3, 1000, 1048576⟩, ⟨b!"m f=1i 5\nm f=10i 16\n", 1048576, 1, 1⟩, ⟨1, 0, 0, 0⟩, []⟩ := by decide +kernel
  have h2 : (⟨⟨3, 1000, 1048576⟩, ⟨b!"m f=1i 5\nm f=10i 16\n", 1048576, 1, 1⟩, ⟨1, 0, 0, 0⟩, []⟩ : Listener).udpStep ⟨b!"m f=4i 6", false, 4, 5, 6, fun _ => false⟩ =
      .ok ⟨⟨3, 1000, 1048576⟩, ⟨b!"m f=1i 5\nm f=10i 16\nm f=4i 6\n", 1048576, 2, 1⟩, ⟨2, 0, 0, 0⟩, []⟩ := by decide +kernel
  have r1 := Reach.step .refl (Step.udp adStart 0 _ _ [] _ rfl (by decide) h1)
  have r2 := Reach.step r1 (Step.udp _ 0 _ _ _ _ rfl (by decide) h2)
  exact r2

theorem ad_start : Start adSetup adStart := by
  refine ⟨?_, rfl, ⟨exStarted _ _, ?_⟩, ?_, ?_⟩
  · intro x hx
    rw [List.mem_singleton.1 hx]
    exact ⟨_, _, Or.inl rfl⟩
  · intro x hx f hf
    rw [List.mem_singleton.1 hx] at hf
    exact List.mem_singleton.1 hf
  · intro x hx
    rw [List.mem_singleton.1 hx]
    exact ⟨exStarted _ _, _, rfl⟩
  · intro x hx
    rw [List.mem_singleton.1 hx]
    refine ⟨exStarted _ _, ?_⟩
    intro y hy k hk
    rw [List.mem_singleton.1 hy] at hk
    exact ⟨0, 0, List.mem_singleton.1 hk⟩

/-- Nothing waits for a group. -/
def Group.emptyB {W : Type u} (c : Group W) : Bool := c.subs.all (fun t => t.pending.isEmpty) && (inQueues (c.members.map (·.queue))).isEmpty

/-- A worker of a writer is at rest. -/
def restB (k : WSys) : Bool := (unsentBytes k).isEmpty && (match k.phase with | .select _ => true | _ => false) && k.ch.isNone && k.queue.isEmpty

/-- The error counters and messages of a downsampler. -/
structure DView where
  times : Nat
  lines : Nat
  fails : Nat
  data : List Bytes
  deriving DecidableEq

def dview {fo : FloatOps} (w : DWorker fo) : DView := ⟨w.stats.invalidTimestamps, w.stats.invalidLines, w.stats.failedPublish, w.pubs.map LPub.data⟩

/-- An operation of a downsampler, without the order of the map. -/
structure OpView where
  isLine : Bool
  now : Int
  text : Bytes
  deriving DecidableEq

def opView : AOp → OpView
  | .line now l => ⟨true, now, l⟩
  | .tick now _ => ⟨false, now, []⟩

/-- What the downsampler of the example does. -/
def adOps : List OpView :=
  [⟨true, 16, b!"m f=1i 5"⟩, ⟨true, 16, b!"m f=10i 16"⟩, ⟨true, 16, b!"m f=4i 6"⟩, ⟨true, 16, []⟩, ⟨false, 16, []⟩, ⟨false, 20, []⟩, ⟨false, 30, []⟩]

/-- What is computed of the last state of the example. -/
structure AdDone (s : State adSetup) : Prop where
  listeners : s.listeners.all (fun y => y.kind.1 && y.l.batch.bytes.isEmpty && y.l.pubs.all fun q => !q.failed) = true
  filters : (s.filters.emptyB && s.filters.live.all fun f => f.working.isNone) = true
  downs : s.downs.all (fun y => y.inp.emptyB && y.inp.live.all fun k => windowsLeft k.w.a == 0) = true
  writers : s.writers.all (fun x => x.inp.emptyB && x.inp.live.all restB) = true
  past : s.filters.workers.all (fun f => f.pubss.flatten.all (fun q => !q.failed) && f.past.all fun m => decide (m.now = 15 ∧ linesOf m.data = arPts.map Point.text)) = true
  archive : s.downs.map (fun y => y.inp.live.map fun k => dview k.w) =
    [[⟨0, 0, 0, [b!"m f=2i 10\n", b!"m f=10i 20\n"]⟩]]
  sent : s.writers.map (fun x => x.inp.workers.map fun k => firstData k.hist) = [[b!"m f=2i 10\nm f=10i 20\n"]]
  dropped : s.filters.dropped = [] ∧ s.downs.map (·.inp.dropped) = [[]] ∧ s.writers.map (·.inp.dropped) = [[]]
  looks : s.downs.map (fun y => y.inp.live.map fun k => (k.evs.flatMap evOps).map opView) = [[adOps]]

instance (s : State adSetup) : Decidable (AdDone s) :=
  decidable_of_iff (_ ∧ _ ∧ _ ∧ _ ∧ _ ∧ _ ∧ _ ∧ _ ∧ _) ⟨fun ⟨a, b, c, d, e, f, g, h, i⟩ => ⟨a, b, c, d, e, f, g, h, i⟩, fun ⟨a, b, c, d, e, f, g, h, i⟩ => ⟨a, b, c, d, e, f, g, h, i⟩⟩

theorem ad_done : after adBusy adActs (fun s => decide (AdDone s)) = true := by decide +kernel

theorem Group.emptyB_empty {W : Type u} {c : Group W} (h : c.emptyB = true) : c.Empty := by
  unfold Group.emptyB at h
  rw [Bool.and_eq_true, List.all_eq_true, List.isEmpty_iff] at h
  exact ⟨fun _ t ht => List.isEmpty_iff.1 (h.1 t ht), h.2⟩

theorem restB_rest {k : WSys} (h : restB k = true) : Rest k := by
  unfold restB at h
  simp only [Bool.and_eq_true, List.isEmpty_iff, Option.isNone_iff_eq_none] at h
  obtain ⟨⟨⟨h1, h2⟩, h3⟩, h4⟩ := h
  refine ⟨h1, ?_, h3, h4⟩
  intro i chunk rest he
  rw [he] at h2
  cases h2

theorem AdDone.complete {s : State adSetup} (h : AdDone s) : s.Complete := by
  obtain ⟨h1, h2, h3, h4, -, -, -, -, -⟩ := h
  simp only [List.all_eq_true, Bool.and_eq_true, List.isEmpty_iff, Option.isNone_iff_eq_none, beq_iff_eq] at h1 h2 h3 h4
  refine ⟨⟨?_, Group.emptyB_empty h2.1, h2.2, fun y hy => Group.emptyB_empty (h3 y hy).1, fun x hx => ⟨Group.emptyB_empty (h4 x hx).1, fun k hk => restB_rest ((h4 x hx).2 k hk)⟩⟩,
    fun y hy k hk => windowsLeft_zero.1 ((h3 y hy).2 k hk)⟩
  intro y hy
  have := (h1 y hy).1
  cases y with
  | udp l got => exact this.2
  | http => cases this.1

theorem ad_acyclic : adBusy.Acyclic := by
  refine ⟨by decide, by decide, ?_⟩
  intro y hy
  rw [List.mem_singleton.1 hy]
  refine ⟨by decide, ?_⟩
  intro z hz
  rw [List.mem_singleton.1 hz]
  decide

theorem ad_sizes : adBusy.Sizes := by
  intro x hx
  rw [List.mem_singleton.1 hx]
  decide

theorem ad_small : SmallBatches adBusy := by
  intro l got hl
  simp only [adBusy, adStart, State.sources, List.append_nil, List.mem_cons, List.not_mem_nil, or_false, LComp.udp.injEq] at hl
  rw [hl.1]; decide

/-- The deployment above: there is a schedule that is fair to the archive, and from some moment on all hypotheses of `C102_every_measurement_archived` are met, and the workers of the writer
have sent the averages of both windows. -/
theorem ad_case : ∃ f, Schedule adSetup adBusy f ∧ FairArchive f ∧ ∃ N, ∀ n, N ≤ n → (f n).NoFailure ∧ (f n).Timely ∧
    ∃ (y : DComp adSetup.fo) (x : WComp), (f n).downs[0]? = some y ∧ x ∈ (f n).writers ∧ y.inp.members ≠ [] ∧ x.inp.members ≠ [] ∧ 0 < y.period ∧ SeparateArchive (f n) 0 y x ∧
      NothingLostArchive (f n) y x ∧ textsFor adSetup (noWriter x.conf [y.subject]) [sentLines arUDP].flatten = arPts.map Point.text ∧
      x.inp.workers.map (fun k => firstData k.hist) = [b!"m f=2i 10\nm f=10i 20\n"] ∧
      ∃ (q : Pool) (k : DState adSetup.fo), y.inp.all = [⟨q, [k]⟩] ∧ k.w.pubs.map (·.data) = [b!"m f=2i 10\n", b!"m f=10i 20\n"] ∧
        (k.w.stats.invalidTimestamps = 0 ∧ k.w.stats.invalidLines = 0 ∧ k.w.stats.failedPublish = 0) ∧ (y.period = 10 ∧ y.now0 = 15 ∧ (k.evs.flatMap evOps).map opView = adOps) ∧
        ∃ (order : List Point) (E0 : Int) (em : List Emission) (gotBy : List (List Bytes)), Archived adSetup y x arPts order E0 em (k.w.pubs.map (·.data)) gotBy := by
  obtain ⟨s', hrun, hdone⟩ := after_some ad_done
  have hdone := of_decide_eq_true hdone
  have hq := dActs_quiet .refl hrun rfl
  obtain ⟨f, N, F, hN⟩ := hq.schedule
  have hfair : FairArchive f := schedule_fairArchive F fun n hn => by rw [hN n hn]; exact hdone.complete
  obtain ⟨M, hM⟩ := C102_every_measurement_archived ad_start ad_reach ad_acyclic ad_sizes ad_small (by decide) [sentLines arUDP] (.cons (.udp _ _) .nil) F hfair
  refine ⟨f, F, hfair, max N M, fun n hn => ?_⟩
  obtain ⟨hc, h2⟩ := hM n (by omega)
  have e : f n = s' := hN n (by omega)
  rw [e] at h2 ⊢
  have hsame : SameSetup adBusy s' := by
    have := F.same (Nat.zero_le n)
    rw [F.start, e] at this
    exact this
  obtain ⟨d1, -, -, -, d5, d6, d7, d8, d9⟩ := hdone
  simp only [List.all_eq_true, Bool.and_eq_true, Bool.not_eq_true', decide_eq_true_eq] at d1 d5
  have hcr : s'.crashed = [] := hsame.crashed
  have hfail : s'.NoFailure := by
    refine ⟨fun y hy => ?_, fun f hf => (d5 f hf).1⟩
    unfold State.sources at hy
    rw [hcr, List.append_nil] at hy
    exact (d1 y hy).2
  have htime : s'.Timely := by
    refine ⟨by decide, fun f hf m hm => ?_⟩
    obtain ⟨m1, m2⟩ := (d5 f hf).2 m hm
    rw [m1, m2]
    refine ⟨by decide, by decide, fun line hline => ?_⟩
    obtain ⟨q, hq, rfl⟩ := List.mem_map.1 hline
    clear hline
    refine Or.inl ⟨q.ts, _, text_hasTs (arPts_WF q hq), ?_, ?_⟩ <;> revert q <;> decide
  obtain ⟨y, hy⟩ : ∃ y, s'.downs = [y] := by
    have := congrArg List.length hsame.downs
    rw [List.length_map, List.length_map] at this
    exact List.length_eq_one_iff.1 this
  obtain ⟨x, hx⟩ : ∃ x, s'.writers = [x] := by
    have := congrArg List.length hsame.writers
    rw [List.length_map, List.length_map] at this
    exact List.length_eq_one_iff.1 this
  have sd := hsame.downs
  have sw := hsame.writers
  rw [hy] at sd
  rw [hx] at sw
  have sd : [(y.subject, y.out, y.period, y.now0, y.inp.fixed)] = [(b!"m-subject", b!"m-subject-archive", (10 : Int), (15 : Int), ([], 1))] := sd
  have sw : [(x.subjects, x.conf, x.inp.fixed)] = [([b!"m-subject-archive"], adConf, ([], 1))] := sw
  simp only [List.cons.injEq, Prod.mk.injEq, and_true] at sd sw
  obtain ⟨s1, s2, s3, s4, s5⟩ := sd
  obtain ⟨t1, t2, t3⟩ := sw
  have hym : y.inp.dead = [] ∧ y.inp.members.length = 1 := by
    unfold Group.fixed at s5
    simpa only [Prod.mk.injEq] using s5
  have hxm : x.inp.dead = [] ∧ x.inp.members.length = 1 := by
    unfold Group.fixed at t3
    simpa only [Prod.mk.injEq] using t3
  have hfd : s'.filters.dead = [] := (Group.fixed_eq hsame.filters).1
  rw [hy, hx] at d8
  obtain ⟨g1, g2, g3⟩ := d8
  have g2 : y.inp.dropped = [] := by simpa using g2
  have g3 : x.inp.dropped = [] := by simpa using g3
  have hym' : y.inp.members ≠ [] := fun h => by rw [h] at hym; cases hym.2
  have hxm' : x.inp.members ≠ [] := fun h => by rw [h] at hxm; cases hxm.2
  have hxs : x ∈ s'.writers := by rw [hx]; simp
  have hsep : SeparateArchive s' 0 y x := by
    refine ⟨by rw [s2]; decide, by rw [s2]; decide, ?_, ?_, by rw [s1, s2]; decide, by rw [t1, s2]⟩
    · intro z hz
      rw [hy, List.mem_singleton] at hz
      rw [hz, s1, s2]; decide
    · intro j z hz _
      rw [hy] at hz
      cases j with
      | zero => rfl
      | succ j => cases hz
  have hlost : NothingLostArchive s' y x := by
    refine ⟨⟨by rw [hcr]; exact (fun y hy => by cases hy), ?_, ?_, ?_, ?_⟩, ?_⟩
    · unfold Group.gone; rw [hfd, g1]; rfl
    · unfold Group.deadWorkers; rw [hfd]; exact fun f hf => by cases hf
    · unfold Group.gone; rw [hxm.1, g3]; rfl
    · unfold Group.deadWorkers; rw [hxm.1]; exact fun k hk => by cases hk
    · unfold Group.gone; rw [hym.1, g2]; rfl
  have htexts : textsFor adSetup (noWriter x.conf [y.subject]) [sentLines arUDP].flatten = arPts.map Point.text := by
    have : [sentLines arUDP].flatten.flatMap (textsTo insertionSorter arRules b!"junk" [b!"m-subject"]) = arPts.map Point.text := by decide +kernel
    unfold textsFor noWriter
    rw [s1]
    exact this
  obtain ⟨q, k, hk, hA⟩ := h2 hfail htime 0 y x (by rw [hy]; rfl) hxs hym' hxm' (by rw [s3]; decide) hsep hlost
  have hl : y.inp.live = [k] := by
    unfold Group.all at hk
    rw [hym.1, List.append_nil] at hk
    unfold Group.live
    rw [hk]; rfl
  have hops : (k.evs.flatMap evOps).map opView = adOps := by
    rw [hy] at d9
    simp only [List.map_cons, List.map_nil, hl, List.cons.injEq, and_true] at d9
    exact d9
  have hv : dview k.w = ⟨0, 0, 0, [b!"m f=2i 10\n", b!"m f=10i 20\n"]⟩ := by
    rw [hy] at d6
    simp only [List.map_cons, List.map_nil, hl, List.cons.injEq, and_true] at d6
    exact d6
  unfold dview at hv
  simp only [DView.mk.injEq] at hv
  obtain ⟨v1, v2, v3, v4⟩ := hv
  refine ⟨hfail, htime, y, x, by rw [hy]; rfl, hxs, hym', hxm', by rw [s3]; decide, hsep, hlost, htexts, ?_, q, k, hk, v4, ⟨v1, v2, v3⟩, ⟨s3, s4, hops⟩,
    hA ⟨v1, v2, v3⟩ arPts htexts arPts_WF⟩
  rw [hx] at d7
  simpa only [List.map_cons, List.map_nil, List.cons.injEq, and_true] using d7

/-! ## A chain of downsamplers -/

/-- As before, and a second downsampler makes longer averages of the first one's. -/
def chainStart : State adSetup :=
  { adStart with downs := adStart.downs ++ [⟨b!"m-subject-archive", b!"m-subject-archive-archive", 100, 15, exGroup b!"m-subject-archive" [⟨DWorker.new wholeFloats 100 15, []⟩]⟩] }

def chainBusy : State adSetup := { chainStart with listeners := adBusy.listeners }

theorem chain_reach : Reach adSetup chainStart chainBusy := by
  have h1 : (Listener.new ⟨3, 1000, 1048576⟩ 0).udpStep ⟨b!"m f=1i 5\nm f=10i 16\n", false, 1, 2, 3, fun _ => false⟩ =
      .ok ⟨⟨3, 1000, 1048576⟩, ⟨b!"m f=1i 5\nm f=10i 16\n", 1048576, 1, 1⟩, ⟨1, 0, 0, 0⟩, []⟩ := by decide +kernel
  have h2 : (⟨⟨3, 1000, 1048576⟩, ⟨b!"m f=1i 5\nm f=10i 16\n", 1048576, 1, 1⟩, ⟨1, 0, 0, 0⟩, []⟩ : Listener).udpStep ⟨b!"m f=4i 6", false, 4, 5, 6, fun _ => false⟩ =
      .ok ⟨⟨3, 1000, 1048576⟩, ⟨b!"m f=1i 5\nm f=10i 16\nm f=4i 6\n", 1048576, 2, 1⟩, ⟨2, 0, 0, 0⟩, []⟩ := by decide +kernel
  have r1 := Reach.step .refl (Step.udp chainStart 0 _ _ [] _ rfl (by decide) h1)
  have r2 := Reach.step r1 (Step.udp _ 0 _ _ _ _ rfl (by decide) h2)
  exact r2

theorem chain_start : Start adSetup chainStart := by
  obtain ⟨h1, h2, h3, h4, h5⟩ := ad_start
  refine ⟨h1, h2, h3, ?_, h5⟩
  intro x hx
  rcases List.mem_append.1 hx with hx | hx
  · exact h4 x hx
  · rw [List.mem_singleton.1 hx]
    exact ⟨exStarted _ _, _, rfl⟩

theorem chain_acyclic : chainBusy.Acyclic := by
  refine ⟨by decide, by decide, ?_⟩
  intro y hy
  simp only [chainBusy, chainStart, adStart, List.cons_append, List.nil_append, List.mem_cons, List.not_mem_nil, or_false] at hy
  refine ⟨?_, fun z hz => ?_⟩
  · rcases hy with rfl | rfl <;> decide
  · simp only [chainBusy, chainStart, adStart, List.cons_append, List.nil_append, List.mem_cons, List.not_mem_nil, or_false] at hz
    rcases hy with rfl | rfl <;> rcases hz with rfl | rfl <;> decide

theorem chain_running : chainBusy.Running := by
  refine ⟨exGroup_running _ _ _, ?_, ?_⟩
  · intro y hy
    simp only [chainBusy, chainStart, adStart, List.cons_append, List.nil_append, List.mem_cons, List.not_mem_nil, or_false] at hy
    rcases hy with rfl | rfl <;> exact ⟨exGroup_running _ _ _, by decide⟩
  · intro x hx
    rw [List.mem_singleton.1 hx]
    refine ⟨exGroup_running _ _ _, by decide, fun k hk => ?_⟩
    obtain ⟨y, hy, hk⟩ := Group.mem_live.1 hk
    rw [List.mem_singleton.1 hy] at hk
    simp only [List.mem_cons, List.not_mem_nil, or_false] at hk
    rw [hk]; rfl

/-- Such a deployment meets the hypotheses of C101 and C102: what one downsampler publishes reaches the other, the archives can be completed, and under every schedule that is fair to the archive they are completed. -/
example : (∃ y ∈ chainBusy.downs, ∃ z ∈ chainBusy.downs, y.out = z.subject) ∧ ∃ f, Schedule adSetup chainBusy f ∧ FairArchive f ∧ ∃ N, ∀ n, N ≤ n → (f n).Complete := by
  refine ⟨⟨_, List.mem_cons_self, _, List.mem_cons_of_mem _ (List.mem_singleton.2 rfl), by decide⟩, ?_⟩
  obtain ⟨f, F, hf⟩ := C102_fair_schedule_exists chain_start chain_reach chain_running chain_acyclic
  exact ⟨f, F, hf, C102_fair_completes chain_start chain_reach chain_acyclic (fun x hx => (chain_running.writers x hx).2.1) F hf⟩

end Spout.Deploy
