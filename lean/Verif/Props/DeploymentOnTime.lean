import Verif.Props.DeploymentChain
import Verif.Props.DownsamplerOnTime
import Verif.Spec.Kinds

/-! # C119: consistent measurements that arrive on time are archived -/

set_option linter.unusedSimpArgs false

namespace Spout
open Spec Delivery

/-! ## The worker -/

theorem same_kind {fo : FloatOps} {a b : Sample} (h : a.kind fo = b.kind fo) : mismatch fo a b = none := by
  unfold Sample.kind at h
  unfold mismatch
  cases ha : a.quoted with
  | true => simp
  | false =>
    simp only [ha, Bool.false_eq_true, if_false] at h ⊢
    cases hia : intLit a.content with
    | some v =>
      simp only [hia, Option.isSome_some, if_true] at h
      cases hb : b.quoted with
      | true => simp [hb] at h
      | false =>
        simp only [hb, Bool.false_eq_true, if_false] at h
        cases hib : intLit b.content with
        | some w => simp
        | none =>
          simp only [hib, Option.isSome_none, Bool.false_eq_true, if_false] at h
          split at h <;> cases h
    | none =>
      simp only [hia, Option.isSome_none, Bool.false_eq_true, if_false] at h
      cases hpa : fo.parse a.content with
      | none => simp
      | some v =>
        simp only [hpa, Option.isSome_some, if_true] at h
        cases hb : b.quoted with
        | true => simp [hb] at h
        | false =>
          simp only [hb, Bool.false_eq_true, if_false] at h
          cases hib : intLit b.content with
          | some w => simp [hib] at h
          | none =>
            cases hpb : fo.parse b.content with
            | some w => simp
            | none => simp [hib, hpb] at h

/-- A bucket that holds lines of `ls`. -/
def GoodBucket {fo : FloatOps} (ls : List SLine) (b : Bucket fo) : Prop := ∃ ks, Holds b ks ∧ ∀ l ∈ ks, l ∈ ls

structure GoodAssigner {fo : FloatOps} (ls : List SLine) (a : Assigner fo) : Prop where
  prev : GoodBucket ls a.prev
  curr : GoodBucket ls a.curr
  next : GoodBucket ls a.next

theorem good_add {fo : FloatOps} {ls : List SLine} (C : OneKind fo ls) {b : Bucket fo} (h : GoodBucket ls b) {l : SLine} (hl : l ∈ ls) (hw : l.WF) :
    ∃ b', b.addLine l.text = .ok (b', []) ∧ GoodBucket ls b' := by
  obtain ⟨ks, hk, hks⟩ := h
  have hz : mismatches fo ks l = [] := by
    unfold mismatches
    rw [List.flatMap_eq_nil_iff]
    intro f hf
    split
    · rfl
    · rename_i first rest e
      have : first ∈ samplesOf l.key f.1 ks := by rw [e]; simp
      obtain ⟨m, hm, hmk, hmf⟩ := mem_samplesOf this
      rw [same_kind (C.kinds m (hks m hm) l hl hmk (f.1, first) hmf f hf rfl)]
      rfl
  have he : ∃ b', b.addLine l.text = .ok (b', []) := by
    rw [addLine_eq, readLine_text l hw]
    simp only [Option.toList_none, List.append_nil]
    cases hm : mget b.lines l.key with
    | some fs =>
      simp only []
      rw [addItems_errs l.key _ l.fields (C.names l hl) fs (fun f _ => hk.vals _ _ _ hm)]
      rw [hz]
      exact ⟨_, rfl⟩
    | none =>
      have hnot : l.key ∉ ks.map (·.key) := by
        rw [← hk.keys]; exact (mget_eq_none _ _).1 hm
      have he := addItems_errs (fo := fo) l.key ks l.fields (C.names l hl) []
        (fun f _ => by rw [samplesOf_not_mem _ _ _ hnot]; rfl)
      rw [hz] at he
      simp only [he]
      exact ⟨_, rfl⟩
  obtain ⟨b', e1⟩ := he
  obtain ⟨b2, e2, g1, -, g3⟩ := addLine_holds hk l.text
  rw [e1] at g1
  obtain ⟨rfl, rfl⟩ := Prod.mk.inj (Go.ok.inj g1)
  refine ⟨b', e1, _, g3, ?_⟩
  rw [if_pos (Or.inl rfl), asRead_text l hw]
  intro m hm
  rw [List.mem_append, List.mem_singleton] at hm
  rcases hm with hm | rfl
  · exact hks m hm
  · exact hl

/-- The non-empty lines of the text are measurements of `pts`. -/
def LinesOf (pts : List Point) (text : Bytes) : Prop := ∀ l ∈ splitNL text, l ≠ [] → ∃ q ∈ pts, l = q.bare

theorem good_updateLine {fo : FloatOps} {pts : List Point} (C : OneKind fo (pts.map (·.line))) (hw : ∀ q ∈ pts, q.WF) {a : Assigner fo}
    (h : GoodAssigner (pts.map (·.line)) a) (now : Int) {l : Bytes} (hl : l ≠ [] → ∃ q ∈ pts, l = q.bare) :
    ∃ a' es, a.updateLine now l = .ok (a', es) ∧ GoodAssigner (pts.map (·.line)) a' ∧ ∀ e ∈ es, e.isTimestamp = true := by
  unfold Assigner.updateLine
  by_cases hne : l = []
  · subst hne
    exact ⟨a, [], rfl, h, by simp⟩
  obtain ⟨q, hq, rfl⟩ := hl hne
  rw [if_neg (by have := List.length_pos_iff.2 hne; omega)]
  obtain ⟨ts, body, d1, d2⟩ := dsTimestamp_spec now q.bare
  obtain ⟨rfl, rfl⟩ := bare_stamped (hw q hq) d2
  rw [d1, Go.ok_bind]
  simp only []
  have hqm : q.line ∈ pts.map (·.line) := List.mem_map_of_mem hq
  cases hb : a.findBucket q.ts with
  | error e =>
    refine ⟨a, [e], rfl, h, ?_⟩
    unfold Assigner.findBucket at hb
    intro x hx
    rw [List.mem_singleton] at hx
    subst hx
    split at hb
    · injection hb with hb; subst hb; rfl
    · split at hb
      · cases hb
      · split at hb
        · cases hb
        · split at hb
          · cases hb
          · injection hb with hb; subst hb; rfl
  | ok s =>
    cases s with
    | prev =>
      obtain ⟨b', e1, e2⟩ := good_add C h.prev hqm (hw q hq).1
      exact ⟨{ a with prev := b' }, [], by simp only [Assigner.addTo, e1, Go.ok_bind]; rfl, ⟨e2, h.curr, h.next⟩, by simp⟩
    | curr =>
      obtain ⟨b', e1, e2⟩ := good_add C h.curr hqm (hw q hq).1
      exact ⟨{ a with curr := b' }, [], by simp only [Assigner.addTo, e1, Go.ok_bind]; rfl, ⟨h.prev, e2, h.next⟩, by simp⟩
    | next =>
      obtain ⟨b', e1, e2⟩ := good_add C h.next hqm (hw q hq).1
      exact ⟨{ a with next := b' }, [], by simp only [Assigner.addTo, e1, Go.ok_bind]; rfl, ⟨h.prev, h.curr, e2⟩, by simp⟩

theorem good_updateLines {fo : FloatOps} {pts : List Point} (C : OneKind fo (pts.map (·.line))) (hw : ∀ q ∈ pts, q.WF) (clk : Nat → Int) :
    ∀ (ls : List Bytes), (∀ l ∈ ls, l ≠ [] → ∃ q ∈ pts, l = q.bare) → ∀ (i : Nat) (a : Assigner fo), GoodAssigner (pts.map (·.line)) a →
    ∃ a' es, Assigner.updateLines clk i a ls = .ok (a', es) ∧ GoodAssigner (pts.map (·.line)) a' ∧ ∀ e ∈ es, e.isTimestamp = true
  | [], _, i, a, h => ⟨a, [], rfl, h, by simp⟩
  | l :: ls, hl, i, a, h => by
    obtain ⟨a1, es1, e1, e2, e3⟩ := good_updateLine C hw h (clk i) (hl l (by simp))
    obtain ⟨a2, es2, f1, f2, f3⟩ := good_updateLines C hw clk ls (fun m hm => hl m (List.mem_cons_of_mem _ hm)) (i + 1) a1 e2
    refine ⟨a2, es1 ++ es2, ?_, f2, ?_⟩
    · simp only [Assigner.updateLines, e1, Go.ok_bind, f1]; rfl
    · intro e he
      rw [List.mem_append] at he
      rcases he with he | he
      · exact e3 e he
      · exact f3 e he

theorem good_bytes {fo : FloatOps} {ls : List SLine} {a : Assigner fo} (h : GoodAssigner ls a) (S : Sorter) (ord : MapOrder) (now : Int) :
    GoodAssigner ls (a.bytes S ord now).1 := by
  unfold Assigner.bytes
  split
  · exact h
  · exact ⟨h.curr, h.next, [], holds_new _ _, by simp⟩

theorem good_step {fo : FloatOps} (S : Sorter) {pts : List Point} (C : OneKind fo (pts.map (·.line))) (hw : ∀ q ∈ pts, q.WF) {w w' : DWorker fo} {e : DEvent}
    (h : GoodAssigner (pts.map (·.line)) w.a) (hv : w.stats.invalidLines = 0) (hm : ∀ text clk, e.input = .msg text clk → LinesOf pts text)
    (hs : w.step S e = .ok w') : GoodAssigner (pts.map (·.line)) w'.a ∧ w'.stats.invalidLines = 0 := by
  unfold DWorker.step at hs
  have h1 : ∃ w1, w.receive e.input = .ok w1 ∧ GoodAssigner (pts.map (·.line)) w1.a ∧ w1.stats.invalidLines = 0 := by
    cases hin : e.input with
    | timeout => exact ⟨w, rfl, h, hv⟩
    | msg text clk =>
      obtain ⟨a', es, e1, e2, e3⟩ := good_updateLines C hw clk (splitNL text) (hm text clk hin) 0 w.a h
      have e1 : w.a.update clk text = .ok (a', es) := e1
      refine ⟨_, by simp only [DWorker.receive, e1, Go.ok_bind]; rfl, e2, ?_⟩
      show w.stats.invalidLines + es.countP (fun e => !e.isTimestamp) = 0
      rw [hv, Nat.zero_add, List.countP_eq_zero]
      intro x hx
      rw [e3 x hx]; decide
  obtain ⟨w1, r1, r2, r3⟩ := h1
  rw [r1, Go.ok_bind] at hs
  unfold DWorker.emit at hs
  simp only [] at hs
  split at hs
  · cases hc : splitAll (w1.a.bytes S e.ord e.now).2 maxNATSMsgSize with
    | panic => rw [hc] at hs; simp at hs
    | ok cs =>
      rw [hc, Go.ok_bind] at hs
      injection hs with hs
      subst hs
      exact ⟨good_bytes r2 S e.ord e.now, r3⟩
  · injection hs with hs
    subst hs
    exact ⟨good_bytes r2 S e.ord e.now, r3⟩

theorem good_run {fo : FloatOps} (S : Sorter) {pts : List Point} (C : OneKind fo (pts.map (·.line))) (hw : ∀ q ∈ pts, q.WF) :
    ∀ (evs : List DEvent) (w w' : DWorker fo), GoodAssigner (pts.map (·.line)) w.a → w.stats.invalidLines = 0 → (∀ m ∈ messagesIn evs, LinesOf pts m) →
    DWorker.run S w evs = .ok w' → w'.stats.invalidLines = 0
  | [], w, w', h, hv, _, hr => by
    injection hr with hr
    subst hr
    exact hv
  | e :: evs, w, w', h, hv, hm, hr => by
    rw [DWorker.run] at hr
    cases hs : w.step S e with
    | panic => rw [hs] at hr; simp at hr
    | ok w1 =>
      rw [hs, Go.ok_bind] at hr
      obtain ⟨g1, g2⟩ := good_step S C hw h hv (fun text clk hin => hm text (by
        unfold messagesIn
        rw [List.flatMap_cons, hin]; simp)) hs
      exact good_run S C hw evs w1 w' g1 g2 (fun m hm' => hm m (by
        unfold messagesIn at hm' ⊢
        rw [List.flatMap_cons]; exact List.mem_append_right _ hm')) hr

/-- **C119 (consistent measurements are never invalid).** In every history of a downsampler worker - whatever the period, the times, the clock and the
order - in which the lines received are well-formed measurements, none with a field twice, and the values of each field of a series are all of the same kind
(strings, integers, numbers or other), `invalid_lines` stays zero. -/
theorem C119_consistent_never_invalid (fo : FloatOps) (S : Sorter) (p now0 : Int) (evs : List DEvent) (pts : List Point) (hw : ∀ q ∈ pts, q.WF)
    (C : OneKind fo (pts.map (·.line))) (hm : ∀ m ∈ messagesIn evs, LinesOf pts m) {w : DWorker fo}
    (hr : DWorker.run S (DWorker.new fo p now0) evs = .ok w) : w.stats.invalidLines = 0 :=
  good_run S C hw evs _ w ⟨⟨[], holds_new _ _, by simp⟩, ⟨[], holds_new _ _, by simp⟩, ⟨[], holds_new _ _, by simp⟩⟩ rfl hm hr

end Spout

namespace Spout.Deploy
open Spout Spout.Listener Spout.Pool Spout.Spec Spout.Delivery

variable {d : Setup} {s0 s s' : State d}

/-! ## In a deployment -/

/-- The worker of a downsampler whose clock was not set back, that was never held up beyond the window following that in which it last looked for output (for instance, never for longer than a period, `punctual_attentive`), and to which every measurement came in time: its time was in the window in which the worker had last looked for output, or in the one
before or after (this is so, by `C118_on_time_in_reach`, if it came at most a period late and not early). -/
structure OnTime {fo : FloatOps} (y : DComp fo) (k : DState fo) : Prop where
  steady : Steady y.now0 (k.evs.flatMap evOps)
  attentive : Attentive y.period y.now0 (k.evs.flatMap evOps)
  inReach : InReach y.period y.now0 (k.evs.flatMap evOps)

/-- **C119 (no error is counted).** In every reachable state in which nothing is left to do, no publish of a listener or filter failed and nothing was lost: a downsampler that got well-formed measurements in which the values of each field of a series are all of
one kind has counted no invalid line, and one that got them on time has counted no invalid timestamp. -/
theorem C119_counts (h0 : Start d s0) (h : Reach d s0 s) (hc : s.Complete) {i : Nat} {y : DComp d.fo} {x : WComp} (hy : s.downs[i]? = some y) (hx : x ∈ s.writers)
    (hsep : SeparateArchive s i y x) (hb : SmallBatches s) (sent : List (List Bytes)) (hs : Each2 Sent s.sources sent) (hf : s.NoFailure) (ht : s.Timely) (hper : 0 < y.period)
    (hm : s.filters.members ≠ []) (hym : y.inp.members ≠ []) (hxm : x.inp.members ≠ []) (N : NothingLostArchive s y x) {q : Pool} {k : DState d.fo} (hk : y.inp.all = [⟨q, [k]⟩])
    (pts : List Point) (hp : textsFor d (noWriter x.conf [y.subject]) sent.flatten = pts.map Point.text) (hw : ∀ p ∈ pts, p.WF) :
    (OneKind d.fo (pts.map (·.line)) → k.w.stats.invalidLines = 0) ∧ (OnTime y k → k.w.stats.invalidTimestamps = 0) := by
  have I := inv_reach h0 h
  have Q := hc.finished.quiet hx hm hxm N.writer
  have hym' := get_mem hy
  obtain ⟨-, q', k', hk', hrun⟩ := I.downs y hym'
  rw [hk] at hk'
  injection hk' with e _
  injection e with _ e
  injection e with e _
  subst e
  refine ⟨fun C => ?_, fun T => ?_⟩
  · obtain ⟨D, d1, d2⟩ := filters_texts I x.conf (sub := y.subject) (fun r hr => (hsep.rules r hr).1) hsep.junk.1 hsep.downs hsep.subject.1 hb sent hs hf ht Q.listeners Q.filters Q.working
    have m1 := down_received I hym' hk
    rw [(hc.finished.downs y hym').onTheWay hym, N.down, List.append_nil, d1] at m1
    rw [hp] at d2
    refine C119_consistent_never_invalid d.fo d.S y.period y.now0 k.evs pts hw C ?_ hrun
    intro m hm l hl hne
    obtain ⟨ds, hds, rfl⟩ := List.mem_map.1 (m1.mem_iff.1 hm)
    obtain ⟨ps, p1, p2⟩ : ∃ ps : List Point, ds = ps.map Point.text ∧ ∀ p ∈ ps, p ∈ pts := by
      have : ∀ t ∈ ds, ∃ p ∈ pts, p.text = t := fun t ht => List.mem_map.1 (d2.mem_iff.1 (List.mem_flatten.2 ⟨ds, hds, ht⟩))
      clear hds hl hm
      induction ds with
      | nil => exact ⟨[], rfl, by simp⟩
      | cons t ds ih =>
        obtain ⟨p, hp1, hp2⟩ := this t (by simp)
        obtain ⟨ps, e1, e2⟩ := ih fun u hu => this u (List.mem_cons_of_mem _ hu)
        refine ⟨p :: ps, by rw [List.map_cons, hp2, e1], ?_⟩
        intro z hz
        rcases List.mem_cons.1 hz with rfl | hz
        · exact hp1
        · exact e2 z hz
    have hsp := split_points ps fun p hp => hw p (p2 p hp)
    rw [← p1] at hsp
    have : l ∈ ps.map Point.bare := by
      rw [← hsp, List.mem_filter]
      exact ⟨hl, by simpa using hne⟩
    obtain ⟨p, hp1, rfl⟩ := List.mem_map.1 this
    exact ⟨p, p2 p hp1, rfl⟩
  · obtain ⟨w, -, -, -, -, e1, -, -, -, -, e2⟩ := C118_on_time_never_refused d.fo d.S y.period y.now0 hper k.evs T.steady T.attentive
    rw [hrun] at e1
    injection e1 with e1
    subst e1
    exact e2.1 T.inReach

/-- **C119 (measurements that are consistent and on time are archived).** As `C102_archive_complete`, but for the counters of the downsampler: if the measurements for its subject are well-formed, the values of each field of a series all of one kind, and came on time. -/
theorem C119_archived (h0 : Start d s0) (h : Reach d s0 s) (hc : s.Complete) {i : Nat} {y : DComp d.fo} {x : WComp} (hy : s.downs[i]? = some y) (hx : x ∈ s.writers)
    (hsep : SeparateArchive s i y x) (hb : SmallBatches s) (sent : List (List Bytes)) (hs : Each2 Sent s.sources sent) (hf : s.NoFailure) (ht : s.Timely) (hper : 0 < y.period)
    (hm : s.filters.members ≠ []) (hym : y.inp.members ≠ []) (hxm : x.inp.members ≠ []) (N : NothingLostArchive s y x) :
    ∃ (q : Pool) (k : DState d.fo), y.inp.all = [⟨q, [k]⟩] ∧
      (OnTime y k → k.w.stats.failedPublish = 0 → ∀ pts : List Point,
        textsFor d (noWriter x.conf [y.subject]) sent.flatten = pts.map Point.text → (∀ p ∈ pts, p.WF) → OneKind d.fo (pts.map (·.line)) →
        ∃ (order : List Point) (E0 : Int) (em : List Emission) (gotBy : List (List Bytes)), Archived d y x pts order E0 em (k.w.pubs.map (·.data)) gotBy) := by
  obtain ⟨q, k, hk, hA⟩ := C102_archive_complete h0 h hc hy hx hsep hb sent hs hf ht hper hm hym hxm N
  refine ⟨q, k, hk, fun T v3 pts hp hw C => ?_⟩
  obtain ⟨c1, c2⟩ := C119_counts h0 h hc hy hx hsep hb sent hs hf ht hper hm hym hxm N hk pts hp hw
  exact hA ⟨c2 T, c1 C, v3⟩ pts hp hw

/-- **C119 (under every fair schedule).** Let nothing more be sent to the listeners of a deployment in which a filter is running. Under every schedule that is fair to the archive there is a moment from which on this holds of every downsampler. -/
theorem C119_eventually_archived (h0 : Start d s0) (h : Reach d s0 s) (A : s.Acyclic) (B : s.Sizes) (hb : SmallBatches s) (hm : s.filters.members ≠ [])
    (sent : List (List Bytes)) (hs : Each2 Sent s.sources sent) {f : Nat → State d} (F : Schedule d s f) (hf : FairArchive f) :
    ∃ N, ∀ n, N ≤ n → (f n).Complete ∧ ((f n).NoFailure → (f n).Timely → ∀ (i : Nat) (y : DComp d.fo) (x : WComp), (f n).downs[i]? = some y → x ∈ (f n).writers →
      y.inp.members ≠ [] → x.inp.members ≠ [] → 0 < y.period → SeparateArchive (f n) i y x → NothingLostArchive (f n) y x →
        ∃ (q : Pool) (k : DState d.fo), y.inp.all = [⟨q, [k]⟩] ∧
          (OnTime y k → k.w.stats.failedPublish = 0 → ∀ pts : List Point,
            textsFor d (noWriter x.conf [y.subject]) sent.flatten = pts.map Point.text → (∀ p ∈ pts, p.WF) → OneKind d.fo (pts.map (·.line)) →
            ∃ (order : List Point) (E0 : Int) (em : List Emission) (gotBy : List (List Bytes)), Archived d y x pts order E0 em (k.w.pubs.map (·.data)) gotBy)) := by
  obtain ⟨N, hN⟩ := C102_fair_completes h0 h A B F hf
  refine ⟨N, fun n hn => ⟨hN n hn, fun a b i y x hy hx hym hxm hper hsep hl => ?_⟩⟩
  have hsame : SameSetup s (f n) := by
    have := F.same (Nat.zero_le n)
    rw [F.start] at this
    exact this
  obtain ⟨-, -, -, hrun⟩ := F.ok (inv_reach h0 h) A B n
  exact C119_archived h0 (h.run hrun) (hN n hn) hy hx hsep (hsame.small hb) sent (F.sent hs n) a b hper ((Group.fixed_eq hsame.filters).2.2 hm) hym hxm hl

/-! ## A deployment that meets the hypotheses -/

theorem ad_ops {ops : List AOp} (h : ops.map opView = adOps) : ∃ o1 o2 o3, ops =
    [.line 16 b!"m f=1i 5", .line 16 b!"m f=10i 16", .line 16 b!"m f=4i 6", .line 16 [], .tick 16 o1, .tick 20 o2, .tick 30 o3] := by
  have line : ∀ {o : AOp} {n : Int} {t : Bytes}, opView o = ⟨true, n, t⟩ → o = .line n t := by
    intro o n t h
    cases o with
    | line => simp only [opView, OpView.mk.injEq, true_and] at h; rw [h.1, h.2]
    | tick => simp [opView] at h
  have tick : ∀ {o : AOp} {n : Int} {t : Bytes}, opView o = ⟨false, n, t⟩ → ∃ r, o = .tick n r := by
    intro o n t h
    cases o with
    | line => simp [opView] at h
    | tick n' r => simp only [opView, OpView.mk.injEq, true_and] at h; exact ⟨r, by rw [h.1]⟩
  unfold adOps at h
  obtain ⟨a1, l1, e1, h1, h⟩ := List.map_eq_cons_iff.1 h
  obtain ⟨a2, l2, e2, h2, h⟩ := List.map_eq_cons_iff.1 h
  obtain ⟨a3, l3, e3, h3, h⟩ := List.map_eq_cons_iff.1 h
  obtain ⟨a4, l4, e4, h4, h⟩ := List.map_eq_cons_iff.1 h
  obtain ⟨a5, l5, e5, h5, h⟩ := List.map_eq_cons_iff.1 h
  obtain ⟨a6, l6, e6, h6, h⟩ := List.map_eq_cons_iff.1 h
  obtain ⟨a7, l7, e7, h7, h⟩ := List.map_eq_cons_iff.1 h
  have h8 := List.map_eq_nil_iff.1 h
  clear h
  obtain ⟨r1, rfl⟩ := tick h5
  obtain ⟨r2, rfl⟩ := tick h6
  obtain ⟨r3, rfl⟩ := tick h7
  rw [e1, e2, e3, e4, e5, e6, e7, line h1, line h2, line h3, line h4, h8]
  exact ⟨r1, r2, r3, rfl⟩

theorem ad_onTime {y : DComp adSetup.fo} {k : DState adSetup.fo} (hp : y.period = 10) (hn : y.now0 = 15) (h : (k.evs.flatMap evOps).map opView = adOps) : OnTime y k := by
  obtain ⟨o1, o2, o3, e⟩ := ad_ops h
  refine ⟨?_, ?_, ?_⟩
  · rw [e, hn]; unfold Steady; simp [AOp.now]
  · rw [e, hn, hp]; refine punctual_attentive (by decide) _ ?_; simp [Punctual]
  · rw [e, hn, hp]
    have key : ∀ q ∈ arPts, startOf 10 15 - 10 ≤ q.ts ∧ q.ts < startOf 10 15 + 2 * 10 := by decide
    have look : ∀ (ops : List AOp), (∀ o ∈ ops, ∃ n l, o = .line n l) → lastLook 15 ops = 15 := by
      intro ops
      induction ops with
      | nil => intro _; rfl
      | cons o ops ih =>
        intro h
        obtain ⟨n, l, rfl⟩ := h o (by simp)
        exact ih fun o ho => h o (List.mem_cons_of_mem _ ho)
    intro pre post now l ts body e hne hst
    have hq : (∃ q ∈ arPts, l = q.bare) ∧ lastLook 15 pre = 15 := by
      match pre, e with
      | [], e =>
        simp only [List.nil_append, List.cons.injEq, AOp.line.injEq] at e
        exact ⟨⟨_, List.mem_cons_self, e.1.2.symm.trans (by decide +kernel)⟩, rfl⟩
      | [a], e =>
        simp only [List.cons_append, List.nil_append, List.cons.injEq, AOp.line.injEq] at e
        obtain ⟨rfl, ⟨-, rfl⟩, -⟩ := e
        exact ⟨⟨_, List.mem_cons_of_mem _ List.mem_cons_self, by decide +kernel⟩, rfl⟩
      | [a, b], e =>
        simp only [List.cons_append, List.nil_append, List.cons.injEq, AOp.line.injEq] at e
        obtain ⟨rfl, rfl, ⟨-, rfl⟩, -⟩ := e
        exact ⟨⟨_, List.mem_cons_of_mem _ (List.mem_cons_of_mem _ List.mem_cons_self), by decide +kernel⟩, rfl⟩
      | [a, b, c], e =>
        simp only [List.cons_append, List.nil_append, List.cons.injEq, AOp.line.injEq] at e
        obtain ⟨-, -, -, ⟨-, h⟩, -⟩ := e
        exact absurd h.symm hne
      | [a, b, c, d], e => simp at e
      | [a, b, c, d, f], e => simp at e
      | [a, b, c, d, f, g], e => simp at e
      | a :: b :: c :: d :: f :: g :: h :: pre, e => simp at e
    obtain ⟨⟨q, hq, rfl⟩, hlook⟩ := hq
    obtain ⟨rfl, -⟩ := bare_stamped (arPts_WF q hq) hst
    rw [hlook]
    exact key q hq

theorem ad_consistent : OneKind adSetup.fo (arPts.map (·.line)) := by
  constructor
  · decide
  · show ∀ l ∈ arPts.map (·.line), ∀ m ∈ arPts.map (·.line), l.key = m.key → ∀ f ∈ l.fields, ∀ g ∈ m.fields, f.1 = g.1 → f.2.kind wholeFloats = g.2.kind wholeFloats
    decide

/-- The deployment of `ad_case`: from some moment on all hypotheses of `C119_eventually_archived` are met. -/
example : ∃ f, Schedule adSetup adBusy f ∧ FairArchive f ∧ (∀ p ∈ arPts, p.WF) ∧ OneKind adSetup.fo (arPts.map (·.line)) ∧ ∃ N, ∀ n, N ≤ n → (f n).NoFailure ∧ (f n).Timely ∧
    ∃ (y : DComp adSetup.fo) (x : WComp), (f n).downs[0]? = some y ∧ x ∈ (f n).writers ∧ y.inp.members ≠ [] ∧ x.inp.members ≠ [] ∧ 0 < y.period ∧ SeparateArchive (f n) 0 y x ∧
      NothingLostArchive (f n) y x ∧ textsFor adSetup (noWriter x.conf [y.subject]) [sentLines arUDP].flatten = arPts.map Point.text ∧
      ∃ (q : Pool) (k : DState adSetup.fo), y.inp.all = [⟨q, [k]⟩] ∧ OnTime y k ∧ k.w.stats.failedPublish = 0 := by
  obtain ⟨f, F, hfair, N, hN⟩ := ad_case
  refine ⟨f, F, hfair, arPts_WF, ad_consistent, N, fun n hn => ?_⟩
  obtain ⟨h1, h2, y, x, h3, h4, h5, h6, h7, h8, h9, h10, -, q, k, hk, -, ⟨-, -, v⟩, ⟨p1, p2, p3⟩, -⟩ := hN n hn
  exact ⟨h1, h2, y, x, h3, h4, h5, h6, h7, h8, h9, h10, q, k, hk, ad_onTime p1 p2 p3, v⟩

end Spout.Deploy
