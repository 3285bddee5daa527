import Verif.Props.ArchiveChain
import Verif.Props.DeploymentArchive
import Verif.Props.DeploymentRaw
import Verif.Props.FloatPlain

/-! # C117: archives of archives, in a deployment -/

set_option linter.unusedSimpArgs false

namespace Spout.Deploy
open Spout Spout.Listener Spout.Pool Spout.Spec Spout.Delivery

universe u

variable {d : Setup} {s0 s s' : State d}

/-! ## Specification -/

/-- Downsamplers of which the first reads `sub` and every other one what the one before publishes, and nobody else publishes there; the last one publishes on `out`. -/
inductive Chain (s : State d) : Bytes → List (DComp d.fo) → Bytes → Prop
  | none (sub : Bytes) : Chain s sub [] sub
  | more (i : Nat) (y : DComp d.fo) (ys : List (DComp d.fo)) (out : Bytes) (hy : s.downs[i]? = some y)
      (only : ∀ (j : Nat) (z : DComp d.fo), s.downs[j]? = some z → z.out = y.out → j = i) (rest : Chain s y.out ys out) : Chain s y.subject (y :: ys) out

/-- Nobody but the listeners publishes to the filters, nobody but the filters on the subject of the first downsampler, and the filters publish on no output of the downsamplers. -/
structure SeparateChain (s : State d) (sub : Bytes) (ys : List (DComp d.fo)) : Prop where
  rules : ∀ r ∈ d.rules, r.subject ≠ d.lsub ∧ ∀ y ∈ ys, r.subject ≠ y.out
  junk : d.junk ≠ d.lsub ∧ ∀ y ∈ ys, d.junk ≠ y.out
  downs : ∀ z ∈ s.downs, z.out ≠ d.lsub ∧ z.out ≠ sub
  subject : d.lsub ≠ sub

/-- A downsampler that runs, for which nothing was lost, that has counted no error, and each of whose messages ends with the end of a line (so does every message in which a line fits). -/
structure Sound {fo : FloatOps} (y : DComp fo) : Prop where
  period : 0 < y.period
  running : y.inp.members ≠ []
  lost : y.inp.gone = []
  counts : ∀ k ∈ y.inp.workers, k.w.stats.invalidTimestamps = 0 ∧ k.w.stats.invalidLines = 0 ∧ k.w.stats.failedPublish = 0
  lines : ∀ k ∈ y.inp.workers, ∀ p ∈ k.w.pubs, p.data.getLast? = some NL

/-! ## Proofs -/

/-- The messages a downsampler has received. -/
theorem down_received (I : Inv s) {y : DComp d.fo} (hy : y ∈ s.downs) {q : Pool} {k : DState d.fo} (hk : y.inp.all = [⟨q, [k]⟩]) :
    (messagesIn k.evs ++ y.inp.onTheWay).Perm (onSubj y.subject s.out) := by
  obtain ⟨g, -, -, -, -⟩ := I.downs y hy
  have h1 := g.all
  have h2 := queues_each_once (y.inp.all.map (·.queue)) (by
    intro q hq
    obtain ⟨y, hy, rfl⟩ := List.mem_map.1 hq
    exact ⟨_, _, g.run y hy⟩)
  rw [flatMap_got g] at h2
  rw [List.flatMap_map] at h2
  have h3 := (h2.append_right y.inp.away).symm.trans h1
  have e : y.inp.workers = [k] := by unfold Group.workers; rw [hk]; rfl
  rw [e] at h3
  unfold Group.onTheWay
  simpa [List.append_assoc] using h3

theorem down_published (I : Inv s) {i : Nat} {y : DComp d.fo} (hy : s.downs[i]? = some y) (only : ∀ (j : Nat) (z : DComp d.fo), s.downs[j]? = some z → z.out = y.out → j = i)
    (hl : d.lsub ≠ y.out) (hr : ∀ r ∈ d.rules, r.subject ≠ y.out) (hj : d.junk ≠ y.out) {q : Pool} {k : DState d.fo}
    (hk : y.inp.all = [⟨q, [k]⟩]) : onSubj y.out s.out = (k.w.pubs.filter fun p => !p.failed).map (·.data) := by
  unfold State.out
  rw [onSubj_append, onSubj_append, onSubj_flatMap, onSubj_flatMap, onSubj_flatMap]
  have e1 : (s.sources.flatMap fun z => onSubj y.out (outOn d.lsub z.l.pubs)) = [] := by
    rw [List.flatMap_eq_nil_iff]
    intro z _
    rw [onSubj_outOn, if_neg hl]
  have e2 : (s.filters.workers.flatMap fun f => onSubj y.out (outF f.pubss.flatten)) = [] := by
    rw [List.flatMap_eq_nil_iff]
    intro f hf
    rw [onSubj_outF]
    exact filter_subjects (I.fran f hf) hr hj
  rw [e1, e2, List.append_nil, List.nil_append]
  rw [flatMap_only _ s.downs i y hy]
  · rw [onSubj_flatMap]
    unfold Group.workers
    rw [hk]
    simp [onSubj_outOn]
  · intro j z hz hne
    rw [onSubj_flatMap, List.flatMap_eq_nil_iff]
    intro k' _
    rw [onSubj_outOn, if_neg fun h => hne (only j z hz h)]

/-- No publish of a downsampler has failed. -/
theorem down_nofail (I : Inv s) {y : DComp d.fo} (hy : y ∈ s.downs) (hper : 0 < y.period) {q : Pool} {k : DState d.fo} (hk : y.inp.all = [⟨q, [k]⟩])
    (hv : k.w.stats.failedPublish = 0) : (k.w.pubs.filter fun p => !p.failed) = k.w.pubs := by
  obtain ⟨-, q', k', hk', hrun⟩ := I.downs y hy
  rw [hk] at hk'
  injection hk' with e _
  injection e with _ e
  injection e with e _
  subst e
  obtain ⟨w, -, -, -, -, e1, -, -, -, -, -, -, -, e2⟩ := C68_downsampler_stream d.fo d.S y.period y.now0 hper k.evs
  rw [hrun] at e1
  injection e1 with e1
  subst e1
  rw [hv] at e2
  rw [List.filter_eq_self]
  intro p hp
  have := List.countP_eq_zero.1 e2.symm p hp
  simpa using this

theorem chain_levels (I : Inv s) (hc : s.Complete) (hpl : PlainFloats d.fo) {sub out : Bytes} {ys : List (DComp d.fo)} (C : Chain s sub ys out)
    (hl : ∀ y ∈ ys, d.lsub ≠ y.out ∧ (∀ r ∈ d.rules, r.subject ≠ y.out) ∧ d.junk ≠ y.out) (H : ∀ y ∈ ys, Sound y) :
    ∀ (pts : List Point) (D : List (List Bytes)) (B : Int), onSubj sub s.out = D.map List.flatten → D.flatten.Perm (pts.map Point.text) → (∀ q ∈ pts, q.WF) → SameKinds pts →
      (∀ q ∈ pts, q.ts < B) → B + (ys.map (·.period)).sum < 9223372036854775808 →
      ∃ (outs : List Point) (D' : List (List Bytes)), Archives d.fo (ys.map fun y => (y.period, y.now0)) pts outs ∧
        onSubj out s.out = D'.map List.flatten ∧ D'.flatten.Perm (outs.map Point.text) ∧ ∀ q ∈ outs, q.WF := by
  induction C with
  | none sub => exact fun pts D B h1 h2 h3 h4 h5 h6 => ⟨pts, D, .none pts, h1, h2, h3⟩
  | more i y ys out hy only rest ih =>
    intro pts D B h1 h2 h3 h4 h5 h6
    have hym := get_mem hy
    have Hy := H y List.mem_cons_self
    obtain ⟨-, q, k, hk, hrun⟩ := I.downs y hym
    have hkw : k ∈ y.inp.workers := by unfold Group.workers; rw [hk]; simp
    have hlive : k ∈ y.inp.live := by
      have hk := hk
      unfold Group.all at hk
      unfold Group.live
      cases hmem : y.inp.members with
      | nil => exact absurd hmem Hy.running
      | cons z zs =>
        rw [hmem, List.cons_append] at hk
        injection hk with h1 h2
        rw [h1]
        simp
    obtain ⟨v1, v2, v3⟩ := Hy.counts k hkw
    obtain ⟨n1, n2, n3⟩ := hc.windows y hym k hlive
    have m1 := down_received I hym hk
    rw [(hc.finished.downs y hym).onTheWay Hy.running, Hy.lost, List.append_nil, h1] at m1
    have hsum : 0 ≤ (ys.map (·.period)).sum := by
      have : ∀ l : List (DComp d.fo), (∀ y ∈ l, 0 < y.period) → 0 ≤ (l.map (·.period)).sum := by
        intro l
        induction l with
        | nil => intro _; simp
        | cons a l ih =>
          intro h
          have := h a List.mem_cons_self
          have := ih fun y hy => h y (List.mem_cons_of_mem _ hy)
          simp only [List.map_cons, List.sum_cons]; omega
      exact this ys fun z hz => (H z (List.mem_cons_of_mem _ hz)).period
    simp only [List.map_cons, List.sum_cons] at h6
    obtain ⟨order, E, sums, a1, a2, ⟨D', a3, a4⟩, a5, a6⟩ := C117_level_partial hpl Hy.period hrun D m1 pts h2 h3 h4 B h5 (by omega) ⟨v1, v2⟩ n1 n2 n3 (Hy.lines k hkw)
    obtain ⟨l1, l2, l3⟩ := hl y List.mem_cons_self
    have p1 := down_published I hy only l1 l2 l3 hk
    rw [down_nofail I hym Hy.period hk v3, a3] at p1
    obtain ⟨outs, D2, b1, b2, b3, b4⟩ := ih (fun z hz => hl z (List.mem_cons_of_mem _ hz)) (fun z hz => H z (List.mem_cons_of_mem _ hz)) _ D' (B + y.period) p1 (List.Perm.of_eq a4)
      (fun q hq => (a5 q hq).1) a6 (fun q hq => (a5 q hq).2) (by omega)
    exact ⟨outs, D2, .level _ _ _ _ order _ E sums a1 a2 b1, b2, b3, b4⟩

/-- What the filters have published for a subject, when everything has passed them. -/
theorem filters_texts (I : Inv s) (c : WConf) {sub : Bytes} (hr : ∀ r ∈ d.rules, r.subject ≠ d.lsub) (hj : d.junk ≠ d.lsub) (hd : ∀ z ∈ s.downs, z.out ≠ d.lsub ∧ z.out ≠ sub)
    (hl : d.lsub ≠ sub) (hb : SmallBatches s) (sent : List (List Bytes)) (hs : Each2 Sent s.sources sent) (hf : s.NoFailure) (ht : s.Timely)
    (hh : ∀ z ∈ s.sources, z.holds = []) (hfl : s.filters.onTheWay = []) (hw : ∀ f ∈ s.filters.workers, f.working = none) :
    ∃ D : List (List Bytes), onSubj sub s.out = D.map List.flatten ∧ D.flatten.Perm (textsFor d (noWriter c [sub]) sent.flatten) := by
  have sep0 : Separate s (noWriter c []) := ⟨hr, hj, fun z hz => ⟨(hd z hz).1, fun h => by cases h⟩, fun h => by cases h⟩
  have sep1 : Separate s (noWriter c [sub]) := ⟨hr, hj, fun z hz => ⟨(hd z hz).1, fun h => (hd z hz).2 (List.mem_singleton.1 h)⟩, fun h => hl (List.mem_singleton.1 h)⟩
  let p := systemOf I (noWriter_ok s c) sep0 hb sent hs
  have hpas : p.Passed := by
    have hfl' : inQueues (s.filters.all.map (·.queue)) ++ s.filters.away = [] := hfl
    rw [List.append_eq_nil_iff] at hfl'
    refine ⟨hfl'.2, hfl'.1, ?_, ?_⟩
    · intro w hw'
      obtain ⟨f, -, rfl⟩ := List.mem_map.1 hw'
      show f.1.working.toList = []
      rw [hw f.1 f.2]; rfl
    · intro z hz
      obtain ⟨z', hz', rfl⟩ := List.mem_map.1 hz
      have h1 := hh z'.1 (List.of_mem_zip hz').1
      revert h1
      cases z'.1 with
      | udp l got => exact fun h1 => ⟨linesOf_eq_nil h1, rfl⟩
      | http l reqs wk order =>
        intro h1
        have h1 : linesOf l.batch.bytes ++ (reqs.flatMap fun r => r.todo.flatMap fun e => linesOf (contrib e)) = [] := h1
        rw [List.append_eq_nil_iff] at h1
        exact ⟨linesOf_eq_nil h1.1, h1.2⟩
  obtain ⟨D, d1, d2⟩ := passed_texts p sub (systemOf_noFailure hf) (systemOf_timely ht) hpas
  have hsent : p.listeners.flatMap (·.sent) = sent.flatten := systemOf_sent
  refine ⟨D, ?_, ?_⟩
  · rw [out_to_writer sep1 (List.mem_singleton.2 rfl), ← d1]
    show _ = (s.filters.workers.attach.map fun f => _).flatMap _
    rw [List.flatMap_map]
    exact (flatMap_attach s.filters.workers fun f => Delivery.published sub f.pubss.flatten).symm
  · rw [hsent, ← textsTo_single] at d2
    exact d2

theorem text_line {q : Point} (h : q.WF) : IsLine q.text := ⟨q.bare, bare_noNL h, rfl⟩

/-- **C117 (archives of archives).** In every reachable state in which nothing is left to do and the downsamplers hold nothing, for every chain of any number of downsamplers and every writer of the output of the last: if no publish failed,
the lines were in the filters' time window, nothing was lost, no downsampler counted an error and the texts for the first subject are well-formed measurements `pts` in which each field always is or never is a string: the workers of the writer have sent
to InfluxDB, each once, the lines that the levels of aggregation make of `pts` (those that match its rules, if it has rules). -/
theorem C117_chain_partial (h0 : Start d s0) (h : Reach d s0 s) (hc : s.Complete) (hpl : PlainFloats d.fo) {sub out : Bytes} {ys : List (DComp d.fo)} (C : Chain s sub ys out)
    (hsep : SeparateChain s sub ys) (H : ∀ y ∈ ys, Sound y) {x : WComp} (hx : x ∈ s.writers) (hxs : x.subjects = [out]) (hb : SmallBatches s)
    (sent : List (List Bytes)) (hs : Each2 Sent s.sources sent) (hf : s.NoFailure) (ht : s.Timely) (hm : s.filters.members ≠ []) (hxm : x.inp.members ≠ []) (N : NothingLost s x)
    (pts : List Point) (hp : textsFor d (noWriter x.conf [sub]) sent.flatten = pts.map Point.text) (hwf : ∀ p ∈ pts, p.WF) (hk : SameKinds pts)
    (B : Int) (hB : ∀ p ∈ pts, p.ts < B) (hlim : B + (ys.map (·.period)).sum < 9223372036854775808) :
    ∃ (outs : List Point) (sentBy : List (List Bytes)), Archives d.fo (ys.map fun y => (y.period, y.now0)) pts outs ∧
      sentBy.map List.flatten = x.inp.workers.map (fun k => firstData k.hist) ∧ sentBy.flatten.Perm (kept x.conf.rules (outs.map Point.text)) := by
  have I := inv_reach h0 h
  have Q := hc.finished.quiet hx hm hxm N
  obtain ⟨D, d1, d2⟩ := filters_texts I x.conf (fun r hr => (hsep.rules r hr).1) hsep.junk.1 hsep.downs hsep.subject hb sent hs hf ht Q.listeners Q.filters Q.working
  rw [hp] at d2
  have hl : ∀ y ∈ ys, d.lsub ≠ y.out ∧ (∀ r ∈ d.rules, r.subject ≠ y.out) ∧ d.junk ≠ y.out := by
    have hin : ∀ {sub out : Bytes} {ys : List (DComp d.fo)}, Chain s sub ys out → ∀ y ∈ ys, y ∈ s.downs := by
      intro sub out ys C
      induction C with
      | none => exact fun y hy => by cases hy
      | more i y ys out hy only rest ih =>
        intro z hz
        rcases List.mem_cons.1 hz with rfl | hz
        · exact get_mem hy
        · exact ih z hz
    exact fun y hy => ⟨fun e => (hsep.downs y (hin C y hy)).1 e.symm, fun r hr => (hsep.rules r hr).2 y hy, hsep.junk.2 y hy⟩
  obtain ⟨outs, D', b1, b2, b3, b4⟩ := chain_levels I hc hpl C hl H pts D B d1 d2 hwf hk hB hlim
  have hw := I.writers x hx
  refine ⟨outs, x.inp.workers.map fun k => kept x.conf.rules ((received k.hist).flatMap linesOf), b1, ?_, ?_⟩
  · rw [List.map_map]
    apply List.map_congr_left
    intro k hk
    have := worker_lines (hw.2 k hk)
    rw [Q.unsent k hk, List.append_nil] at this
    exact this
  · have h1 := writer_received hw
    rw [hxs, List.flatMap_cons, List.flatMap_nil, List.append_nil, Q.writers, List.append_nil, b2] at h1
    have e2 : (x.inp.workers.map fun k => kept x.conf.rules ((received k.hist).flatMap linesOf)).flatten =
        kept x.conf.rules ((x.inp.workers.map fun k => received k.hist).flatten.flatMap linesOf) := by
      induction x.inp.workers with
      | nil => rw [List.map_nil, List.map_nil, List.flatten_nil, List.flatMap_nil, kept_nil]
      | cons k ks ih => rw [List.map_cons, List.map_cons, List.flatten_cons, List.flatten_cons, List.flatMap_append, kept_append, ih]
    rw [e2]
    refine kept_perm _ ?_
    refine (flatMap_perm linesOf h1).trans (List.Perm.trans (List.Perm.of_eq ?_) b3)
    have hlines : ∀ t ∈ D'.flatten, IsLine t := by
      intro t ht
      obtain ⟨q, hq, rfl⟩ := List.mem_map.1 (b3.mem_iff.1 ht)
      exact text_line (b4 q hq)
    rw [List.flatMap_map, List.flatMap_def]
    congr 1
    conv => rhs; rw [← List.map_id D']
    apply List.map_congr_left
    intro l hl
    exact linesOf_lines l fun t ht => hlines t (List.mem_flatten.2 ⟨l, hl, ht⟩)

/-- **C117 (under every fair schedule).** Let nothing more be sent to the listeners. Under every schedule that is fair to the archive there is a moment from which on every such chain has done so. -/
theorem C117_eventually_partial (h0 : Start d s0) (h : Reach d s0 s) (A : s.Acyclic) (Z : s.Sizes) (hb : SmallBatches s) (hm : s.filters.members ≠ []) (hpl : PlainFloats d.fo)
    (sent : List (List Bytes)) (hs : Each2 Sent s.sources sent) {f : Nat → State d} (F : Schedule d s f) (hf : FairArchive f) :
    ∃ n0, ∀ n, n0 ≤ n → (f n).Complete ∧ ((f n).NoFailure → (f n).Timely → ∀ (sub out : Bytes) (ys : List (DComp d.fo)) (x : WComp), Chain (f n) sub ys out → SeparateChain (f n) sub ys →
      (∀ y ∈ ys, Sound y) → x ∈ (f n).writers → x.subjects = [out] → x.inp.members ≠ [] → NothingLost (f n) x →
      ∀ pts : List Point, textsFor d (noWriter x.conf [sub]) sent.flatten = pts.map Point.text → (∀ p ∈ pts, p.WF) → SameKinds pts →
      ∀ B : Int, (∀ p ∈ pts, p.ts < B) → B + (ys.map (·.period)).sum < 9223372036854775808 →
        ∃ (outs : List Point) (sentBy : List (List Bytes)), Archives d.fo (ys.map fun y => (y.period, y.now0)) pts outs ∧
          sentBy.map List.flatten = x.inp.workers.map (fun k => firstData k.hist) ∧ sentBy.flatten.Perm (kept x.conf.rules (outs.map Point.text))) := by
  obtain ⟨N, hN⟩ := C102_fair_completes h0 h A Z F hf
  refine ⟨N, fun n hn => ⟨hN n hn, fun a b sub out ys x C hsep H hx hxs hxm hl pts hp hw hk B hB hlim => ?_⟩⟩
  have hsame : SameSetup s (f n) := by
    have := F.same (Nat.zero_le n)
    rw [F.start] at this
    exact this
  obtain ⟨-, -, -, hrun⟩ := F.ok (inv_reach h0 h) A Z n
  exact C117_chain_partial h0 (h.run hrun) (hN n hn) hpl C hsep H hx hxs (hsame.small hb) sent (F.sent hs n) a b ((Group.fixed_eq hsame.filters).2.2 hm) hxm hl pts hp hw hk B hB hlim

/-! ## The windows are shifted -/

theorem aligned_dvd {P Q W : Int} (hd : P ∣ Q) (h : Aligned Q W) : P ∣ W + zeroTimeOffset := by
  unfold Aligned at h
  exact Int.dvd_trans hd (Int.dvd_of_emod_eq_zero h)

/-- The end of a window of the first level, relative to a window of the second. -/
theorem ends_apart {P Q W E : Int} (i : Nat) (hd : P ∣ Q) (hE : Aligned P E) (hW : Aligned Q W) : P ∣ W - (E + i * P) := by
  have h1 := aligned_dvd hd hW
  have h2 := aligned_dvd (Int.dvd_refl P) hE
  have h3 : P ∣ (i : Int) * P := Int.dvd_mul_left _ _
  have h4 := Int.dvd_sub (Int.dvd_sub h1 h2) h3
  have e : W + zeroTimeOffset - (E + zeroTimeOffset) - (i : Int) * P = W - (E + i * P) := by omega
  rwa [e] at h4

/-- **C117 (the windows of an archive of an archive are shifted).** Let the period `Q` of a downsampler be a multiple of the period `P` of the downsampler whose output it reads. What it aggregates in its window `[W - Q, W)` are the aggregations of the
measurements not of this window but of the window `[W - Q - P, W - P)`: all of them, and only them. The measurements of the last `P` of its window are aggregated in its next window. -/
theorem C117_windows_shifted {fo : FloatOps} {P Q now0 E W : Int} {order : List Point} {sums : List (List SLine)} (hs : Summarised fo P now0 order E sums) (hd : P ∣ Q)
    (hW : Aligned Q W) :
    (∀ q ∈ summaryPoints E P sums, W - Q ≤ q.ts → q.ts < W → ∀ p ∈ order, q.ts - P ≤ p.ts → p.ts < q.ts → W - Q - P ≤ p.ts ∧ p.ts < W - P) ∧
    (∀ p ∈ order, W - Q - P ≤ p.ts → p.ts < W - P → ∃ q ∈ summaryPoints E P sums, q.line.key = p.line.key ∧ q.ts - P ≤ p.ts ∧ p.ts < q.ts ∧ W - Q ≤ q.ts ∧ q.ts < W) ∧
    (∀ p ∈ order, W - P ≤ p.ts → p.ts < W → ∃ q ∈ summaryPoints E P sums, q.line.key = p.line.key ∧ q.ts - P ≤ p.ts ∧ p.ts < q.ts ∧ q.ts = W) := by
  have key : ∀ p ∈ order, ∃ (i : Nat), (∃ q ∈ summaryPoints E P sums, q.line.key = p.line.key ∧ q.ts = E + i * P) ∧ E + i * P - P ≤ p.ts ∧ p.ts < E + i * P := by
    intro p hp
    obtain ⟨i, h1, h2, h3⟩ := hs.all p hp
    obtain ⟨ls, hls⟩ : ∃ ls, sums[i]? = some ls := ⟨_, List.getElem?_eq_getElem h1⟩
    have hsum := hs.windows i ls hls
    have hk : p.line.key ∈ ls.map (·.key) := (hsum.2.1 _).2 (by
      unfold inWindow
      exact List.mem_map_of_mem (List.mem_map_of_mem (List.mem_filter.2 ⟨hp, by simpa using ⟨h2, h3⟩⟩)))
    obtain ⟨l, hl, he⟩ := List.mem_map.1 hk
    refine ⟨i, ⟨⟨l, E + i * P⟩, ?_, he, rfl⟩, h2, h3⟩
    unfold summaryPoints
    refine List.mem_flatMap.2 ⟨(ls, i), List.mem_zipIdx_iff_getElem?.2 hls, List.mem_map_of_mem hl⟩
  refine ⟨?_, ?_, ?_⟩
  · intro q hq h1 h2 p hp h3 h4
    obtain ⟨i, ls, -, -, e⟩ := mem_summaryPoints hq
    have hdv := ends_apart i hd hs.aligned hW
    rw [← e] at hdv
    have := Int.le_of_dvd (by omega) hdv
    omega
  · intro p hp h1 h2
    obtain ⟨i, ⟨q, hq, hk, e⟩, h3, h4⟩ := key p hp
    have hdv := ends_apart i hd hs.aligned hW
    have hdv2 : P ∣ (E + i * P) - (W - Q) := by
      have := Int.dvd_sub hd hdv
      have e : Q - (W - (E + i * P)) = (E + i * P) - (W - Q) := by omega
      rwa [e] at this
    rw [← e] at hdv hdv2 h3 h4
    refine ⟨q, hq, hk, h3, h4, ?_, by omega⟩
    -- q.ts > W - Q - P and P ∣ q.ts - (W - Q)
    by_cases hlt : q.ts < W - Q
    · have : P ∣ (W - Q) - q.ts := by
        have := Int.dvd_neg.2 hdv2
        have e : -(q.ts - (W - Q)) = (W - Q) - q.ts := by omega
        rwa [e] at this
      have := Int.le_of_dvd (by omega) this
      omega
    · omega
  · intro p hp h1 h2
    obtain ⟨i, ⟨q, hq, hk, e⟩, h3, h4⟩ := key p hp
    have hdv := ends_apart i hd hs.aligned hW
    rw [← e] at hdv h3 h4
    refine ⟨q, hq, hk, h3, h4, ?_⟩
    by_cases hlt : q.ts < W
    · have := Int.le_of_dvd (by omega) hdv
      omega
    · by_cases hgt : W < q.ts
      · have : P ∣ q.ts - W := by
          have := Int.dvd_neg.2 hdv
          have e : -(W - q.ts) = q.ts - W := by omega
          rwa [e] at this
        have := Int.le_of_dvd (by omega) this
        omega
      · omega

/-! ## An example -/

/-- A listener, a filter, a downsampler over 10, one over 20 of its output, and a writer. -/
def ccStart : State adSetup :=
  { adStart with
    listeners := [.udp (Listener.new ⟨3, 1000, 1048576⟩ 15) []]
    downs := adStart.downs ++ [⟨b!"m-subject-archive", b!"m-subject-archive-archive", 20, 15, exGroup b!"m-subject-archive" [⟨DWorker.new wholeFloats 20 15, []⟩]⟩]
    writers := [⟨[b!"m-subject-archive-archive"], adConf, exGroup b!"m-subject-archive-archive" [WSys.start adConf 0 15]⟩] }

def ccBusy : State adSetup := { ccStart with listeners := adBusy.listeners }

/-- Time passes. -/
def ccActs : List DAct :=
  [.udp 0 ⟨[], true, 1, 5000, 3, fun _ => false⟩, .filterDeliver 0 0 0, .filterPush 0 0, .filterTake 0 0, .filterDo 0 0 15 fun _ => false,
   .downDeliver 0 0 0 0, .downPush 0 0 0, .downTake 0 0 0 (fun _ => 16) 16 fun _ => false, .downTimeout 0 0 0 20 fun _ => false, .downTimeout 0 0 0 30 fun _ => false,
   .downDeliver 1 0 0 0, .downPush 1 0 0, .downTake 1 0 0 (fun _ => 31) 31 fun _ => false,
   .downDeliver 1 0 0 0, .downPush 1 0 0, .downTake 1 0 0 (fun _ => 31) 31 fun _ => false, .downTimeout 1 0 0 40 fun _ => false, .downTimeout 1 0 0 60 fun _ => false,
   .writerDeliver 0 0 0 0, .writerPush 0 0 0, .writerTake 0 0 0, .writer 0 0 0 .check, .writer 0 0 0 (.first (.status 204)), .writer 0 0 0 .sent,
   .writerDeliver 0 0 0 0, .writerPush 0 0 0, .writerTake 0 0 0, .writer 0 0 0 .check, .writer 0 0 0 (.first (.status 204)), .writer 0 0 0 .sent]

/-- What the second downsampler of the example does. -/
def ccOps : List OpView :=
  [⟨true, 31, b!"m f=2i 10"⟩, ⟨true, 31, []⟩, ⟨false, 31, []⟩, ⟨true, 31, b!"m f=10i 20"⟩, ⟨true, 31, []⟩, ⟨false, 31, []⟩, ⟨false, 40, []⟩, ⟨false, 60, []⟩]

/-- Not a write that failed, nor an answer to a retry. -/
def okEv : WEv → Bool
  | .first _ _ (.status 204) _ => true
  | .first _ _ _ _ => false
  | .result _ _ _ => false
  | _ => true

/-- What is computed of the last state of the example. -/
structure CcDone (s : State adSetup) : Prop where
  listeners : s.listeners.all (fun y => y.kind.1 && y.l.batch.bytes.isEmpty && y.l.pubs.all fun q => !q.failed) = true
  filters : (s.filters.emptyB && s.filters.live.all fun f => f.working.isNone) = true
  downs : s.downs.all (fun y => y.inp.emptyB && y.inp.live.all fun k => windowsLeft k.w.a == 0) = true
  writers : s.writers.all (fun x => x.inp.emptyB && x.inp.live.all restB) = true
  past : s.filters.workers.all (fun f => f.pubss.flatten.all (fun q => !q.failed) && f.past.all fun m => decide (m.now = 15 ∧ linesOf m.data = arPts.map Point.text)) = true
  archive : s.downs.map (fun y => y.inp.live.map fun k => dview k.w) =
    [[⟨0, 0, 0, [b!"m f=2i 10\n", b!"m f=10i 20\n"]⟩], [⟨0, 0, 0, [b!"m f=2i 20\n", b!"m f=10i 40\n"]⟩]]
  sent : s.writers.map (fun x => x.inp.workers.map fun k => firstData k.hist) = [[b!"m f=2i 20\nm f=10i 40\n"]]
  dropped : s.filters.dropped = [] ∧ s.downs.map (·.inp.dropped) = [[], []] ∧ s.writers.map (·.inp.dropped) = [[]]
  looks : s.downs.map (fun y => y.inp.live.map fun k => (k.evs.flatMap evOps).map opView) = [[adOps], [ccOps]]
  fits : s.writers.map (fun x => x.inp.workers.map fun k => (received k.hist).flatMap fun m => (linesOf m).map List.length) = [[[10, 11]]]
  accepted : s.writers.all (fun x => x.inp.workers.all fun k => k.hist.all okEv) = true

instance (s : State adSetup) : Decidable (CcDone s) :=
  decidable_of_iff (_ ∧ _ ∧ _ ∧ _ ∧ _ ∧ _ ∧ _ ∧ _ ∧ _ ∧ _ ∧ _) ⟨fun ⟨a, b, c, d, e, f, g, h, i, j, k⟩ => ⟨a, b, c, d, e, f, g, h, i, j, k⟩, fun ⟨a, b, c, d, e, f, g, h, i, j, k⟩ => ⟨a, b, c, d, e, f, g, h, i, j, k⟩⟩

theorem cc_done : after ccBusy ccActs (fun s => decide (CcDone s)) = true := by decide +kernel

theorem cc_run : Run adSetup ccStart ccBusy := by
  have h1 : (Listener.new ⟨3, 1000, 1048576⟩ 15).udpStep ⟨b!"m f=1i 5\nm f=10i 16\n", false, 1, 2, 3, fun _ => false⟩ =
      .ok ⟨⟨3, 1000, 1048576⟩, ⟨b!"m f=1i 5\nm f=10i 16\n", 1048576, 1, 1⟩, ⟨1, 0, 0, 0⟩, []⟩ := by decide +kernel
  have h2 : (⟨⟨3, 1000, 1048576⟩, ⟨b!"m f=1i 5\nm f=10i 16\n", 1048576, 1, 1⟩, ⟨1, 0, 0, 0⟩, []⟩ : Listener).udpStep ⟨b!"m f=4i 6", false, 4, 5, 6, fun _ => false⟩ =
      .ok ⟨⟨3, 1000, 1048576⟩, ⟨b!"m f=1i 5\nm f=10i 16\nm f=4i 6\n", 1048576, 2, 1⟩, ⟨2, 0, 0, 0⟩, []⟩ := by decide +kernel
  have r1 := Run.step .refl (Step.udp ccStart 0 _ _ [] _ rfl (by decide) h1)
  have r2 := Run.step r1 (Step.udp _ 0 _ _ _ _ rfl (by decide) h2)
  exact r2

theorem cc_reach : Reach adSetup ccStart ccBusy := Reach.refl.run cc_run

theorem cc_start : Start adSetup ccStart := by
  obtain ⟨-, h2, h3, h4, -⟩ := ad_start
  refine ⟨?_, h2, h3, ?_, ?_⟩
  · intro y hy
    rw [List.mem_singleton.1 hy]
    exact ⟨_, _, Or.inl rfl⟩
  · intro x hx
    rcases List.mem_append.1 hx with hx | hx
    · exact h4 x hx
    · rw [List.mem_singleton.1 hx]
      exact ⟨exStarted _ _, _, rfl⟩
  · intro x hx
    rw [List.mem_singleton.1 hx]
    refine ⟨exStarted _ _, ?_⟩
    intro y hy k hk
    rw [List.mem_singleton.1 hy] at hk
    exact ⟨0, 15, List.mem_singleton.1 hk⟩

theorem CcDone.complete {s : State adSetup} (h : CcDone s) : s.Complete := by
  obtain ⟨h1, h2, h3, h4, -, -, -, -⟩ := h
  simp only [List.all_eq_true, Bool.and_eq_true, List.isEmpty_iff, Option.isNone_iff_eq_none, beq_iff_eq] at h1 h2 h3 h4
  refine ⟨⟨?_, Group.emptyB_empty h2.1, h2.2, fun y hy => Group.emptyB_empty (h3 y hy).1, fun x hx => ⟨Group.emptyB_empty (h4 x hx).1, fun k hk => restB_rest ((h4 x hx).2 k hk)⟩⟩,
    fun y hy k hk => windowsLeft_zero.1 ((h3 y hy).2 k hk)⟩
  intro y hy
  have := (h1 y hy).1
  cases y with
  | udp l got => exact this.2
  | http => cases this.1

theorem arPts_kinds : SameKinds arPts := by
  intro p hp q hq _ f hf g hg _
  have key : ∀ p ∈ arPts, ∀ f ∈ p.line.fields, f.2.quoted = false := by decide
  rw [key p hp f hf, key q hq g hg]

/-- A downsampler of the example. -/
theorem cc_sound {y : DComp adSetup.fo} {v : DView} (hper : 0 < y.period) (hd : y.inp.dead = []) (hm : y.inp.members.length = 1) (hdr : y.inp.dropped = [])
    (hv : y.inp.live.map (fun k => dview k.w) = [v]) (h1 : v.times = 0 ∧ v.lines = 0 ∧ v.fails = 0) (h2 : ∀ m ∈ v.data, m.getLast? = some NL) : Sound y := by
  have hw : y.inp.workers = y.inp.live := by
    unfold Group.workers Group.live Group.all
    rw [hd, List.append_nil]
  have key : ∀ k ∈ y.inp.workers, dview k.w = v := by
    intro k hk
    rw [hw] at hk
    exact List.mem_singleton.1 (hv ▸ List.mem_map_of_mem hk)
  refine ⟨hper, (fun h => by rw [h] at hm; cases hm), ?_, ?_, ?_⟩
  · unfold Group.gone; rw [hd, hdr]; rfl
  · intro k hk
    have := key k hk
    unfold dview at this
    rw [← this] at h1
    exact h1
  · intro k hk p hp
    have := key k hk
    unfold dview at this
    rw [← this] at h2
    exact h2 p.data (List.mem_map_of_mem hp)

/-- All hypotheses of `C117_chain_partial`, for a chain of two. -/
theorem cc_case : ∃ s : State adSetup, (QRun adSetup ccBusy s ∧ Reach adSetup ccStart s) ∧ s.Complete ∧ s.NoFailure ∧ s.Timely ∧ SmallBatches s ∧ Each2 Sent s.sources [sentLines arUDP] ∧ s.filters.members ≠ [] ∧
    ∃ (ys : List (DComp adSetup.fo)) (x : WComp), ys.map (fun y => (y.period, y.now0)) = [(10, 15), (20, 15)] ∧
      Chain s b!"m-subject" ys b!"m-subject-archive-archive" ∧ SeparateChain s b!"m-subject" ys ∧ (∀ y ∈ ys, Sound y) ∧ x ∈ s.writers ∧ x.subjects = [b!"m-subject-archive-archive"] ∧
      x.inp.members ≠ [] ∧ NothingLost s x ∧ x.conf.rules = [] ∧ textsFor adSetup (noWriter x.conf [b!"m-subject"]) [sentLines arUDP].flatten = arPts.map Point.text ∧
      x.inp.workers.map (fun k => firstData k.hist) = [b!"m f=2i 20\nm f=10i 40\n"] ∧
      ys.map (fun y => y.inp.workers.map fun k => (k.evs.flatMap evOps).map opView) = [[adOps], [ccOps]] ∧ x.conf = adConf ∧
      x.inp.workers.map (fun k => (received k.hist).flatMap fun m => (linesOf m).map List.length) = [[10, 11]] ∧ x.inp.workers.all (fun k => k.hist.all okEv) = true := by
  obtain ⟨s', hrun, hdone⟩ := after_some cc_done
  have hdone := of_decide_eq_true hdone
  have hq := dActs_quiet .refl hrun rfl
  obtain ⟨f, N, F, hN⟩ := hq.schedule
  have e : f N = s' := hN N (Nat.le_refl _)
  have hsame : SameSetup ccBusy s' := by
    have := F.same (Nat.zero_le N)
    rw [F.start, e] at this
    exact this
  have hreach : Reach adSetup ccStart s' := cc_reach.run hq.run
  have hsent : Each2 Sent s'.sources [sentLines arUDP] := by
    have := F.sent (sent := [sentLines arUDP]) (.cons (.udp _ _) .nil) N
    rwa [e] at this
  have hc := hdone.complete
  obtain ⟨d1, -, -, -, d5, d6, d7, d8, d9, d10, d11⟩ := hdone
  simp only [List.all_eq_true, Bool.and_eq_true, Bool.not_eq_true', decide_eq_true_eq] at d1 d5
  have hcr : s'.crashed = [] := hsame.crashed
  have hfail : s'.NoFailure := by
    refine ⟨fun y hy => ?_, fun f hf => (d5 f hf).1⟩
    unfold State.sources at hy
    rw [hcr, List.append_nil] at hy
    exact (d1 y hy).2
  have htime : s'.Timely := by
    refine ⟨by decide, fun f hf m hm => ?_⟩
    obtain ⟨m1, m2⟩ := (d5 f hf).2 m hm
    rw [m1, m2]
    refine ⟨by decide, by decide, fun line hline => ?_⟩
    obtain ⟨q, hq, rfl⟩ := List.mem_map.1 hline
    clear hline
    refine Or.inl ⟨q.ts, _, text_hasTs (arPts_WF q hq), ?_, ?_⟩ <;> revert q <;> decide
  have hsmall : SmallBatches ccBusy := ad_small
  obtain ⟨y, z, hy⟩ : ∃ y z, s'.downs = [y, z] := by
    have := congrArg List.length hsame.downs
    rw [List.length_map, List.length_map] at this
    revert this
    generalize s'.downs = l
    match l with
    | [] => exact fun h => by cases h
    | [_] => exact fun h => by cases h
    | [y, z] => exact fun _ => ⟨y, z, rfl⟩
    | _ :: _ :: _ :: _ => exact fun h => by simp [ccBusy, ccStart, adStart] at h
  obtain ⟨x, hx⟩ : ∃ x, s'.writers = [x] := by
    have := congrArg List.length hsame.writers
    rw [List.length_map, List.length_map] at this
    exact List.length_eq_one_iff.1 this
  have sd := hsame.downs
  have sw := hsame.writers
  rw [hy] at sd
  rw [hx] at sw
  have sd : [(y.subject, y.out, y.period, y.now0, y.inp.fixed), (z.subject, z.out, z.period, z.now0, z.inp.fixed)] =
    [(b!"m-subject", b!"m-subject-archive", (10 : Int), (15 : Int), ([], 1)), (b!"m-subject-archive", b!"m-subject-archive-archive", (20 : Int), (15 : Int), ([], 1))] := sd
  have sw : [(x.subjects, x.conf, x.inp.fixed)] = [([b!"m-subject-archive-archive"], adConf, ([], 1))] := sw
  simp only [List.cons.injEq, Prod.mk.injEq, and_true] at sd sw
  obtain ⟨⟨s1, s2, s3, s4, s5⟩, r1, r2, r3, r4, r5⟩ := sd
  obtain ⟨t1, t2, t3⟩ := sw
  have hym : y.inp.dead = [] ∧ y.inp.members.length = 1 := by
    unfold Group.fixed at s5
    simpa only [Prod.mk.injEq] using s5
  have hzm : z.inp.dead = [] ∧ z.inp.members.length = 1 := by
    unfold Group.fixed at r5
    simpa only [Prod.mk.injEq] using r5
  have hxm : x.inp.dead = [] ∧ x.inp.members.length = 1 := by
    unfold Group.fixed at t3
    simpa only [Prod.mk.injEq] using t3
  have hfd : s'.filters.dead = [] := (Group.fixed_eq hsame.filters).1
  rw [hy, hx] at d8
  rw [hy] at d6
  rw [hx] at d7 d10 d11
  rw [hy] at d9
  have hwk : ∀ w : DComp adSetup.fo, w.inp.dead = [] → w.inp.workers = w.inp.live := by
    intro w hw
    unfold Group.workers Group.live Group.all
    rw [hw, List.append_nil]
  obtain ⟨g1, g2, g3⟩ := d8
  simp only [List.map_cons, List.map_nil, List.cons.injEq, and_true] at g2 g3 d6 d7 d9 d10
  have hxm' : x.inp.members ≠ [] := fun h => by rw [h] at hxm; cases hxm.2
  have hC : Chain s' b!"m-subject" [y, z] b!"m-subject-archive-archive" := by
    rw [← s1]
    refine .more 0 y [z] _ (by rw [hy]; rfl) ?_ ?_
    · intro j w hj hw
      rw [hy] at hj
      match j, hj with
      | 0, _ => rfl
      | 1, hj =>
        simp only [List.getElem?_cons_succ, List.getElem?_cons_zero, Option.some.injEq] at hj
        rw [← hj, r2, s2] at hw
        exact absurd hw (by decide)
      | j + 2, hj => simp at hj
    · rw [s2, ← r1]
      refine .more 1 z [] _ (by rw [hy]; rfl) ?_ (r2 ▸ .none _)
      intro j w hj hw
      rw [hy] at hj
      match j, hj with
      | 0, hj =>
        simp only [List.getElem?_cons_zero, Option.some.injEq] at hj
        rw [← hj, r2, s2] at hw
        exact absurd hw (by decide)
      | 1, _ => rfl
      | j + 2, hj => simp at hj
  have hsep : SeparateChain s' b!"m-subject" [y, z] := by
    have ho : ∀ w ∈ [y, z], w.out = b!"m-subject-archive" ∨ w.out = b!"m-subject-archive-archive" := by
      intro w hw
      simp only [List.mem_cons, List.not_mem_nil, or_false] at hw
      rcases hw with rfl | rfl
      · exact Or.inl s2
      · exact Or.inr r2
    refine ⟨?_, ?_, ?_, by decide⟩
    · intro r hr
      have key : ∀ r ∈ adSetup.rules, r.subject ≠ adSetup.lsub ∧ r.subject ≠ b!"m-subject-archive" ∧ r.subject ≠ b!"m-subject-archive-archive" := by decide
      obtain ⟨k1, k2, k3⟩ := key r hr
      refine ⟨k1, fun w hw => ?_⟩
      rcases ho w hw with e | e <;> rw [e]
      · exact k2
      · exact k3
    · refine ⟨by decide, fun w hw => ?_⟩
      rcases ho w hw with e | e <;> rw [e] <;> decide
    · intro w hw
      rw [hy] at hw
      rcases ho w hw with e | e <;> rw [e] <;> decide
  refine ⟨s', ⟨hq, hreach⟩, hc, hfail, htime, hsame.small hsmall, hsent, ?_, [y, z], x, ?_, hC, hsep, ?_, by rw [hx]; simp, t1, hxm', ?_, ?_, ?_, ?_, ?_, t2, ?_, by simpa using d11⟩
  · exact (Group.fixed_eq hsame.filters).2.2 (by decide)
  · simp only [List.map_cons, List.map_nil, s3, s4, r3, r4]
  · intro w hw
    simp only [List.mem_cons, List.not_mem_nil, or_false] at hw
    rcases hw with rfl | rfl
    · exact cc_sound (by rw [s3]; decide) hym.1 hym.2 g2.1 d6.1 (by decide) (by decide)
    · exact cc_sound (by rw [r3]; decide) hzm.1 hzm.2 g2.2 d6.2 (by decide) (by decide)
  · refine ⟨by rw [hcr]; exact (fun y hy => by cases hy), ?_, ?_, ?_, ?_⟩
    · unfold Group.gone; rw [hfd, g1]; rfl
    · unfold Group.deadWorkers; rw [hfd]; exact fun f hf => by cases hf
    · unfold Group.gone; rw [hxm.1, g3]; rfl
    · unfold Group.deadWorkers; rw [hxm.1]; exact fun k hk => by cases hk
  · rw [t2]; rfl
  · show [sentLines arUDP].flatten.flatMap (textsTo insertionSorter arRules b!"junk" [b!"m-subject"]) = arPts.map Point.text
    decide +kernel
  · exact d7
  · simp only [List.map_cons, List.map_nil, hwk y hym.1, hwk z hzm.1, d9.1, d9.2]
  · exact d10

example : ∃ (outs : List Point) (sentBy : List (List Bytes)), Archives adSetup.fo [(10, 15), (20, 15)] arPts outs ∧
    sentBy.map List.flatten = [b!"m f=2i 20\nm f=10i 40\n"] ∧ sentBy.flatten.Perm (outs.map Point.text) := by
  obtain ⟨s, ⟨-, h⟩, hc, hf, ht, hb, hs, hm, ys, x, e, C, hsep, H, hx, hxs, hxm, N, hr, hp, hd, -⟩ := cc_case
  have hsum : (ys.map (·.period)).sum = 30 := by
    have := congrArg (fun l => (l.map Prod.fst).sum) e
    simpa [List.map_map, Function.comp_def] using this
  obtain ⟨outs, sentBy, a1, a2, a3⟩ := C117_chain_partial cc_start h hc wholeFloats_plain C hsep H hx hxs hb _ hs hf ht hm hxm N arPts hp arPts_WF arPts_kinds 100 (by decide) (by rw [hsum]; decide)
  rw [e] at a1
  rw [hd] at a2
  rw [hr, kept_norules] at a3
  exact ⟨outs, sentBy, a1, a2, a3⟩

/-- **C117 (the code does not aggregate the measurements of a window).** In a deployment with a chain of two downsamplers over 10 and 20 units of time, all measurements of the window from 0 to 20 (1, 4 and 10, at the times 5, 6 and 16) have been
aggregated and nothing was lost: but the value that InfluxDB was sent for the end of this window is the average of the first two of them, and the third is in the next window. -/
theorem C117_not_of_its_window : ∃ s : State adSetup, Start adSetup ccStart ∧ Reach adSetup ccStart s ∧ s.Complete ∧ s.NoFailure ∧ s.Timely ∧ Each2 Sent s.sources [sentLines arUDP] ∧
    [sentLines arUDP].flatten.Perm [b!"m f=1i 5\n", b!"m f=4i 6\n", b!"m f=10i 16\n"] ∧
    ∃ (ys : List (DComp adSetup.fo)) (x : WComp), ys.map (fun y => (y.period, y.now0)) = [(10, 15), (20, 15)] ∧ Chain s b!"m-subject" ys b!"m-subject-archive-archive" ∧
      x ∈ s.writers ∧ x.subjects = [b!"m-subject-archive-archive"] ∧ NothingLost s x ∧
      x.inp.workers.map (fun k => firstData k.hist) = [b!"m f=2i 20\n" ++ b!"m f=10i 40\n"] := by
  obtain ⟨s, ⟨-, h⟩, hc, hf, ht, hb, hs, hm, ys, x, e, C, hsep, H, hx, hxs, hxm, N, hr, hp, hd, -⟩ := cc_case
  have : [sentLines arUDP].flatten.Perm [b!"m f=1i 5\n", b!"m f=4i 6\n", b!"m f=10i 16\n"] := by
    have e : [sentLines arUDP].flatten = [b!"m f=1i 5\n", b!"m f=10i 16\n", b!"m f=4i 6\n"] := by decide +kernel
    rw [e]
    exact (List.Perm.swap _ _ _).cons _
  exact ⟨s, cc_start, h, hc, hf, ht, hs, this, ys, x, e, C, hx, hxs, N, hd⟩

end Spout.Deploy
