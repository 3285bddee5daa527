import Verif.Props.Schema
import Verif.Props.DeploymentCounters

/-! # C120: in a deployment, everything keeps to the schema of what was sent -/

set_option linter.unusedSimpArgs false

namespace Spout.Deploy
open Spout Spout.Listener Spout.Pool Spout.Spec Spout.Delivery

variable {d : Setup} {s0 s s' : State d}

/-! ## Specification -/

/-- The text is the line of a measurement that conforms to the schema, with a time before `B`. -/
def TypedLine (fo : FloatOps) (T : Schema) (B : Int) (t : Bytes) : Prop := ∃ q : Point, t = q.text ∧ Conforms fo T q ∧ q.ts < B

/-- The downsampler has a period, and has cut no line because it did not fit in a message. -/
structure Uncut {fo : FloatOps} (y : DComp fo) : Prop where
  period : 0 < y.period
  lines : ∀ k ∈ y.inp.workers, ∀ p ∈ k.w.pubs, p.data.getLast? = some NL

/-- The lines that the writer has received fit in a write. -/
structure Fits (x : WComp) : Prop where
  size : 1 ≤ x.conf.batchMaxSize
  lines : ∀ k ∈ x.inp.workers, ∀ m ∈ received k.hist, ∀ l ∈ linesOf m, l.length ≤ x.conf.batchMaxSize + 1

/-! ## Proofs -/

theorem typed_of_lines {fo : FloatOps} {T : Schema} {B : Int} : ∀ (ls : List Bytes), (∀ t ∈ ls, TypedLine fo T B t) → Typed fo T B ls.flatten
  | [], _ => ⟨[], rfl, by simp⟩
  | t :: ls, h => by
    obtain ⟨q, rfl, hq⟩ := h t (by simp)
    obtain ⟨qs, e1, e2⟩ := typed_of_lines ls fun t ht => h t (List.mem_cons_of_mem _ ht)
    refine ⟨q :: qs, by rw [List.flatten_cons, e1]; rfl, ?_⟩
    intro z hz
    rcases List.mem_cons.1 hz with rfl | hz
    · exact hq
    · exact e2 z hz

theorem typed_lines {fo : FloatOps} {T : Schema} {B : Int} {m : Bytes} (h : Typed fo T B m) : CompleteText m ∧ ∀ t ∈ linesOf m, TypedLine fo T B t := by
  obtain ⟨qs, rfl, h2⟩ := h
  refine ⟨⟨qs.map Point.bare, ?_, by rw [List.map_map]; rfl⟩, ?_⟩
  · intro l hl
    obtain ⟨q, hq, rfl⟩ := List.mem_map.1 hl
    exact bare_noNL (h2 q hq).1.wf
  · intro t ht
    rw [linesOf_lines] at ht
    · obtain ⟨q, hq, rfl⟩ := List.mem_map.1 ht
      exact ⟨q, rfl, h2 q hq⟩
    · intro t ht
      obtain ⟨q, hq, rfl⟩ := List.mem_map.1 ht
      exact text_line (h2 q hq).1.wf

/-- What the filters have published for a subject is lines of the texts for it, at any time. -/
theorem filters_typed (I : Inv s) (c : WConf) {sub : Bytes} (hr : ∀ r ∈ d.rules, r.subject ≠ d.lsub) (hj : d.junk ≠ d.lsub) (hd : ∀ z ∈ s.downs, z.out ≠ d.lsub ∧ z.out ≠ sub)
    (hl : d.lsub ≠ sub) (hb : SmallBatches s) (sent : List (List Bytes)) (hs : Each2 Sent s.sources sent) {T : Schema} {B : Int}
    (ht : ∀ t ∈ textsFor d (noWriter c [sub]) sent.flatten, TypedLine d.fo T B t) : ∀ m ∈ onSubj sub s.out, Typed d.fo T B m := by
  have sep0 : Separate s (noWriter c []) := ⟨hr, hj, fun z hz => ⟨(hd z hz).1, fun h => by cases h⟩, fun h => by cases h⟩
  have sep1 : Separate s (noWriter c [sub]) := ⟨hr, hj, fun z hz => ⟨(hd z hz).1, fun h => (hd z hz).2 (List.mem_singleton.1 h)⟩, fun h => hl (List.mem_singleton.1 h)⟩
  let p := systemOf I (noWriter_ok s c) sep0 hb sent hs
  obtain ⟨D, d1, d2⟩ := filters_messages [sub] p.filters
  have hbal := lines_balance I ⟨hr, hj, fun z hz => (hd z hz).1⟩ hb sent hs
  have key : ∀ t ∈ D.flatten, TypedLine d.fo T B t := by
    intro t htD
    rw [d2] at htD
    obtain ⟨w, hw, htD⟩ := List.mem_flatMap.1 htD
    obtain ⟨f, -, rfl⟩ := List.mem_map.1 hw
    rw [List.flatMap_cons, List.flatMap_nil, List.append_nil] at htD
    obtain ⟨m, hm, htD⟩ := List.mem_flatMap.1 htD
    have hm : m ∈ f.1.past := hm
    obtain ⟨r, hr'⟩ := message_texts_sub d.S d.rules d.junk [sub] d.delta m
    have htx : t ∈ Delivery.textsOf d.S d.rules d.junk [sub] m.data :=
      hr'.mem_iff.1 (List.mem_append_left _ (List.mem_flatMap.2 ⟨sub, List.mem_singleton.2 rfl, htD⟩))
    unfold Delivery.textsOf at htx
    obtain ⟨line, hline, htx⟩ := List.mem_flatMap.1 htx
    refine ht t (List.mem_flatMap.2 ⟨line, ?_, htx⟩)
    refine hbal.mem_iff.1 (List.mem_append_left _ ?_)
    exact List.mem_flatMap.2 ⟨f.1, f.2, List.mem_flatMap.2 ⟨m, hm, hline⟩⟩
  intro m hm
  rw [out_to_writer sep1 (List.mem_singleton.2 rfl)] at hm
  obtain ⟨f, hf, hm⟩ := List.mem_flatMap.1 hm
  have hm' : m ∈ p.filters.flatMap fun w => [sub].flatMap fun sub => onSubject sub w.pubss.flatten := by
    refine List.mem_flatMap.2 ⟨_, List.mem_map.2 ⟨⟨f, hf⟩, List.mem_attach _ _, rfl⟩, ?_⟩
    rw [List.flatMap_cons, List.flatMap_nil, List.append_nil]
    show m ∈ onSubject sub f.pubss.flatten
    unfold Delivery.published at hm
    unfold onSubject
    obtain ⟨x, hx, rfl⟩ := List.mem_map.1 hm
    obtain ⟨hx, hc⟩ := List.mem_filter.1 hx
    refine List.mem_map.2 ⟨x, List.mem_filter.2 ⟨hx, ?_⟩, rfl⟩
    simp at hc ⊢
    exact hc.2
  rw [d1] at hm'
  obtain ⟨ts, hts, rfl⟩ := List.mem_map.1 hm'
  exact typed_of_lines ts fun t ht' => key t (List.mem_flatten.2 ⟨ts, hts, ht'⟩)

theorem chain_typed (I : Inv s) (hpl : PlainFloats d.fo) (hrd : ReadableFloats d.fo) {T : Schema} {sub out : Bytes} {ys : List (DComp d.fo)} (C : Chain s sub ys out)
    (hl : ∀ y ∈ ys, d.lsub ≠ y.out ∧ (∀ r ∈ d.rules, r.subject ≠ y.out) ∧ d.junk ≠ y.out) (H : ∀ y ∈ ys, Uncut y) :
    ∀ B : Int, (∀ m ∈ onSubj sub s.out, Typed d.fo T B m) → B + (ys.map (·.period)).sum ≤ 9223372036854775808 →
      (∀ y ∈ ys, ∀ k ∈ y.inp.workers, k.w.stats.invalidLines = 0) ∧ ∀ m ∈ onSubj out s.out, Typed d.fo T (B + (ys.map (·.period)).sum) m := by
  induction C with
  | none sub => exact fun B h1 h2 => ⟨(fun y hy => by cases hy), by simpa using h1⟩
  | more i y ys out hy only rest ih =>
    intro B h1 h6
    have hym := get_mem hy
    have Hy := H y List.mem_cons_self
    obtain ⟨-, q, k, hk, hrun⟩ := I.downs y hym
    have hkw : y.inp.workers = [k] := by unfold Group.workers; rw [hk]; rfl
    have m1 := down_received I hym hk
    have hsum : 0 ≤ (ys.map (·.period)).sum := by
      have : ∀ l : List (DComp d.fo), (∀ y ∈ l, 0 < y.period) → 0 ≤ (l.map (·.period)).sum := by
        intro l
        induction l with
        | nil => intro _; simp
        | cons a l ih =>
          intro h
          have := h a List.mem_cons_self
          have := ih fun y hy => h y (List.mem_cons_of_mem _ hy)
          simp only [List.map_cons, List.sum_cons]; omega
      exact this ys fun z hz => (H z (List.mem_cons_of_mem _ hz)).period
    simp only [List.map_cons, List.sum_cons] at h6 ⊢
    obtain ⟨a1, -, a3⟩ := C120_keeps_schema hpl hrd Hy.period hrun (T := T) (B := B) (fun m hm => h1 m (m1.mem_iff.1 (List.mem_append_left _ hm))) (by omega)
    have a3 := a3 (Hy.lines k (by rw [hkw]; simp))
    obtain ⟨l1, l2, l3⟩ := hl y List.mem_cons_self
    have p1 := down_published I hy only l1 l2 l3 hk
    obtain ⟨b1, b2⟩ := ih (fun z hz => hl z (List.mem_cons_of_mem _ hz)) (fun z hz => H z (List.mem_cons_of_mem _ hz)) (B + y.period) (by
      intro m hm
      rw [p1] at hm
      obtain ⟨z, hz, rfl⟩ := List.mem_map.1 hm
      exact a3 z (List.mem_filter.1 hz).1) (by omega)
    refine ⟨?_, ?_⟩
    · intro z hz
      rcases List.mem_cons.1 hz with rfl | hz
      · intro k' hk'
        rw [hkw, List.mem_singleton] at hk'
        rw [hk']; exact a1
      · exact b1 z hz
    · intro m hm
      have := b2 m hm
      rwa [Int.add_assoc] at this

theorem chain_mem {sub out : Bytes} {ys : List (DComp d.fo)} (C : Chain s sub ys out) : ∀ y ∈ ys, y ∈ s.downs := by
  induction C with
  | none => exact fun y hy => by cases hy
  | more i y ys out hy only rest ih =>
    intro z hz
    rcases List.mem_cons.1 hz with rfl | hz
    · exact get_mem hy
    · exact ih z hz

/-- **C120 (a deployment keeps to the schema).** In every reachable state - whatever has failed, crashed, been lost or come late - of a deployment in which the texts for the first subject of a chain of downsamplers (of any length, possibly none) are measurements
that conform to a schema: no downsampler of the chain has counted an invalid line, everything on its last subject is lines of measurements that conform to the schema, and so is the body of every write, first attempt or retry, of every
writer of this subject. (Provided that no line had to be cut because it does not fit in a message or a write.) -/
theorem C120_deployment (h0 : Start d s0) (h : Reach d s0 s) (hpl : PlainFloats d.fo) (hrd : ReadableFloats d.fo) {sub out : Bytes} {ys : List (DComp d.fo)} (C : Chain s sub ys out)
    (hsep : SeparateChain s sub ys) (H : ∀ y ∈ ys, Uncut y) (hb : SmallBatches s) (sent : List (List Bytes)) (hs : Each2 Sent s.sources sent) (c : WConf) (T : Schema) (B : Int)
    (ht : ∀ t ∈ textsFor d (noWriter c [sub]) sent.flatten, TypedLine d.fo T B t) (hB : B + (ys.map (·.period)).sum ≤ 9223372036854775808) :
    (∀ y ∈ ys, ∀ k ∈ y.inp.workers, k.w.stats.invalidLines = 0) ∧
    (∀ m ∈ onSubj out s.out, Typed d.fo T (B + (ys.map (·.period)).sum) m) ∧
    ∀ x ∈ s.writers, x.subjects = [out] → Fits x → ∀ k ∈ x.inp.workers, ∀ (i : Nat) (body : Bytes) (t : Int),
      ((∃ r, .first i body r t ∈ k.hist) ∨ .attempt i body t ∈ k.hist) → Typed d.fo T (B + (ys.map (·.period)).sum) body := by
  have I := inv_reach h0 h
  have h1 := filters_typed I c (fun r hr => (hsep.rules r hr).1) hsep.junk.1 hsep.downs hsep.subject hb sent hs ht
  obtain ⟨b1, b2⟩ := chain_typed I hpl hrd C (fun y hy => ⟨fun e => (hsep.downs y (chain_mem C y hy)).1 e.symm, fun r hr => (hsep.rules r hr).2 y hy, hsep.junk.2 y hy⟩) H B h1 hB
  refine ⟨b1, b2, ?_⟩
  intro x hx hxs F k hk i body t hbody
  have hw := I.writers x hx
  have hm : ∀ m ∈ received k.hist, Typed d.fo T (B + (ys.map (·.period)).sum) m := by
    intro m hm
    have h2 := writer_received hw
    rw [hxs, List.flatMap_cons, List.flatMap_nil, List.append_nil] at h2
    exact b2 m (h2.mem_iff.1 (List.mem_append_left _ (List.mem_flatten.2 ⟨_, List.mem_map_of_mem hk, hm⟩)))
  obtain ⟨-, c2⟩ := C70_whole_lines x.conf F.size k (hw.2 k hk) (fun m hmm => ⟨(typed_lines (hm m hmm)).1, F.lines k hk m hmm⟩) i body t hbody
  rw [← linesOf_flatten body]
  refine typed_of_lines _ fun l hl => ?_
  obtain ⟨m, hmm, hl⟩ := c2 l hl
  exact (typed_lines (hm m hmm)).2 l hl

/-- The downsampler is running, lost nothing of its input, no publish of it failed, no line had to be cut, and its input came on time. -/
structure WellRun {fo : FloatOps} (y : DComp fo) : Prop where
  uncut : Uncut y
  running : y.inp.members ≠ []
  lost : y.inp.gone = []
  published : ∀ k ∈ y.inp.workers, k.w.stats.failedPublish = 0
  onTime : ∀ k ∈ y.inp.workers, OnTime y k

/-- **C120 (archives of archives of measurements that conform to a schema and come on time).** As `C117_chain_partial`, but nothing is assumed of the error counters of the downsamplers: in every reachable state in which nothing is left to do and the downsamplers
hold nothing, for every chain of any number of downsamplers and every writer of the output of the last: if no publish failed, the lines were in the filters' time window, nothing was lost, the texts for the first subject are measurements `pts` that conform to
a schema, and every downsampler gets its input on time, then the workers of the writer have sent to InfluxDB, each once, the lines that the levels of aggregation make of `pts` (those that match its rules, if it has rules). -/
theorem C120_chain_archived (h0 : Start d s0) (h : Reach d s0 s) (hc : s.Complete) (hpl : PlainFloats d.fo) (hrd : ReadableFloats d.fo) {sub out : Bytes} {ys : List (DComp d.fo)} (C : Chain s sub ys out)
    (hsep : SeparateChain s sub ys) (H : ∀ y ∈ ys, WellRun y) {x : WComp} (hx : x ∈ s.writers) (hxs : x.subjects = [out]) (hb : SmallBatches s)
    (sent : List (List Bytes)) (hs : Each2 Sent s.sources sent) (hf : s.NoFailure) (ht : s.Timely) (hm : s.filters.members ≠ []) (hxm : x.inp.members ≠ []) (N : NothingLost s x)
    (pts : List Point) (hp : textsFor d (noWriter x.conf [sub]) sent.flatten = pts.map Point.text) (T : Schema) (hT : ∀ p ∈ pts, Conforms d.fo T p)
    (B : Int) (hB : ∀ p ∈ pts, p.ts < B) (hlim : B + (ys.map (·.period)).sum < 9223372036854775808) :
    ∃ (outs : List Point) (sentBy : List (List Bytes)), Archives d.fo (ys.map fun y => (y.period, y.now0)) pts outs ∧
      sentBy.map List.flatten = x.inp.workers.map (fun k => firstData k.hist) ∧ sentBy.flatten.Perm (kept x.conf.rules (outs.map Point.text)) := by
  have I := inv_reach h0 h
  obtain ⟨b1, -, -⟩ := C120_deployment h0 h hpl hrd C hsep (fun y hy => (H y hy).uncut) hb sent hs x.conf T B (by
    intro t ht
    rw [hp] at ht
    obtain ⟨q, hq, rfl⟩ := List.mem_map.1 ht
    exact ⟨q, rfl, hT q hq, hB q hq⟩) (by omega)
  have hsound : ∀ y ∈ ys, Sound y := by
    intro y hy
    have W := H y hy
    refine ⟨W.uncut.period, W.running, W.lost, fun k hk => ⟨?_, b1 y hy k hk, W.published k hk⟩, W.uncut.lines⟩
    obtain ⟨-, q, k', hk', hrun⟩ := I.downs y (chain_mem C y hy)
    have hkw : y.inp.workers = [k'] := by unfold Group.workers; rw [hk']; rfl
    rw [hkw, List.mem_singleton] at hk
    subst hk
    have O := W.onTime k (by rw [hkw]; simp)
    obtain ⟨w, -, -, -, -, e1, -, -, -, -, e2⟩ := C118_on_time_never_refused d.fo d.S y.period y.now0 W.uncut.period k.evs O.steady O.attentive
    rw [hrun] at e1
    injection e1 with e1
    subst e1
    exact e2.1 O.inReach
  refine C117_chain_partial h0 h hc hpl C hsep hsound hx hxs hb sent hs hf ht hm hxm N pts hp (fun p hp => (hT p hp).wf) ?_ B hB hlim
  intro p hp q hq e f hf g hg e'
  exact kind_quoted (fo := d.fo) (by rw [(hT p hp).kinds f hf, (hT q hq).kinds g hg, e, e'])

/-- **C120 (under every fair schedule).** Let nothing more be sent to the listeners. Under every schedule that is fair to the archive there is a moment from which on every such chain has done so. -/
theorem C120_eventually_archived (h0 : Start d s0) (h : Reach d s0 s) (A : s.Acyclic) (Z : s.Sizes) (hb : SmallBatches s) (hm : s.filters.members ≠ []) (hpl : PlainFloats d.fo) (hrd : ReadableFloats d.fo)
    (sent : List (List Bytes)) (hs : Each2 Sent s.sources sent) {f : Nat → State d} (F : Schedule d s f) (hf : FairArchive f) :
    ∃ n0, ∀ n, n0 ≤ n → (f n).Complete ∧ ((f n).NoFailure → (f n).Timely → ∀ (sub out : Bytes) (ys : List (DComp d.fo)) (x : WComp), Chain (f n) sub ys out → SeparateChain (f n) sub ys →
      (∀ y ∈ ys, WellRun y) → x ∈ (f n).writers → x.subjects = [out] → x.inp.members ≠ [] → NothingLost (f n) x →
      ∀ pts : List Point, textsFor d (noWriter x.conf [sub]) sent.flatten = pts.map Point.text → ∀ T : Schema, (∀ p ∈ pts, Conforms d.fo T p) →
      ∀ B : Int, (∀ p ∈ pts, p.ts < B) → B + (ys.map (·.period)).sum < 9223372036854775808 →
        ∃ (outs : List Point) (sentBy : List (List Bytes)), Archives d.fo (ys.map fun y => (y.period, y.now0)) pts outs ∧
          sentBy.map List.flatten = x.inp.workers.map (fun k => firstData k.hist) ∧ sentBy.flatten.Perm (kept x.conf.rules (outs.map Point.text))) := by
  obtain ⟨N, hN⟩ := C102_fair_completes h0 h A Z F hf
  refine ⟨N, fun n hn => ⟨hN n hn, fun a b sub out ys x C hsep H hx hxs hxm hl pts hp T hT B hB hlim => ?_⟩⟩
  have hsame : SameSetup s (f n) := by
    have := F.same (Nat.zero_le n)
    rw [F.start] at this
    exact this
  obtain ⟨-, -, -, hrun⟩ := F.ok (inv_reach h0 h) A Z n
  exact C120_chain_archived h0 (h.run hrun) (hN n hn) hpl hrd C hsep H hx hxs (hsame.small hb) sent (F.sent hs n) a b ((Group.fixed_eq hsame.filters).2.2 hm) hxm hl pts hp T hT B hB hlim

/-! ## A deployment that meets the hypotheses -/

/-- Operations that are on time: a way to show it line by line. -/
def GoodOps (p last : Int) : List AOp → Prop
  | [] => True
  | .line now l :: ops => now ≤ last + p ∧ (l ≠ [] → ∃ q : Point, q.WF ∧ l = q.bare ∧ startOf p last - p ≤ q.ts ∧ q.ts < startOf p last + 2 * p) ∧ GoodOps p last ops
  | .tick now _ :: ops => now ≤ last + p ∧ GoodOps p now ops

theorem good_punctual {p : Int} : ∀ (ops : List AOp) (last : Int), GoodOps p last ops → Punctual p last ops
  | [], _, _ => trivial
  | .line _ _ :: ops, last, h => ⟨h.1, good_punctual ops last h.2.2⟩
  | .tick now _ :: ops, _, h => ⟨h.1, good_punctual ops now h.2⟩

theorem good_reach {p : Int} : ∀ (ops : List AOp) (last : Int), GoodOps p last ops → InReach p last ops
  | [], _, _ => by intro pre post now l ts body e; simp at e
  | .line c t :: ops, last, h => by
    intro pre post now l ts body e hne hst
    cases pre with
    | nil =>
      simp only [List.nil_append, List.cons.injEq, AOp.line.injEq] at e
      obtain ⟨⟨-, rfl⟩, -⟩ := e
      obtain ⟨q, hq, rfl, hr⟩ := h.2.1 hne
      obtain ⟨rfl, -⟩ := bare_stamped hq hst
      exact hr
    | cons o pre =>
      simp only [List.cons_append, List.cons.injEq] at e
      obtain ⟨rfl, e⟩ := e
      exact good_reach ops last h.2.2 pre post now l ts body e hne hst
  | .tick c r :: ops, last, h => by
    intro pre post now l ts body e hne hst
    cases pre with
    | nil => simp at e
    | cons o pre =>
      simp only [List.cons_append, List.cons.injEq] at e
      obtain ⟨rfl, e⟩ := e
      exact good_reach ops c h.2 pre post now l ts body e hne hst

theorem op_line {o : AOp} {n : Int} {t : Bytes} (h : opView o = ⟨true, n, t⟩) : o = .line n t := by
  cases o with
  | line => simp only [opView, OpView.mk.injEq, true_and] at h; rw [h.1, h.2]
  | tick => simp [opView] at h

theorem op_tick {o : AOp} {n : Int} {t : Bytes} (h : opView o = ⟨false, n, t⟩) : ∃ r, o = .tick n r := by
  cases o with
  | line => simp [opView] at h
  | tick n' r => simp only [opView, OpView.mk.injEq, true_and] at h; exact ⟨r, by rw [h.1]⟩

/-- The lines that the second downsampler of the example gets. -/
def ccPt1 : Point := ⟨⟨b!"m", [(b!"f", ⟨false, b!"2i"⟩)]⟩, 10⟩
def ccPt2 : Point := ⟨⟨b!"m", [(b!"f", ⟨false, b!"10i"⟩)]⟩, 20⟩

theorem ccPts_WF : ccPt1.WF ∧ ccPt2.WF := by
  have h := wfSamples_ints [b!"2i", b!"10i"] (by decide)
  exact ⟨⟨h ⟨false, b!"2i"⟩ (by decide), by decide +kernel, by decide, by decide⟩, ⟨h ⟨false, b!"10i"⟩ (by decide), by decide +kernel, by decide, by decide⟩⟩

theorem cc_onTime {y : DComp adSetup.fo} {k : DState adSetup.fo} (hp : y.period = 20) (hn : y.now0 = 15) (h : (k.evs.flatMap evOps).map opView = ccOps) : OnTime y k := by
  obtain ⟨r1, r2, r3, r4, e⟩ : ∃ r1 r2 r3 r4, k.evs.flatMap evOps =
      [.line 31 b!"m f=2i 10", .line 31 [], .tick 31 r1, .line 31 b!"m f=10i 20", .line 31 [], .tick 31 r2, .tick 40 r3, .tick 60 r4] := by
    unfold ccOps at h
    obtain ⟨a1, l1, e1, h1, h⟩ := List.map_eq_cons_iff.1 h
    obtain ⟨a2, l2, e2, h2, h⟩ := List.map_eq_cons_iff.1 h
    obtain ⟨a3, l3, e3, h3, h⟩ := List.map_eq_cons_iff.1 h
    obtain ⟨a4, l4, e4, h4, h⟩ := List.map_eq_cons_iff.1 h
    obtain ⟨a5, l5, e5, h5, h⟩ := List.map_eq_cons_iff.1 h
    obtain ⟨a6, l6, e6, h6, h⟩ := List.map_eq_cons_iff.1 h
    obtain ⟨a7, l7, e7, h7, h⟩ := List.map_eq_cons_iff.1 h
    obtain ⟨a8, l8, e8, h8, h⟩ := List.map_eq_cons_iff.1 h
    have h9 := List.map_eq_nil_iff.1 h
    clear h
    obtain ⟨r1, rfl⟩ := op_tick h3
    obtain ⟨r2, rfl⟩ := op_tick h6
    obtain ⟨r3, rfl⟩ := op_tick h7
    obtain ⟨r4, rfl⟩ := op_tick h8
    rw [e1, e2, e3, e4, e5, e6, e7, e8, op_line h1, op_line h2, op_line h4, op_line h5, h9]
    exact ⟨r1, r2, r3, r4, rfl⟩
  have g : GoodOps 20 15 (k.evs.flatMap evOps) := by
    rw [e]
    refine ⟨by decide, fun _ => ⟨ccPt1, ccPts_WF.1, by decide +kernel, by decide, by decide⟩, by decide, fun h => absurd rfl h, by decide, by decide,
      fun _ => ⟨ccPt2, ccPts_WF.2, by decide +kernel, by decide, by decide⟩, by decide, fun h => absurd rfl h, by decide, by decide, by decide, trivial⟩
  refine ⟨?_, ?_, ?_⟩
  · rw [e, hn]; unfold Steady; simp [AOp.now]
  · rw [hn, hp]; exact punctual_attentive (by decide) _ (good_punctual _ _ g)
  · rw [hn, hp]; exact good_reach _ _ g

/-- All fields of the example are integers. -/
theorem arPts_conform : ∀ q ∈ arPts, Conforms adSetup.fo (fun _ _ => .integer) q := by
  intro q hq
  refine ⟨arPts_WF q hq, ?_, ?_⟩
  · revert q; decide
  · show ∀ f ∈ q.line.fields, f.2.kind wholeFloats = .integer
    revert q; decide

/-- The deployment of `cc_case`, a chain of two downsamplers and a writer, meets the hypotheses of `C120_deployment` and `C120_chain_archived`. -/
theorem cc_schema : ∃ s : State adSetup, (QRun adSetup ccBusy s ∧ Reach adSetup ccStart s) ∧ s.Complete ∧ s.NoFailure ∧ s.Timely ∧ SmallBatches s ∧ Each2 Sent s.sources [sentLines arUDP] ∧ s.filters.members ≠ [] ∧
    ∃ (ys : List (DComp adSetup.fo)) (x : WComp), ys.map (fun y => (y.period, y.now0)) = [(10, 15), (20, 15)] ∧
      Chain s b!"m-subject" ys b!"m-subject-archive-archive" ∧ SeparateChain s b!"m-subject" ys ∧ (∀ y ∈ ys, WellRun y) ∧ x ∈ s.writers ∧ x.subjects = [b!"m-subject-archive-archive"] ∧
      x.inp.members ≠ [] ∧ NothingLost s x ∧ textsFor adSetup (noWriter x.conf [b!"m-subject"]) [sentLines arUDP].flatten = arPts.map Point.text ∧
      x.inp.workers.map (fun k => firstData k.hist) = [b!"m f=2i 20\nm f=10i 40\n"] ∧ Fits x ∧ x.conf = adConf ∧ x.inp.workers.all (fun k => k.hist.all okEv) = true := by
  obtain ⟨s, ⟨hq, h⟩, hc, hf, ht, hb, hs, hm, ys, x, e, C, hsep, H, hx, hxs, hxm, N, hr, hp, hd, ho, hcf, hl, hok⟩ := cc_case
  refine ⟨s, ⟨hq, h⟩, hc, hf, ht, hb, hs, hm, ys, x, e, C, hsep, ?_, hx, hxs, hxm, N, hp, hd, ⟨?_, ?_⟩, hcf, hok⟩
  · have hI := inv_reach cc_start h
    have one : ∀ y ∈ ys, ∀ ops : List OpView, (y.inp.workers.map fun k => (k.evs.flatMap evOps).map opView) = [ops] → ∀ k ∈ y.inp.workers, (k.evs.flatMap evOps).map opView = ops := by
      intro y _ ops e k hk
      have : (k.evs.flatMap evOps).map opView ∈ [ops] := by rw [← e]; exact List.mem_map_of_mem (f := fun k : DState adSetup.fo => (k.evs.flatMap evOps).map opView) hk
      exact List.mem_singleton.1 this
    obtain ⟨y, z, rfl⟩ : ∃ y z, ys = [y, z] := by
      have hlen := congrArg List.length e
      rw [List.length_map] at hlen
      clear e ho one H C hsep
      match ys with
      | [] => cases hlen
      | [_] => cases hlen
      | [y, z] => exact ⟨y, z, rfl⟩
      | _ :: _ :: _ :: _ => simp at hlen
    · simp only [List.map_cons, List.map_nil, List.cons.injEq, Prod.mk.injEq, and_true] at e ho
      obtain ⟨⟨p1, n1⟩, p2, n2⟩ := e
      obtain ⟨o1, o2⟩ := ho
      have mk : ∀ w : DComp adSetup.fo, Sound w → (∀ k ∈ w.inp.workers, OnTime w k) → WellRun w :=
        fun w S O => ⟨⟨S.period, S.lines⟩, S.running, S.lost, fun k hk => (S.counts k hk).2.2, O⟩
      intro w hw
      rcases List.mem_cons.1 hw with rfl | hw
      · exact mk _ (H _ (by simp)) fun k hk => ad_onTime p1 n1 (one _ (by simp) _ o1 k hk)
      · have := List.mem_singleton.1 hw
        subst this
        exact mk _ (H _ (by simp)) fun k hk => cc_onTime p2 n2 (one _ (by simp) _ o2 k hk)
  · rw [hcf]; decide
  · intro k hk m hm l hl'
    have : ((received k.hist).flatMap fun m => (linesOf m).map List.length) ∈ [[10, 11]] := by
      rw [← hl]; exact List.mem_map.2 ⟨k, hk, rfl⟩
    have := List.mem_singleton.1 this
    have hin : l.length ∈ [10, 11] := by
      rw [← this]
      exact List.mem_flatMap.2 ⟨m, hm, List.mem_map_of_mem hl'⟩
    rw [hcf]
    show l.length ≤ 1001
    simp at hin
    omega

example : ∃ (s : State adSetup) (ys : List (DComp adSetup.fo)) (x : WComp), Reach adSetup ccStart s ∧ ys.length = 2 ∧ x ∈ s.writers ∧ (∀ y ∈ ys, ∀ k ∈ y.inp.workers, k.w.stats.invalidLines = 0) ∧
    ∀ k ∈ x.inp.workers, ∀ (i : Nat) (body : Bytes) (t : Int), ((∃ r, .first i body r t ∈ k.hist) ∨ .attempt i body t ∈ k.hist) → Typed adSetup.fo (fun _ _ => .integer) 130 body := by
  obtain ⟨s, ⟨hq, h⟩, hc, hf, ht, hb, hs, hm, ys, x, e, C, hsep, H, hx, hxs, hxm, N, hp, hd, F, -⟩ := cc_schema
  have hsum : (ys.map (·.period)).sum = 30 := by
    have := congrArg (fun l => (l.map Prod.fst).sum) e
    simpa [List.map_map, Function.comp_def] using this
  obtain ⟨a1, -, a3⟩ := C120_deployment cc_start h wholeFloats_plain wholeFloats_readable C hsep (fun y hy => (H y hy).uncut) hb _ hs x.conf (fun _ _ => .integer) 100 (by
    intro t ht
    rw [hp] at ht
    obtain ⟨q, hq, rfl⟩ := List.mem_map.1 ht
    exact ⟨q, rfl, arPts_conform q hq, by clear ht; revert q; decide⟩) (by rw [hsum]; decide)
  rw [hsum] at a3
  exact ⟨s, ys, x, h, by simpa using congrArg List.length e, hx, a1, a3 x hx hxs F⟩

example : ∃ (outs : List Point) (sentBy : List (List Bytes)), Archives adSetup.fo [(10, 15), (20, 15)] arPts outs ∧ sentBy.map List.flatten = [b!"m f=2i 20\nm f=10i 40\n"] := by
  obtain ⟨s, ⟨hq, h⟩, hc, hf, ht, hb, hs, hm, ys, x, e, C, hsep, H, hx, hxs, hxm, N, hp, hd, F, -⟩ := cc_schema
  have hsum : (ys.map (·.period)).sum = 30 := by
    have := congrArg (fun l => (l.map Prod.fst).sum) e
    simpa [List.map_map, Function.comp_def] using this
  obtain ⟨outs, sentBy, a1, a2, -⟩ := C120_chain_archived cc_start h hc wholeFloats_plain wholeFloats_readable C hsep H hx hxs hb _ hs hf ht hm hxm N arPts hp (fun _ _ => .integer) arPts_conform 100 (by decide)
    (by rw [hsum]; decide)
  rw [e] at a1
  rw [hd] at a2
  exact ⟨outs, sentBy, a1, a2⟩

end Spout.Deploy
