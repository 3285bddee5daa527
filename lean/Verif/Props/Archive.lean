import Verif.Props.System
import Verif.Props.DownsamplerWorker
import Verif.Props.Monitor

/-! # The archive: listeners, filter, downsampler and writer together (C90)

The downsampler of a subject and the writer of its archive, after the listeners and filters of
`Verif.Props.System`. -/

set_option linter.unusedSimpArgs false

namespace Spout.Delivery
open Spout Spout.Listener Spout.Spec Spout.Pool

/-! ## Specification -/

/-- A measurement: series and fields, and the time in nanoseconds. -/
structure Point where
  line : SLine
  ts : Int

/-- The line without its newline. -/
def Point.bare (q : Point) : Bytes := q.line.text ++ SP :: itoa q.ts

/-- The line of the measurement. -/
def Point.text (q : Point) : Bytes := q.bare ++ [NL]

/-- A well-formed line on one line of text, with a time after 1970 that int64 can hold. -/
def Point.WF (q : Point) : Prop := q.line.WF ∧ NL ∉ q.line.text ∧ 0 ≤ q.ts ∧ q.ts < 9223372036854775808

/-- The series and fields of the measurements in `[w - p, w)`, in order. -/
def inWindow (p w : Int) (pts : List Point) : List SLine :=
  (pts.filter fun q => decide (w - p ≤ q.ts ∧ q.ts < w)).map (·.line)

/-- The messages received in a history of the downsampler. -/
def messagesIn (evs : List DEvent) : List Bytes :=
  evs.flatMap fun e => match e.input with | .msg d _ => [d] | .timeout => []

variable {S : Sorter} {delta : Int} {rules : List Rule} {junk sub : Bytes} {subs : List Bytes} {wc : WConf}

/-- A downsampler worker on the subject `sub` of a system, started at `now0`, and the writer of the archive. -/
structure Archive (p : System S delta rules junk subs wc) (sub : Bytes) (fo : FloatOps) (period now0 : Int) (awc : WConf) where
  /-- messages on the way to the downsampler, or lost -/
  toDown : List Bytes
  dqueue : Pool
  evs : List DEvent
  w : DWorker fo
  /-- messages on the way to the writer, or lost -/
  toWriter : List Bytes
  /-- the queue of each process of the archive writer -/
  wqueues : List Pool
  writers : List WSys
  dReach : Run (start 1 1) dqueue
  dArrived : (dqueue.arrived.flatten ++ toDown).Perm (p.filters.flatMap fun w => Delivery.published sub w.pubss.flatten)
  dGot : dqueue.got = [messagesIn evs]
  ran : DWorker.run S (DWorker.new fo period now0) evs = .ok w
  wReach : ∀ q ∈ wqueues, IsQueue q
  wArrived : ((wqueues.flatMap fun q => q.arrived.flatten) ++ toWriter).Perm ((w.pubs.filter fun q => !q.failed).map (·.data))
  wGot : (wqueues.flatMap fun q => q.got) = writers.map fun s => received s.hist
  written : ∀ s ∈ writers, WRun awc s

/-- Nothing is under way to the filter workers, or in them. -/
structure System.Passed (p : System S delta rules junk subs wc) : Prop where
  toFilter : p.toFilter = []
  fqueues : inQueues p.fqueues = []
  working : ∀ w ∈ p.filters, w.working = []
  held : ∀ s ∈ p.listeners, s.held = [] ∧ s.unread = []

/-! ## Proofs -/

theorem hasTs_unique {line : Bytes} {v off v' off' : Int} (h : HasTs line v off) (h' : HasTs line v' off') : v = v' ∧ off = off' := by
  have h1 := extractTimestamp_some h
  rw [extractTimestamp_some h'] at h1
  injection h1 with h1
  injection h1 with h1 h2
  exact ⟨h1.symm, h2.symm⟩

theorem bare_noNL {q : Point} (h : q.WF) : NL ∉ q.bare := by
  unfold Point.bare
  intro hm
  rw [List.mem_append, List.mem_cons] at hm
  rcases hm with hm | hm | hm
  · exact h.2.1 hm
  · cases hm
  · exact itoa_noNL q.ts hm

theorem bare_hasTs {q : Point} (h : q.WF) : HasTs q.bare q.ts (q.line.text.length + 1) := by
  have hs : stripNL q.bare = q.bare := by
    unfold stripNL
    rw [if_neg]
    intro hl
    exact bare_noNL h (List.mem_of_getLast? hl)
  obtain ⟨⟨⟨hk, -⟩, hf, hfs⟩, -, h0, h1⟩ := h
  refine ⟨?_, q.line.text, itoa q.ts, hs, ?_, itoa_decimal _, ⟨by omega, by omega⟩, rfl⟩
  · have e1 : 1 ≤ q.line.key.length := List.length_pos_iff.2 hk
    have e2 : 1 ≤ (itoa q.ts).length := List.length_pos_iff.2 (by
      unfold itoa; rw [if_neg (by omega)]; exact natDigits_ne_nil _)
    have e3 : 2 ≤ (fieldsText (q.line.fields.map fun f => (f.1, f.2.text))).length := by
      cases hc : q.line.fields with
      | nil => exact absurd hc hf
      | cons f fs =>
        have h1 := (hfs f (by rw [hc]; simp)).1.1
        have h1 : 1 ≤ f.1.length := List.length_pos_iff.2 h1
        unfold fieldsText
        cases fs with
        | nil => simp; omega
        | cons g gs => simp [List.intersperse]; omega
    unfold Point.bare SLine.text
    simp only [List.length_append, List.length_cons, List.length_nil]
    omega
  · unfold itoa
    rw [if_neg (by omega)]
    have := natDigits_length q.ts.natAbs 19 (by omega) (by omega)
    exact this

theorem text_hasTs {q : Point} (h : q.WF) : HasTs q.text q.ts (q.line.text.length + 1) := by
  obtain ⟨h1, pre, ts, h2, h3, h4, h5, h6⟩ := bare_hasTs h
  have hs : stripNL q.bare = q.bare := by
    unfold stripNL
    rw [if_neg]
    intro hl
    exact bare_noNL h (List.mem_of_getLast? hl)
  refine ⟨by unfold Point.text; rw [List.length_append]; omega, pre, ts, ?_, h3, h4, h5, h6⟩
  rw [← h2, hs]
  unfold stripNL Point.text
  rw [if_pos (by simp)]
  simp

theorem bare_stamped {q : Point} (h : q.WF) {now ts : Int} {body : Bytes} (hs : Stamped now q.bare ts body) :
    ts = q.ts ∧ body = q.line.text := by
  cases hs with
  | own ts off hts =>
    obtain ⟨h1, h2⟩ := hasTs_unique hts (bare_hasTs h)
    refine ⟨h1, ?_⟩
    rw [h2]
    unfold Point.bare
    have : ((q.line.text.length : Int) + 1 - 1).toNat = q.line.text.length := by omega
    rw [this, List.take_left]
  | none hn => exact absurd (bare_hasTs h) (hn _ _)

/-- The lines of the operations, without the empty ones. -/
def opLines (ops : List AOp) : List Bytes :=
  ops.flatMap fun o => match o with | .line _ l => if l = [] then [] else [l] | .tick _ _ => []

theorem opLines_append (a b : List AOp) : opLines (a ++ b) = opLines a ++ opLines b := List.flatMap_append

/-- In a history without errors, the lines handed to the windows are the lines received. -/
theorem legal_points {fo : FloatOps} {p now0 e : Int} {got : List Got} {em : List Emission} {h : List (AOp × AOut)}
    (hl : Legal fo p now0 e got em h) :
    errsOf h = [] → ∀ pts : List Point, (∀ q ∈ pts, q.WF) → opLines (h.map (·.1)) = pts.map Point.bare →
      got = pts.map fun q => ⟨q.ts, q.line.text, []⟩ := by
  induction hl with
  | start => intro _ pts _ h; rw [List.map_eq_nil_iff.1 h.symm]; rfl
  | empty _ ih =>
    intro he pts hw h
    rw [errsOf_append] at he
    rw [List.map_append, opLines_append] at h
    exact ih (List.append_eq_nil_iff.1 he).1 pts hw (by rw [← h]; simp [opLines])
  | old _ _ _ _ ih =>
    intro he
    rw [errsOf_append] at he
    have := (List.append_eq_nil_iff.1 he).2
    cases this
  | new _ _ _ _ ih =>
    intro he
    rw [errsOf_append] at he
    have := (List.append_eq_nil_iff.1 he).2
    cases this
  | @accept e got em h l now ts body errs _ hne hs _ _ _ ih =>
    intro he pts hw h
    rw [errsOf_append] at he
    have he2 : errs = [] := by
      have := (List.append_eq_nil_iff.1 he).2
      simpa [errsOf] using this
    rw [List.map_append, opLines_append] at h
    have h2 : opLines ([(AOp.line now l, AOut.errs errs)].map (·.1)) = [l] := by simp [opLines, hne]
    rw [h2] at h
    obtain ⟨x, y, rfl, h3, h4⟩ := append_eq_map h
    cases y with
    | nil => cases h4
    | cons q y =>
      cases y with
      | cons _ _ => cases h4
      | nil =>
        rw [List.map_cons, List.map_nil] at h4
        injection h4 with h4 _
        subst h4
        obtain ⟨rfl, rfl⟩ := bare_stamped (hw q (by simp)) hs
        rw [ih (List.append_eq_nil_iff.1 he).1 x (fun q hq => hw q (by simp [hq])) h3, he2]
        simp
  | early _ _ ih =>
    intro he pts hw h
    rw [errsOf_append] at he
    rw [List.map_append, opLines_append] at h
    exact ih (List.append_eq_nil_iff.1 he).1 pts hw (by rw [← h]; simp [opLines])
  | emit _ _ _ ih =>
    intro he pts hw h
    rw [errsOf_append] at he
    rw [List.map_append, opLines_append] at h
    exact ih (List.append_eq_nil_iff.1 he).1 pts hw (by rw [← h]; simp [opLines])

theorem opLines_msg (clk : Nat → Int) (ls : List Bytes) (i : Nat) :
    opLines ((ls.zipIdx i).map fun x => AOp.line (clk x.2) x.1) = ls.filter (fun l => decide (l ≠ [])) := by
  induction ls generalizing i with
  | nil => rfl
  | cons l ls ih =>
    have := ih (i + 1)
    unfold opLines at this ⊢
    rw [List.zipIdx_cons, List.map_cons, List.flatMap_cons, this]
    by_cases h : l = [] <;> simp [h]

theorem opLines_evs (evs : List DEvent) :
    opLines (evs.flatMap evOps) = (messagesIn evs).flatMap fun m => (splitNL m).filter (fun l => decide (l ≠ [])) := by
  induction evs with
  | nil => rfl
  | cons e evs ih =>
    rw [List.flatMap_cons, opLines_append, ih]
    unfold messagesIn evOps
    rw [List.flatMap_cons, List.flatMap_append, opLines_append]
    cases e.input with
    | timeout => simp [opLines]
    | msg d clk => rw [opLines_msg]; simp [opLines]

theorem split_points : ∀ (pts : List Point), (∀ q ∈ pts, q.WF) →
    (splitNL (pts.map Point.text).flatten).filter (fun l => decide (l ≠ [])) = pts.map Point.bare
  | [], _ => rfl
  | q :: pts, h => by
    have ih := split_points pts fun q hq => h q (List.mem_cons_of_mem _ hq)
    rw [List.map_cons, List.flatten_cons, show q.text = q.bare ++ [NL] from rfl, List.append_assoc, List.singleton_append,
      Prom.splitNL_line _ _ (bare_noNL (h q (by simp))), List.filter_cons_of_pos (by unfold Point.bare; simp), ih, List.map_cons]

theorem window_points (p w : Int) (pts : List Point) :
    window p w (pts.map fun q => ⟨q.ts, q.line.text, []⟩) = ((inWindow p w pts).map SLine.text).zip ((inWindow p w pts).map fun _ => []) := by
  induction pts with
  | nil => rfl
  | cons q pts ih =>
    unfold window inWindow at ih ⊢
    by_cases h : w - p ≤ q.ts ∧ q.ts < w
    · rw [List.map_cons, List.filter_cons_of_pos (by simpa using h), List.filter_cons_of_pos (by simpa using h)]
      simp only [List.map_cons, List.zip_cons_cons]
      rw [ih]
    · rw [List.map_cons, List.filter_cons_of_neg (by simpa using h), List.filter_cons_of_neg (by simpa using h)]
      exact ih

theorem kept_points (p w : Int) (pts : List Point) (h : ∀ q ∈ pts, q.WF) :
    keptFrom [] (window p w (pts.map fun q => ⟨q.ts, q.line.text, []⟩)) = inWindow p w pts := by
  rw [window_points]
  refine C33_all_kept (inWindow p w pts) ?_ _ (by simp) ?_
  · intro l hl
    unfold inWindow at hl
    obtain ⟨q, hq, rfl⟩ := List.mem_map.1 hl
    exact (h q (List.mem_filter.1 hq).1).1
  · intro e he
    obtain ⟨_, _, rfl⟩ := List.mem_map.1 he
    rfl

/-- The texts in the messages published by the filter for `sub`, once everything has passed the filter. -/
theorem passed_texts (p : System S delta rules junk subs wc) (sub : Bytes) (hn : p.NoFailure) (ht : p.Timely) (hq : p.Passed) :
    ∃ D : List (List Bytes), (p.filters.flatMap fun w => Delivery.published sub w.pubss.flatten) = D.map List.flatten ∧
      D.flatten.Perm ((p.listeners.flatMap (·.sent)).filterMap (textTo S rules junk sub)) := by
  obtain ⟨D, d1, d2⟩ := filters_messages [sub] p.filters
  have e1 : (p.filters.flatMap fun w => Delivery.published sub w.pubss.flatten) =
      p.filters.flatMap fun w => [sub].flatMap fun sub => onSubject sub w.pubss.flatten := by
    apply flatMap_congr'
    intro w hw
    rw [published_all sub _ (hn.2 w hw)]
    simp
  refine ⟨D, by rw [e1, d1], ?_⟩
  have h3 := filter_side p [sub] hn.1
  have hw : p.filters.flatMap (·.working) = [] := by
    rw [List.flatMap_eq_nil_iff]; exact hq.working
  have hh : (p.listeners.flatMap fun s => textsOf S rules junk [sub] s.held ++ s.unread.flatMap (textsTo S rules junk [sub])) = [] := by
    rw [List.flatMap_eq_nil_iff]
    intro s hs
    rw [(hq.held s hs).1, (hq.held s hs).2]; unfold textsOf; rw [linesOf_nil]; rfl
  rw [hw, hq.fqueues, hq.toFilter, hh, textsTo_single] at h3
  simp only [List.append_nil, List.flatMap_nil] at h3
  refine List.Perm.trans ?_ h3
  rw [d2]
  apply perm_flatMap
  intro w hw
  refine (flatMap_swap [sub] w.ms _).trans ?_
  apply perm_flatMap
  intro m hm
  obtain ⟨t1, t2, t3⟩ := ht.2 w hw m hm
  exact message_texts S rules junk [sub] delta m ht.1 t1 t2 t3

theorem holds_none {fo : FloatOps} {b : Bucket fo} {ls : List SLine} (h : Holds b ls) (hb : b.lines = []) : ls = [] := by
  cases ls with
  | nil => rfl
  | cons l ls =>
    have := (h.keys l.key).2 (by simp)
    rw [hb] at this
    cases this

theorem inWindow_none {p w : Int} {pts : List Point} (h : inWindow p w pts = []) : ∀ q ∈ pts, ¬ (w - p ≤ q.ts ∧ q.ts < w) := by
  intro q hq hw
  unfold inWindow at h
  have := List.map_eq_nil_iff.1 h
  have := List.filter_eq_nil_iff.1 this q hq
  simp [hw] at this

/-- A time in consecutive windows is in one of them. -/
theorem window_index {p t E0 : Int} {n : Nat} (h1 : E0 - p ≤ t) (h2 : t < E0 + n * p - p) : ∃ i : Nat, i < n ∧ E0 + i * p - p ≤ t ∧ t < E0 + i * p := by
  induction n with
  | zero => simp at h2; omega
  | succ n ih =>
    by_cases h : t < E0 + n * p - p
    · obtain ⟨i, i1, i2⟩ := ih h
      exact ⟨i, by omega, i2⟩
    · refine ⟨n, by omega, by omega, ?_⟩
      rw [Int.natCast_add, Int.add_mul] at h2
      simp at h2
      omega

/-- **C90 (the archive).** Take a system with its downsampler and archive writer after any schedule, in which no
publish to or from the filter has failed, the lines were timely, everything sent to the listeners has passed the filter and reached the
downsampler, the downsampler's counters show no invalid line or timestamp, and the texts for `sub` are well-formed measurements `pts`.  Then,
for some order `order` of these measurements, the downsampler has emitted the aggregations of consecutive windows of the
period: the i-th is that of the measurements with a time in the window ending at `E0 + i * period`, and every measurement is in an emitted window or in
one of the three pending ones - so if these hold nothing, in an emitted one; and these emissions, in some division into messages, are what was published: each message is with one
worker of the archive writer, at most once (sent or in its batch; only the lines that match its rules, if it has rules: `pieces`), or under way, or its publish failed. -/
theorem C90_archive {p : System S delta rules junk subs wc} {fo : FloatOps} {period now0 : Int} {awc : WConf}
    (a : Archive p sub fo period now0 awc) (hper : 0 < period) (hn : p.NoFailure) (ht : p.Timely) (hq : p.Passed)
    (hd : a.toDown = [] ∧ a.dqueue.jobs = [] ∧ a.dqueue.todo.flatten = [])
    (hv : a.w.stats.invalidTimestamps = 0 ∧ a.w.stats.invalidLines = 0)
    (pts : List Point) (hp : (p.listeners.flatMap (·.sent)).filterMap (textTo S rules junk sub) = pts.map Point.text)
    (hw : ∀ q ∈ pts, q.WF) :
    ∃ (order : List Point) (E0 : Int) (em : List Emission),
      order.Perm pts ∧ Aligned period E0 ∧ E0 ≤ now0 ∧ now0 < E0 + period ∧
      (∀ (i : Nat) (m : Emission), em[i]? = some m → m.wend = E0 + i * period ∧ m.wend + period ≤ m.now ∧
        ∃ rows, Aggregates fo (inWindow period m.wend order) rows ∧ m.text = rows.flatMap (Row.text (wrap64 m.wend))) ∧
      (∀ q ∈ pts, E0 - period ≤ q.ts ∧ q.ts < E0 + em.length * period + 2 * period) ∧
      (a.w.a.prev.lines = [] → a.w.a.curr.lines = [] → a.w.a.next.lines = [] → ∀ q ∈ pts, ∃ m ∈ em, m.wend - period ≤ q.ts ∧ q.ts < m.wend) ∧
      (a.w.pubs.map (·.data)).flatten = (em.map (·.text)).flatten ∧
      ∃ gotBy : List (List Bytes), (gotBy.map fun g => (g.flatMap fun m => pieces awc.rules m).flatten) = a.writers.map (fun s => firstData s.hist ++ unsentBytes s) ∧
        (gotBy.flatten ++ (inQueues a.wqueues ++ a.toWriter) ++
          (a.w.pubs.filter fun q => q.failed).map (·.data)).Perm (a.w.pubs.map (·.data)) := by
  obtain ⟨w, e, got, em, outs, r1, rel, r2, r3, r4, -, r6, r7, -, -⟩ := dstream fo S period now0 hper a.evs
  rw [a.ran] at r1
  injection r1 with r1
  subst r1
  -- the messages received by the downsampler
  obtain ⟨D, d1, d2⟩ := passed_texts p sub hn ht hq
  have m1 : (messagesIn a.evs).Perm (D.map List.flatten) := by
    have g1 := C86_each_message_once a.dReach
    have g2 := a.dArrived
    rw [hd.1, List.append_nil, d1] at g2
    have g3 := g1.symm.trans g2
    rw [a.dGot, hd.2.1, hd.2.2] at g3
    simpa using g3
  obtain ⟨D', f1, f2⟩ := perm_map_lift List.flatten m1 D rfl
  have f3 : D'.flatten.Perm (pts.map Point.text) := hp ▸ f1.flatten.trans d2
  obtain ⟨order, o1, o2⟩ := perm_map_lift Point.text f3 pts rfl
  have how : ∀ q ∈ order, q.WF := fun q hq => hw q (o1.mem_iff.1 hq)
  obtain ⟨xs, x1, x2⟩ := flatten_eq_map _ _ o2
  have hlines : opLines (a.evs.flatMap evOps) = order.map Point.bare := by
    rw [opLines_evs, f2, x2, List.flatMap_map, List.flatMap_map, ← x1, List.map_flatten, ← List.flatMap_def]
    apply flatMap_congr'
    intro ps hps
    exact split_points ps fun q hq => how q (by rw [← x1]; exact List.mem_flatten.2 ⟨ps, hps, hq⟩)
  have hops : ((a.evs.flatMap evOps).zip outs).map (·.1) = a.evs.flatMap evOps :=
    List.map_fst_zip (by omega)
  have herr : errsOf ((a.evs.flatMap evOps).zip outs) = [] := by
    cases hc : errsOf ((a.evs.flatMap evOps).zip outs) with
    | nil => rfl
    | cons x l =>
      rw [hv.1, hc] at r6
      rw [hv.2, hc] at r7
      have r6 := List.countP_eq_zero.1 r6.symm x (by simp)
      have r7 := List.countP_eq_zero.1 r7.symm x (by simp)
      simp at r6 r7
      exact absurd (r7 r6.1) r6.2
  have hgot := legal_points r3 herr order how (by rw [hops, hlines])
  obtain ⟨E0, f⟩ := legal_facts hper r3
  refine ⟨order, E0, em, o1, f.aligned, f.startLo, f.startHi, ?_, ?_, ?_, r4, a.writers.map (fun s => received s.hist), ?_, ?_⟩
  · intro i m hi
    obtain ⟨k1, k2, rows, k3, k4⟩ := f.ends i m hi
    refine ⟨k1, k2, rows, ?_, k4⟩
    rw [hgot, kept_points _ _ _ how] at k3
    exact k3
  · intro q hq
    have := f.got_range ⟨q.ts, q.line.text, []⟩ (by rw [hgot]; exact List.mem_map.2 ⟨q, o1.mem_iff.2 hq, rfl⟩)
    rw [← f.e_eq]
    exact this
  · intro n1 n2 n3 q hq
    have hqo := o1.mem_iff.2 hq
    obtain ⟨b1, b2⟩ := f.got_range ⟨q.ts, q.line.text, []⟩ (by rw [hgot]; exact List.mem_map.2 ⟨q, hqo, rfl⟩)
    dsimp only at b1 b2
    have v1 := holds_none rel.prevH n1
    have v2 := holds_none rel.currH n2
    have v3 := holds_none rel.nextH n3
    rw [hgot, kept_points _ _ _ how] at v1 v2 v3
    have v1 := inWindow_none v1 q hqo
    have v2 := inWindow_none v2 q hqo
    have v3 := inWindow_none v3 q hqo
    have hlt : q.ts < e - period := by omega
    obtain ⟨i, i1, i2⟩ := window_index (n := em.length) b1 (by rw [f.e_eq] at hlt; omega)
    obtain ⟨m, hm⟩ : ∃ m, em[i]? = some m := ⟨em[i]'i1, List.getElem?_eq_getElem i1⟩
    refine ⟨m, List.mem_of_getElem? hm, ?_⟩
    rw [(f.ends i m hm).1]
    exact i2
  · rw [List.map_map]
    apply List.map_congr_left
    intro s hs
    exact (C34_every_matching_line_once awc s (a.written s hs)).symm
  · have g1 := queues_each_once a.wqueues a.wReach
    rw [a.wGot] at g1
    have g2 := (g1.symm.append_right a.toWriter).trans a.wArrived
    have g3 := g2.append_right ((a.w.pubs.filter fun q => q.failed).map LPub.data)
    rw [← List.map_append] at g3
    have g4 : ((a.w.pubs.filter fun q => !q.failed) ++ a.w.pubs.filter fun q => q.failed).Perm a.w.pubs :=
      List.perm_append_comm.trans (List.filter_append_perm _ _)
    have := g3.trans (g4.map LPub.data)
    simpa [List.append_assoc] using this

/-! ## A concrete archive -/

def arRules : List Rule := [createBasicRule b!"m" b!"m-subject"]

def arUDP : List UDPEvent :=
  [⟨b!"m f=1i 5\nm f=10i 16\n", false, 1, 2, 3, fun _ => false⟩, ⟨b!"m f=4i 6", false, 4, 5, 6, fun _ => false⟩]

def arL : Listener := ⟨⟨1, 1000, 1048576⟩, ⟨[], 1048576, 0, 6⟩, ⟨2, 2, 0, 0⟩,
    [⟨b!"m f=1i 5\nm f=10i 16\n", false⟩, ⟨b!"m f=4i 6\n", false⟩]⟩

def arMs : List FMsg := [⟨15, fun _ => false, b!"m f=1i 5\nm f=10i 16\n"⟩, ⟨16, fun _ => false, b!"m f=4i 6\n"⟩]

def arPubss : List (List Pub) := [[⟨b!"m-subject", b!"m f=1i 5\nm f=10i 16\n", false⟩], [⟨b!"m-subject", b!"m f=4i 6\n", false⟩]]

theorem arRan : ∃ w st, filterRun insertionSorter (FWorker.new 1000 arRules b!"junk") (FStats.init arRules.length) arMs = .ok (w, st, arPubss) := by
  have h : (match filterRun insertionSorter (FWorker.new 1000 arRules b!"junk") (FStats.init arRules.length) arMs with
      | .ok (_, _, x) => some x | .panic => none) = some arPubss := by decide +kernel
  cases hc : filterRun insertionSorter (FWorker.new 1000 arRules b!"junk") (FStats.init arRules.length) arMs with
  | panic => rw [hc] at h; cases h
  | ok x =>
    obtain ⟨w, st, y⟩ := x
    rw [hc] at h
    injection h with h
    subst h
    exact ⟨w, st, rfl⟩

def arF : FRun insertionSorter 1000 arRules b!"junk" := ⟨arMs, arPubss, [], arRan⟩

/-- The downsampler receives the messages in the other order. -/
def arEvs : List DEvent :=
  [⟨.msg b!"m f=4i 6\n" (fun _ => 15), 15, idOrder, fun _ => false⟩,
   ⟨.msg b!"m f=1i 5\nm f=10i 16\n" (fun _ => 16), 16, idOrder, fun _ => false⟩, ⟨.timeout, 20, idOrder, fun _ => false⟩]

def arPts : List Point := [⟨⟨b!"m", [(b!"f", ⟨false, b!"1i"⟩)]⟩, 5⟩, ⟨⟨b!"m", [(b!"f", ⟨false, b!"10i"⟩)]⟩, 16⟩,
  ⟨⟨b!"m", [(b!"f", ⟨false, b!"4i"⟩)]⟩, 6⟩]

theorem arPts_WF : ∀ q ∈ arPts, q.WF := by
  have h := wfSamples_ints [b!"1i", b!"10i", b!"4i"] (by decide)
  intro q hq
  unfold arPts at hq
  simp only [List.mem_cons, List.not_mem_nil, or_false] at hq
  rcases hq with rfl | rfl | rfl
  · exact ⟨h ⟨false, b!"1i"⟩ (by decide), by decide +kernel, by decide, by decide⟩
  · exact ⟨h ⟨false, b!"10i"⟩ (by decide), by decide +kernel, by decide, by decide⟩
  · exact ⟨h ⟨false, b!"4i"⟩ (by decide), by decide +kernel, by decide, by decide⟩

/-- One subscription, one worker, two messages. -/
theorem arPool (a b : Bytes) : Run (start 1 1) ⟨[[a, b]], [[]], [], [[a, b]], [true], false⟩ := by
  have r0 : Run (start 1 1) ⟨[[]], [[]], [], [[]], [true], false⟩ := .refl
  have r1 := Run.step r0 (.arrive _ 0 [] [] a rfl rfl)
  have r2 := Run.step r1 (.arrive _ 0 [a] [a] b rfl rfl)
  have r3 := Run.step r2 (.push _ 0 a [b] rfl (by simp [capacity]))
  have r4 := Run.step r3 (.pop _ 0 a [] [] rfl rfl rfl)
  have r5 := Run.step r4 (.push _ 0 b [] rfl (by simp [capacity]))
  exact Run.step r5 (.pop _ 0 b [] [a] rfl rfl rfl)

theorem arPool1 (a : Bytes) : Run (start 1 1) ⟨[[a]], [[]], [], [[a]], [true], false⟩ := by
  have r0 : Run (start 1 1) ⟨[[]], [[]], [], [[]], [true], false⟩ := .refl
  have r1 := Run.step r0 (.arrive _ 0 [] [] a rfl rfl)
  have r3 := Run.step r1 (.push _ 0 a [] rfl (by simp [capacity]))
  exact Run.step r3 (.pop _ 0 a [] [] rfl rfl rfl)

theorem arDown : ∃ w : DWorker wholeFloats, DWorker.run insertionSorter (DWorker.new wholeFloats 10 15) arEvs = .ok w ∧
    w.pubs = [⟨b!"m f=3i 10\n", false⟩] ∧ w.stats.invalidTimestamps = 0 ∧ w.stats.invalidLines = 0 := by
  have h : (match DWorker.run insertionSorter (DWorker.new wholeFloats 10 15) arEvs with
      | .ok w => some (w.pubs, w.stats.invalidTimestamps, w.stats.invalidLines) | .panic => none) =
      some ([⟨b!"m f=3i 10\n", false⟩], 0, 0) := by decide +kernel
  cases hc : DWorker.run insertionSorter (DWorker.new wholeFloats 10 15) arEvs with
  | panic => rw [hc] at h; cases h
  | ok w =>
    rw [hc] at h
    simp only [Option.some.injEq, Prod.mk.injEq] at h
    exact ⟨w, rfl, h.1, h.2.1, h.2.2⟩

theorem arTexts : ([(⟨sentLines arUDP, arL.pubs, arL.batch.bytes, []⟩ : Source)].flatMap (·.sent)).filterMap
    (textTo insertionSorter arRules b!"junk" b!"m-subject") = arPts.map Point.text := by decide +kernel

/-- Three measurements of series `m`, two of them in the window that ends at time 10; the archive has their
average. -/
example : ∃ (p : System insertionSorter 1000 arRules b!"junk" [b!"m-subject"] exWConf) (a : Archive p b!"m-subject" wholeFloats 10 15 exWConf),
    p.NoFailure ∧ p.Timely ∧ p.Passed ∧ (a.toDown = [] ∧ a.dqueue.jobs = [] ∧ a.dqueue.todo.flatten = []) ∧
    (a.w.stats.invalidTimestamps = 0 ∧ a.w.stats.invalidLines = 0) ∧
    (p.listeners.flatMap (·.sent)).filterMap (textTo insertionSorter arRules b!"junk" b!"m-subject") = arPts.map Point.text ∧
    a.writers.map (fun s => firstData s.hist) = [b!"m f=3i 10\n"] := by
  obtain ⟨s, hs, hx⟩ := wRun_hist (fun s => (received s.hist, firstData s.hist))
    ([b!"m f=3i 10\n"], b!"m f=3i 10\n") (c := exWConf) 100000 0
    [.recv b!"m f=3i 10\n", .check, .first (.status 204)] (by decide +kernel)
  simp only [Prod.mk.injEq] at hx
  obtain ⟨w, w1, w2, w3, w4⟩ := arDown
  have hl : udpRun (Listener.new ⟨1, 1000, 1048576⟩ 0) arUDP = .ok arL := by decide +kernel
  have L : ListenerRun ⟨sentLines arUDP, arL.pubs, arL.batch.bytes, []⟩ := .udp _ _ arUDP arL (by decide) (by decide) hl
  refine ⟨{
    listeners := [⟨sentLines arUDP, arL.pubs, arL.batch.bytes, []⟩]
    toFilter := []
    fqueues := [⟨[[b!"m f=1i 5\nm f=10i 16\n", b!"m f=4i 6\n"]], [[]], [], [[b!"m f=1i 5\nm f=10i 16\n", b!"m f=4i 6\n"]], [true], false⟩]
    filters := [arF]
    toWriter := [b!"m f=1i 5\nm f=10i 16\n", b!"m f=4i 6\n"]
    wqueues := [⟨[[]], [[]], [], [], [], false⟩]
    writers := []
    listened := ?_
    fReach := fun q hq => by rw [List.mem_singleton.1 hq]; exact ⟨1, 1, arPool _ _⟩
    fArrived := List.Perm.refl _
    fGot := rfl
    wReach := fun q hq => by rw [List.mem_singleton.1 hq]; exact ⟨1, 0, .refl⟩
    wArrived := List.Perm.refl _
    wGot := rfl
    written := ?_ },
    { toDown := []
      dqueue := ⟨[[b!"m f=4i 6\n", b!"m f=1i 5\nm f=10i 16\n"]], [[]], [], [[b!"m f=4i 6\n", b!"m f=1i 5\nm f=10i 16\n"]], [true], false⟩
      evs := arEvs
      w := w
      toWriter := []
      wqueues := [⟨[[b!"m f=3i 10\n"]], [[]], [], [[b!"m f=3i 10\n"]], [true], false⟩]
      writers := [s]
      dReach := arPool _ _
      dArrived := .swap _ _ _
      dGot := rfl
      ran := w1
      wReach := fun q hq => by rw [List.mem_singleton.1 hq]; exact ⟨1, 1, arPool1 _⟩
      wArrived := ?_
      wGot := ?_
      written := ?_ }, ?_, ?_, ?_, ⟨rfl, rfl, rfl⟩, ⟨w3, w4⟩, arTexts, ?_⟩
  · intro s hs
    rw [List.mem_singleton] at hs
    subst hs
    exact L
  · intro s hs; cases hs
  · rw [w2]; exact List.Perm.refl _
  · simp [hx.1]
  · intro s' hs'
    rw [List.mem_singleton] at hs'
    subst hs'
    exact hs
  · constructor
    · intro s hs
      rw [List.mem_singleton] at hs
      subst hs
      exact show ∀ q ∈ arL.pubs, q.failed = false by decide
    · intro w hw
      rw [List.mem_singleton] at hw
      subst hw
      exact show ∀ q ∈ arPubss.flatten, q.failed = false by decide
  · refine ⟨by decide, ?_⟩
    intro w hw
    rw [List.mem_singleton] at hw
    subst hw
    intro m hm
    have hm : m ∈ arMs := hm
    unfold arMs at hm
    simp only [List.mem_cons, List.not_mem_nil, or_false] at hm
    have key : ∀ line now, (∃ q, q ∈ arPts ∧ line = q.text ∧ now - 1000 < q.ts ∧ q.ts < now + 1000) → Delivery.Timely now 1000 line := by
      rintro line now ⟨q, hq, rfl, h1, h2⟩
      refine Or.inl ⟨q.ts, _, text_hasTs (arPts_WF q hq), h1, h2⟩
    rcases hm with rfl | rfl
    · refine ⟨by decide, by decide, fun line hline => key _ _ ?_⟩
      have : linesOf b!"m f=1i 5\nm f=10i 16\n" = [Point.text ⟨⟨b!"m", [(b!"f", ⟨false, b!"1i"⟩)]⟩, 5⟩, Point.text ⟨⟨b!"m", [(b!"f", ⟨false, b!"10i"⟩)]⟩, 16⟩] := by decide +kernel
      have hline : line ∈ linesOf b!"m f=1i 5\nm f=10i 16\n" := hline
      rw [this] at hline
      simp only [List.mem_cons, List.not_mem_nil, or_false] at hline
      rcases hline with rfl | rfl
      · exact ⟨_, .head _, rfl, by decide, by decide⟩
      · exact ⟨_, .tail _ (.head _), rfl, by decide, by decide⟩
    · refine ⟨by decide, by decide, fun line hline => key _ _ ?_⟩
      have : linesOf b!"m f=4i 6\n" = [Point.text ⟨⟨b!"m", [(b!"f", ⟨false, b!"4i"⟩)]⟩, 6⟩] := by decide +kernel
      have hline : line ∈ linesOf b!"m f=4i 6\n" := hline
      rw [this] at hline
      simp only [List.mem_cons, List.not_mem_nil, or_false] at hline
      subst hline
      exact ⟨_, .tail _ (.tail _ (.head _)), rfl, by decide, by decide⟩
  · refine ⟨rfl, rfl, ?_, ?_⟩
    · intro w hw
      rw [List.mem_singleton] at hw
      subst hw
      rfl
    · intro s hs
      rw [List.mem_singleton] at hs
      subst hs
      exact ⟨rfl, rfl⟩
  · simp [hx.2]

end Spout.Delivery
