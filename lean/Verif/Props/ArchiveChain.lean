import Verif.Props.Archive

/-! # C117: archives of archives

What a downsampler publishes is again lines with timestamps, which another downsampler can archive over longer windows. -/

set_option linter.unusedSimpArgs false

namespace Spout.Delivery
open Spout Spout.Listener Spout.Spec Spout.Pool

/-! ## Specification -/

/-- The aggregated value of a field (see `aggText`), as a sample. -/
def aggSample (fo : FloatOps) : List Sample → Sample
  | [] => ⟨false, []⟩
  | s :: ss =>
    let last := ((s :: ss).getLast (by simp)).content
    if s.quoted then ⟨true, last⟩
    else match intLit s.content with
      | some v => ⟨false, itoa (runningMean v 1 (ss.filterMap fun x => intLit x.content)) ++ b!"i"⟩
      | none => match fo.parse s.content with
        | some v => ⟨false, fo.print (runningMeanF fo v 1 (ss.filterMap fun x => fo.parse x.content))⟩
        | none => ⟨false, last⟩

/-- `out` summarises the lines `ls`: a line per series, with its fields in ascending order, each with the aggregated value. -/
def Summary (fo : FloatOps) (ls out : List SLine) : Prop :=
  (out.map (·.key)).Nodup ∧ (∀ k, k ∈ out.map (·.key) ↔ k ∈ ls.map (·.key)) ∧
  ∀ r ∈ out, (r.fields.map (·.1)).Pairwise (fun a b => bytesLt a b = true) ∧
    ∀ n v, (n, v) ∈ r.fields ↔ samplesOf r.key n ls ≠ [] ∧ v = aggSample fo (samplesOf r.key n ls)

/-- `sums` are the summaries of the measurements in consecutive windows of the period, the first of which ends at `E`, and every measurement is in one of them. -/
structure Summarised (fo : FloatOps) (period now0 : Int) (order : List Point) (E : Int) (sums : List (List SLine)) : Prop where
  aligned : Aligned period E
  start : E ≤ now0 ∧ now0 < E + period
  windows : ∀ (i : Nat) (ls : List SLine), sums[i]? = some ls → Summary fo (inWindow period (E + i * period) order) ls
  all : ∀ p ∈ order, ∃ i : Nat, i < sums.length ∧ E + i * period - period ≤ p.ts ∧ p.ts < E + i * period

/-- The summaries as measurements: each has the time of the end of its window. -/
def summaryPoints (E period : Int) (sums : List (List SLine)) : List Point :=
  sums.zipIdx.flatMap fun x => x.1.map fun l => ⟨l, E + x.2 * period⟩

/-- `out` is what a chain of downsamplers, with these periods and starting times, makes of the measurements `pts`: each summarises, in some order, what the one before it has made. -/
inductive Archives (fo : FloatOps) : List (Int × Int) → List Point → List Point → Prop
  | none (pts : List Point) : Archives fo [] pts pts
  | level (period now0 : Int) (rest : List (Int × Int)) (pts order out : List Point) (E : Int) (sums : List (List SLine)) (hp : order.Perm pts)
      (hs : Summarised fo period now0 order E sums) (hr : Archives fo rest (summaryPoints E period sums) out) : Archives fo ((period, now0) :: rest) pts out

/-- Each field of a series is always a string or never. -/
def SameKinds (pts : List Point) : Prop :=
  ∀ p ∈ pts, ∀ q ∈ pts, p.line.key = q.line.key → ∀ f ∈ p.line.fields, ∀ g ∈ q.line.fields, f.1 = g.1 → f.2.quoted = g.2.quoted

/-- Floats are printed without commas, backslashes, newlines and quotes. -/
def PlainFloats (fo : FloatOps) : Prop :=
  ∀ x, fo.print x ≠ [] ∧ COMMA ∉ fo.print x ∧ BS ∉ fo.print x ∧ NL ∉ fo.print x ∧ (fo.print x).head? ≠ some DQ

/-! ## Proofs -/

theorem aggSample_text (fo : FloatOps) (ss : List Sample) : (aggSample fo ss).text = aggText fo ss := by
  cases ss with
  | nil => rfl
  | cons s ss =>
    unfold aggSample aggText Sample.text
    dsimp only
    by_cases h : s.quoted = true
    · simp [h]
    · simp only [h, if_false]
      cases intLit s.content with
      | some v => rfl
      | none => cases fo.parse s.content <;> rfl

theorem aggSample_quoted (fo : FloatOps) {ss : List Sample} {b : Bool} (hne : ss ≠ []) (h : ∀ s ∈ ss, s.quoted = b) : (aggSample fo ss).quoted = b := by
  cases ss with
  | nil => exact absurd rfl hne
  | cons s ss =>
    have hs := h s List.mem_cons_self
    unfold aggSample
    dsimp only
    cases b with
    | true => rw [if_pos hs]
    | false =>
      rw [if_neg (by rw [hs]; simp)]
      cases intLit s.content with
      | some v => rfl
      | none => cases fo.parse s.content <;> rfl

theorem itoa_no' (n : Int) (c : Byte) (h1 : ¬ IsDigit c) (h2 : c ≠ MINUS) : c ∉ itoa n := by
  obtain ⟨ds, -, h, h3⟩ := itoa_decimal n
  have hd : c ∉ ds := fun hm => h1 (h _ hm)
  rcases h3 with ⟨h3, -⟩ | ⟨h3, -⟩
  · rw [h3]; exact hd
  · rw [h3]; simp only [List.mem_cons, not_or]; exact ⟨h2, hd⟩

theorem itoa_i_no (n : Int) (c : Byte) (h1 : ¬ IsDigit c) (h2 : c ≠ MINUS) (h3 : c ≠ 105) : c ∉ itoa n ++ b!"i" := by
  intro h
  rcases List.mem_append.1 h with h | h
  · exact itoa_no' n c h1 h2 h
  · exact h3 (List.mem_singleton.1 h)

theorem itoa_i_wf (n : Int) : (⟨false, itoa n ++ b!"i"⟩ : Sample).WF ∧ NL ∉ itoa n ++ b!"i" := by
  refine ⟨?_, itoa_i_no n _ (by decide) (by decide) (by decide)⟩
  unfold Sample.WF
  rw [if_neg (by simp)]
  refine ⟨by simp, itoa_i_no n _ (by decide) (by decide) (by decide), itoa_i_no n _ (by decide) (by decide) (by decide), ?_⟩
  intro h
  exact itoa_i_no n DQ (by decide) (by decide) (by decide) (List.mem_of_head? h)

theorem quote_noNL {s : Bytes} : NL ∉ quote s ↔ NL ∉ s := by
  unfold quote
  constructor
  · intro h hm
    refine h (List.mem_cons_of_mem _ (List.mem_append_left _ (List.mem_flatMap.2 ⟨NL, hm, ?_⟩)))
    rw [if_neg (by decide)]
    exact List.mem_singleton.2 rfl
  · intro h hm
    rcases List.mem_cons.1 hm with hm | hm
    · exact absurd hm (by decide)
    · rcases List.mem_append.1 hm with hm | hm
      · obtain ⟨b, hb, hm⟩ := List.mem_flatMap.1 hm
        split at hm
        · exact absurd hm (by decide)
        · exact h (by rw [List.mem_singleton.1 hm]; exact hb)
      · exact absurd hm (by decide)

theorem sample_noNL {s : Sample} : NL ∉ s.text ↔ NL ∉ s.content := by
  unfold Sample.text
  split
  · exact quote_noNL
  · exact Iff.rfl

/-- The aggregation of well-formed samples of one kind is well-formed. -/
theorem aggSample_wf {fo : FloatOps} (hpl : PlainFloats fo) {ss : List Sample} {b : Bool} (hne : ss ≠ []) (h : ∀ s ∈ ss, s.quoted = b) (hw : ∀ s ∈ ss, s.WF ∧ NL ∉ s.text) :
    (aggSample fo ss).WF ∧ NL ∉ (aggSample fo ss).text := by
  rw [sample_noNL]
  cases ss with
  | nil => exact absurd rfl hne
  | cons s ss =>
    have hs := h s List.mem_cons_self
    have hl := List.getLast_mem (l := s :: ss) (by simp)
    have hlast : (⟨b, ((s :: ss).getLast (by simp)).content⟩ : Sample) = (s :: ss).getLast (by simp) := by
      have := h _ hl
      rw [← this]
    have hlw := hw _ hl
    rw [← hlast, sample_noNL] at hlw
    unfold aggSample
    dsimp only
    cases b with
    | true =>
      rw [if_pos hs]
      exact hlw
    | false =>
      rw [if_neg (by rw [hs]; simp)]
      cases intLit s.content with
      | some v => exact itoa_i_wf _
      | none =>
        cases fo.parse s.content with
        | none => exact hlw
        | some v =>
          obtain ⟨h1, h2, h3, h4, h5⟩ := hpl (runningMeanF fo v 1 (ss.filterMap fun x => fo.parse x.content))
          refine ⟨?_, h4⟩
          unfold Sample.WF
          rw [if_neg (by simp)]
          exact ⟨h1, h2, h3, h5⟩

theorem mem_samplesOf {k n : Bytes} {ls : List SLine} {x : Sample} (h : x ∈ samplesOf k n ls) : ∃ l ∈ ls, l.key = k ∧ (n, x) ∈ l.fields := by
  unfold samplesOf at h
  obtain ⟨l, hl, h⟩ := List.mem_flatMap.1 h
  split at h
  · obtain ⟨f, hf, rfl⟩ := List.mem_map.1 h
    obtain ⟨hf, hn⟩ := List.mem_filter.1 hf
    refine ⟨l, hl, by assumption, ?_⟩
    have hn : f.1 = n := by simpa using hn
    rw [← hn]
    exact hf
  · cases h

theorem samplesOf_mem {k n : Bytes} {ls : List SLine} {l : SLine} {x : Sample} (hl : l ∈ ls) (hk : l.key = k) (hx : (n, x) ∈ l.fields) : x ∈ samplesOf k n ls := by
  unfold samplesOf
  refine List.mem_flatMap.2 ⟨l, hl, ?_⟩
  rw [if_pos hk]
  exact List.mem_map.2 ⟨(n, x), List.mem_filter.2 ⟨hx, by simp⟩, rfl⟩

theorem mem_fieldsText {c : Byte} (h1 : c ≠ EQ) (h2 : c ≠ COMMA) : ∀ fs : List (Bytes × Bytes), c ∈ fieldsText fs ↔ ∃ f ∈ fs, c ∈ f.1 ∨ c ∈ f.2
  | [] => by simp [fieldsText]
  | [f] => by simp [fieldsText, h1, h2]
  | f :: g :: fs => by
    have ih := mem_fieldsText h1 h2 (g :: fs)
    have e : fieldsText (f :: g :: fs) = f.1 ++ [EQ] ++ f.2 ++ [COMMA] ++ fieldsText (g :: fs) := by
      simp [fieldsText, List.intersperse]
    rw [e, List.mem_append, ih]
    simp [h1, h2]

theorem line_noNL {l : SLine} : NL ∉ l.text ↔ NL ∉ l.key ∧ ∀ f ∈ l.fields, NL ∉ f.1 ∧ NL ∉ f.2.text := by
  have h := mem_fieldsText (c := NL) (by decide) (by decide) (l.fields.map fun f => (f.1, f.2.text))
  unfold SLine.text
  rw [List.mem_append, List.mem_append, h]
  constructor
  · intro hn
    refine ⟨fun h => hn (Or.inl (Or.inl h)), fun f hf => ⟨fun h => ?_, fun h => ?_⟩⟩
    · exact hn (Or.inr ⟨_, List.mem_map_of_mem hf, Or.inl h⟩)
    · exact hn (Or.inr ⟨_, List.mem_map_of_mem hf, Or.inr h⟩)
  · rintro ⟨h1, h2⟩ ((hn | hn) | ⟨f, hf, hn⟩)
    · exact h1 hn
    · exact absurd hn (by decide)
    · obtain ⟨g, hg, rfl⟩ := List.mem_map.1 hf
      rcases hn with hn | hn
      · exact (h2 g hg).1 hn
      · exact (h2 g hg).2 hn

/-- The lines of the points are well-formed, and each field has one kind. -/
structure Uniform (ls : List SLine) : Prop where
  wf : ∀ l ∈ ls, l.WF ∧ NL ∉ l.text
  kinds : ∀ p ∈ ls, ∀ q ∈ ls, p.key = q.key → ∀ f ∈ p.fields, ∀ g ∈ q.fields, f.1 = g.1 → f.2.quoted = g.2.quoted

theorem Uniform.samples {ls : List SLine} (U : Uniform ls) {k n : Bytes} {s : Sample} (hs : s ∈ samplesOf k n ls) : ∀ x ∈ samplesOf k n ls, x.quoted = s.quoted := by
  intro x hx
  obtain ⟨l, hl, hk, hf⟩ := mem_samplesOf hx
  obtain ⟨l', hl', hk', hf'⟩ := mem_samplesOf hs
  exact U.kinds l hl l' hl' (hk.trans hk'.symm) _ hf _ hf' rfl

/-- Every field of a summary line is the aggregation of samples. -/
theorem summary_field {fo : FloatOps} {ls out : List SLine} (h : Summary fo ls out) {r : SLine} (hr : r ∈ out) {f : Bytes × Sample} (hf : f ∈ r.fields) :
    samplesOf r.key f.1 ls ≠ [] ∧ f.2 = aggSample fo (samplesOf r.key f.1 ls) := ((h.2.2 r hr).2 f.1 f.2).1 hf

theorem summary_wf {fo : FloatOps} (hpl : PlainFloats fo) {ls out : List SLine} (U : Uniform ls) (h : Summary fo ls out) : ∀ r ∈ out, r.WF ∧ NL ∉ r.text := by
  intro r hr
  obtain ⟨l, hl, hk⟩ := List.mem_map.1 ((h.2.1 r.key).1 (List.mem_map_of_mem hr))
  obtain ⟨⟨w1, w2, w3⟩, w4⟩ := U.wf l hl
  rw [line_noNL] at w4
  have hfield : ∀ f ∈ r.fields, ∃ l' ∈ ls, ∃ x, (f.1, x) ∈ l'.fields := by
    intro f hf
    obtain ⟨hne, -⟩ := summary_field h hr hf
    obtain ⟨x, hx⟩ := List.exists_mem_of_ne_nil _ hne
    obtain ⟨l', hl', -, hf'⟩ := mem_samplesOf hx
    exact ⟨l', hl', x, hf'⟩
  have hval : ∀ f ∈ r.fields, f.2.WF ∧ NL ∉ f.2.text := by
    intro f hf
    obtain ⟨hne, he⟩ := summary_field h hr hf
    obtain ⟨x, hx⟩ := List.exists_mem_of_ne_nil _ hne
    rw [he]
    refine aggSample_wf hpl hne (U.samples hx) ?_
    intro s hs
    obtain ⟨l', hl', -, hf'⟩ := mem_samplesOf hs
    obtain ⟨⟨-, -, g3⟩, g4⟩ := U.wf l' hl'
    exact ⟨(g3 _ hf').2, ((line_noNL.1 g4).2 _ hf').2⟩
  refine ⟨⟨by rw [← hk]; exact w1, ?_, ?_⟩, line_noNL.2 ⟨by rw [← hk]; exact w4.1, ?_⟩⟩
  · obtain ⟨f, hf⟩ := List.exists_mem_of_ne_nil _ w2
    have hs : samplesOf r.key f.1 ls ≠ [] := List.ne_nil_of_mem (samplesOf_mem hl hk (x := f.2) hf)
    exact List.ne_nil_of_mem (((h.2.2 r hr).2 f.1 _).2 ⟨hs, rfl⟩)
  · intro f hf
    obtain ⟨l', hl', x, hf'⟩ := hfield f hf
    exact ⟨((U.wf l' hl').1.2.2 _ hf').1, (hval f hf).1⟩
  · intro f hf
    obtain ⟨l', hl', x, hf'⟩ := hfield f hf
    exact ⟨((line_noNL.1 (U.wf l' hl').2).2 _ hf').1, (hval f hf).2⟩

/-- The line of a row. -/
def rowLine (fo : FloatOps) (ls : List SLine) (r : Row) : SLine := ⟨r.key, r.fields.map fun f => (f.1, aggSample fo (samplesOf r.key f.1 ls))⟩

theorem rows_summary {fo : FloatOps} {ls : List SLine} {rows : List Row} (h : Aggregates fo ls rows) : Summary fo ls (rows.map (rowLine fo ls)) := by
  obtain ⟨h1, h2, h3⟩ := h
  have e : (rows.map (rowLine fo ls)).map (·.key) = rows.map (·.key) := by
    rw [List.map_map]; rfl
  refine ⟨by rw [e]; exact h1, by rw [e]; exact h2, ?_⟩
  intro r' hr'
  obtain ⟨r, hr, rfl⟩ := List.mem_map.1 hr'
  obtain ⟨g1, g2⟩ := h3 r hr
  refine ⟨?_, ?_⟩
  · show ((r.fields.map _).map _).Pairwise _
    rw [List.map_map]
    exact g1
  · intro n v
    constructor
    · intro hm
      obtain ⟨f, hf, e⟩ := List.mem_map.1 hm
      injection e with e1 e2
      subst e1 e2
      exact ⟨((g2 f.1 f.2).1 hf).1, rfl⟩
    · rintro ⟨a, rfl⟩
      exact List.mem_map.2 ⟨(n, aggText fo (samplesOf r.key n ls)), (g2 _ _).2 ⟨a, rfl⟩, rfl⟩

theorem row_text {fo : FloatOps} {ls : List SLine} {rows : List Row} (h : Aggregates fo ls rows) (hwf : ∀ l ∈ ls, l.WF) {t : Int} (ht : wrap64 t = t) {r : Row} (hr : r ∈ rows) :
    Row.text (wrap64 t) r = Point.text ⟨rowLine fo ls r, t⟩ := by
  have hne : r.fields ≠ [] := by
    obtain ⟨l, hl, hk⟩ := List.mem_map.1 ((h.2.1 r.key).1 (List.mem_map_of_mem hr))
    obtain ⟨f, hf⟩ := List.exists_mem_of_ne_nil _ (hwf l hl).2.1
    exact List.ne_nil_of_mem (((h.2.2 r hr).2 f.1 _).2 ⟨List.ne_nil_of_mem (samplesOf_mem hl hk (x := f.2) hf), rfl⟩)
  have he : (rowLine fo ls r).fields.map (fun f => (f.1, f.2.text)) = r.fields := by
    show (r.fields.map _).map _ = _
    rw [List.map_map]
    conv => rhs; rw [← List.map_id r.fields]
    apply List.map_congr_left
    intro f hf
    have := (((h.2.2 r hr).2 f.1 f.2).1 hf).2
    show (f.1, (aggSample fo (samplesOf r.key f.1 ls)).text) = f
    rw [aggSample_text, ← this]
  unfold Row.text Point.text Point.bare SLine.text
  rw [if_neg hne, he, ht]
  simp [rowLine]

/-! ### One level -/

/-- What a downsampler makes of measurements. (The proof of C90, without the way the measurements take.) -/
theorem archive_points {S : Sorter} {fo : FloatOps} {period now0 : Int} {evs : List DEvent} {w : DWorker fo} (hper : 0 < period)
    (hrun : DWorker.run S (DWorker.new fo period now0) evs = .ok w) (D : List (List Bytes)) (m1 : (messagesIn evs).Perm (D.map List.flatten)) (pts : List Point)
    (hD : D.flatten.Perm (pts.map Point.text)) (hw : ∀ q ∈ pts, q.WF) (hv : w.stats.invalidTimestamps = 0 ∧ w.stats.invalidLines = 0)
    (n1 : w.a.prev.lines = []) (n2 : w.a.curr.lines = []) (n3 : w.a.next.lines = []) :
    ∃ (order : List Point) (E0 : Int) (em : List Emission),
      order.Perm pts ∧ Aligned period E0 ∧ E0 ≤ now0 ∧ now0 < E0 + period ∧
      (∀ (i : Nat) (m : Emission), em[i]? = some m → m.wend = E0 + i * period ∧
        ∃ rows, Aggregates fo (inWindow period m.wend order) rows ∧ m.text = rows.flatMap (Row.text (wrap64 m.wend))) ∧
      (∀ q ∈ order, ∃ i : Nat, i < em.length ∧ E0 + i * period - period ≤ q.ts ∧ q.ts < E0 + i * period) ∧
      (w.pubs.map (·.data)).flatten = (em.map (·.text)).flatten := by
  obtain ⟨w', e, got, em, outs, r1, rel, r2, r3, r4, -, r6, r7, -, -⟩ := dstream fo S period now0 hper evs
  rw [hrun] at r1
  injection r1 with r1
  subst r1
  obtain ⟨D', f1, f2⟩ := perm_map_lift List.flatten m1 D rfl
  have f3 : D'.flatten.Perm (pts.map Point.text) := f1.flatten.trans hD
  obtain ⟨order, o1, o2⟩ := perm_map_lift Point.text f3 pts rfl
  have how : ∀ q ∈ order, q.WF := fun q hq => hw q (o1.mem_iff.1 hq)
  obtain ⟨xs, x1, x2⟩ := flatten_eq_map _ _ o2
  have hlines : opLines (evs.flatMap evOps) = order.map Point.bare := by
    rw [opLines_evs, f2, x2, List.flatMap_map, List.flatMap_map, ← x1, List.map_flatten, ← List.flatMap_def]
    apply flatMap_congr'
    intro ps hps
    exact split_points ps fun q hq => how q (by rw [← x1]; exact List.mem_flatten.2 ⟨ps, hps, hq⟩)
  have hops : ((evs.flatMap evOps).zip outs).map (·.1) = evs.flatMap evOps :=
    List.map_fst_zip (by omega)
  have herr : errsOf ((evs.flatMap evOps).zip outs) = [] := by
    cases hc : errsOf ((evs.flatMap evOps).zip outs) with
    | nil => rfl
    | cons x l =>
      rw [hv.1, hc] at r6
      rw [hv.2, hc] at r7
      have r6 := List.countP_eq_zero.1 r6.symm x (by simp)
      have r7 := List.countP_eq_zero.1 r7.symm x (by simp)
      simp at r6 r7
      exact absurd (r7 r6.1) r6.2
  have hgot := legal_points r3 herr order how (by rw [hops, hlines])
  obtain ⟨E0, f⟩ := legal_facts hper r3
  refine ⟨order, E0, em, o1, f.aligned, f.startLo, f.startHi, ?_, ?_, r4⟩
  · intro i m hi
    obtain ⟨k1, k2, rows, k3, k4⟩ := f.ends i m hi
    refine ⟨k1, rows, ?_, k4⟩
    rw [hgot, kept_points _ _ _ how] at k3
    exact k3
  · intro q hqo
    obtain ⟨b1, b2⟩ := f.got_range ⟨q.ts, q.line.text, []⟩ (by rw [hgot]; exact List.mem_map.2 ⟨q, hqo, rfl⟩)
    dsimp only at b1 b2
    have v1 := holds_none rel.prevH n1
    have v2 := holds_none rel.currH n2
    have v3 := holds_none rel.nextH n3
    rw [hgot, kept_points _ _ _ how] at v1 v2 v3
    have v1 := inWindow_none v1 q hqo
    have v2 := inWindow_none v2 q hqo
    have v3 := inWindow_none v3 q hqo
    have hlt : q.ts < e - period := by omega
    exact window_index (n := em.length) b1 (by rw [f.e_eq] at hlt; omega)

/-- A list of witnesses. -/
theorem exists_list {α β : Type} {P : Nat → α → β → Prop} (l : List α) : ∀ k : Nat, (∀ (i : Nat) (a : α), l[i]? = some a → ∃ b, P (k + i) a b) →
    ∃ bs : List β, bs.length = l.length ∧ ∀ (i : Nat) (a : α) (b : β), l[i]? = some a → bs[i]? = some b → P (k + i) a b := by
  induction l with
  | nil => exact fun k h => ⟨[], rfl, fun i a b h => by simp at h⟩
  | cons x l ih =>
    intro k h
    obtain ⟨b, hb⟩ := h 0 x rfl
    obtain ⟨bs, h1, h2⟩ := ih (k + 1) fun i a hi => by
      have := h (i + 1) a hi
      rwa [show k + (i + 1) = k + 1 + i by omega] at this
    refine ⟨b :: bs, by simp [h1], ?_⟩
    intro i a c ha hc
    cases i with
    | zero =>
      simp only [List.getElem?_cons_zero, Option.some.injEq] at ha hc
      subst ha hc
      exact hb
    | succ i =>
      have := h2 i a c ha hc
      rwa [show k + 1 + i = k + (i + 1) by omega] at this

/-- The texts of the windows are those of the summaries. -/
theorem texts_flatten {E period : Int} (em : List Emission) : ∀ (sums : List (List SLine)) (k : Nat), sums.length = em.length →
    (∀ (i : Nat) (m : Emission) (ls : List SLine), em[i]? = some m → sums[i]? = some ls → m.text = (ls.map fun l => Point.text ⟨l, E + ((k + i : Nat) : Int) * period⟩).flatten) →
    (em.map (·.text)).flatten = (((sums.zipIdx k).flatMap fun x => x.1.map fun l => (⟨l, E + x.2 * period⟩ : Point)).map Point.text).flatten := by
  induction em with
  | nil =>
    intro sums k hl h
    rw [List.length_eq_zero_iff.1 hl]
    rfl
  | cons m em ih =>
    intro sums k hl h
    cases sums with
    | nil => cases hl
    | cons ls sums =>
      have h0 := h 0 m ls rfl rfl
      have ih := ih sums (k + 1) (by simpa using hl) fun i m ls a b => by
        have := h (i + 1) m ls a b
        rwa [show k + (i + 1) = k + 1 + i by omega] at this
      rw [List.map_cons, List.flatten_cons, ih, List.zipIdx_cons, List.flatMap_cons, List.map_append, List.flatten_append, h0]
      simp only [Nat.add_zero, List.map_map]
      rfl

theorem mem_summaryPoints {E period : Int} {sums : List (List SLine)} {q : Point} (h : q ∈ summaryPoints E period sums) :
    ∃ (i : Nat) (ls : List SLine), sums[i]? = some ls ∧ q.line ∈ ls ∧ q.ts = E + i * period := by
  unfold summaryPoints at h
  obtain ⟨x, hx, h⟩ := List.mem_flatMap.1 h
  obtain ⟨l, hl, rfl⟩ := List.mem_map.1 h
  exact ⟨x.2, x.1, List.mem_zipIdx_iff_getElem?.1 hx, hl, rfl⟩

theorem uniform_of {pts : List Point} (hw : ∀ q ∈ pts, q.WF) (hk : SameKinds pts) : Uniform (pts.map (·.line)) := by
  refine ⟨?_, ?_⟩
  · intro l hl
    obtain ⟨q, hq, rfl⟩ := List.mem_map.1 hl
    exact ⟨(hw q hq).1, (hw q hq).2.1⟩
  · intro l hl l' hl'
    obtain ⟨q, hq, rfl⟩ := List.mem_map.1 hl
    obtain ⟨q', hq', rfl⟩ := List.mem_map.1 hl'
    exact hk q hq q' hq'

theorem uniform_window {order : List Point} (U : Uniform (order.map (·.line))) (p w : Int) : Uniform (inWindow p w order) := by
  have hs : ∀ l ∈ inWindow p w order, l ∈ order.map (·.line) := by
    intro l hl
    unfold inWindow at hl
    obtain ⟨q, hq, rfl⟩ := List.mem_map.1 hl
    exact List.mem_map_of_mem (List.mem_filter.1 hq).1
  exact ⟨fun l hl => U.wf l (hs l hl), fun l hl l' hl' => U.kinds l (hs l hl) l' (hs l' hl')⟩

/-- Every field of a summary has the kind of a measurement of the same series and field. -/
theorem summary_kind {fo : FloatOps} {order : List Point} {p w : Int} (U : Uniform (order.map (·.line))) {out : List SLine} (h : Summary fo (inWindow p w order) out) {r : SLine} (hr : r ∈ out)
    {f : Bytes × Sample} (hf : f ∈ r.fields) : ∃ q ∈ order, q.line.key = r.key ∧ ∃ g ∈ q.line.fields, g.1 = f.1 ∧ g.2.quoted = f.2.quoted := by
  obtain ⟨hne, he⟩ := summary_field h hr hf
  obtain ⟨x, hx⟩ := List.exists_mem_of_ne_nil _ hne
  obtain ⟨l, hl, hk, hfl⟩ := mem_samplesOf hx
  unfold inWindow at hl
  obtain ⟨q, hq, rfl⟩ := List.mem_map.1 hl
  refine ⟨q, (List.mem_filter.1 hq).1, hk, (f.1, x), hfl, rfl, ?_⟩
  rw [he]
  exact (aggSample_quoted fo hne ((uniform_window U p w).samples hx)).symm

/-- **C117 (one level).** What a downsampler has made of measurements it has received in some messages, in some order, when it counted no error, holds nothing back and has published no message that ends within a line: the summaries of consecutive windows in which
all the measurements are.  They are again such measurements. -/
theorem C117_level_partial {S : Sorter} {fo : FloatOps} {period now0 : Int} {evs : List DEvent} {w : DWorker fo} (hpl : PlainFloats fo) (hper : 0 < period)
    (hrun : DWorker.run S (DWorker.new fo period now0) evs = .ok w) (D : List (List Bytes)) (m1 : (messagesIn evs).Perm (D.map List.flatten)) (pts : List Point)
    (hD : D.flatten.Perm (pts.map Point.text)) (hw : ∀ q ∈ pts, q.WF) (hk : SameKinds pts) (B : Int) (hB : ∀ q ∈ pts, q.ts < B) (hlim : B + period < 9223372036854775808)
    (hv : w.stats.invalidTimestamps = 0 ∧ w.stats.invalidLines = 0)
    (n1 : w.a.prev.lines = []) (n2 : w.a.curr.lines = []) (n3 : w.a.next.lines = []) (hnl : ∀ p ∈ w.pubs, p.data.getLast? = some NL) :
    ∃ (order : List Point) (E : Int) (sums : List (List SLine)), order.Perm pts ∧ Summarised fo period now0 order E sums ∧
      (∃ D' : List (List Bytes), w.pubs.map (·.data) = D'.map List.flatten ∧ D'.flatten = (summaryPoints E period sums).map Point.text) ∧
      (∀ q ∈ summaryPoints E period sums, q.WF ∧ q.ts < B + period) ∧ SameKinds (summaryPoints E period sums) := by
  obtain ⟨order, E, em, a1, a2, a3, a4, a5, a6, a7⟩ := archive_points hper hrun D m1 pts hD hw hv n1 n2 n3
  have how : ∀ q ∈ order, q.WF := fun q hq => hw q (a1.mem_iff.1 hq)
  have U := uniform_of how fun p hp q hq => hk p (a1.mem_iff.1 hp) q (a1.mem_iff.1 hq)
  -- a window with lines is in the range of int64
  have hrange : ∀ i : Nat, inWindow period (E + i * period) order ≠ [] → 0 ≤ E + i * period ∧ E + i * period < B + period := by
    intro i hne
    obtain ⟨l, hl⟩ := List.exists_mem_of_ne_nil _ hne
    unfold inWindow at hl
    obtain ⟨q, hq, rfl⟩ := List.mem_map.1 hl
    obtain ⟨hq, hr⟩ := List.mem_filter.1 hq
    have hr : E + i * period - period ≤ q.ts ∧ q.ts < E + i * period := by simpa using hr
    have := (how q hq).2.2.1
    have := hB q (a1.mem_iff.1 hq)
    omega
  obtain ⟨sums, s1, s2⟩ := exists_list (P := fun i (m : Emission) (ls : List SLine) => Summary fo (inWindow period (E + i * period) order) ls ∧
      m.text = (ls.map fun l => Point.text ⟨l, E + i * period⟩).flatten) em 0 (by
    intro i m hi
    obtain ⟨e, rows, h1, h2⟩ := a5 i m hi
    rw [e] at h1 h2
    simp only [Nat.zero_add]
    refine ⟨rows.map (rowLine fo (inWindow period (E + i * period) order)), rows_summary h1, ?_⟩
    rw [h2, List.map_map, List.flatMap_def]
    congr 1
    apply List.map_congr_left
    intro r hr
    have hU := uniform_window U period (E + i * period)
    refine row_text h1 (fun l hl => (hU.wf l hl).1) ?_ hr
    have hne : inWindow period (E + i * period) order ≠ [] := by
      obtain ⟨l, hl, -⟩ := List.mem_map.1 ((h1.2.1 r.key).1 (List.mem_map_of_mem hr))
      exact List.ne_nil_of_mem hl
    have := hrange i hne
    exact wrap64_of_inInt64 ⟨by omega, by omega⟩)
  have s2 : ∀ (i : Nat) (m : Emission) (ls : List SLine), em[i]? = some m → sums[i]? = some ls → Summary fo (inWindow period (E + i * period) order) ls ∧
      m.text = (ls.map fun l => Point.text ⟨l, E + i * period⟩).flatten := fun i m ls h1 h2 => by
    have := s2 i m ls h1 h2
    simpa using this
  have hsum : ∀ (i : Nat) (ls : List SLine), sums[i]? = some ls → Summary fo (inWindow period (E + i * period) order) ls := by
    intro i ls hi
    have hlt : i < em.length := by rw [← s1]; exact (List.getElem?_eq_some_iff.1 hi).1
    exact (s2 i em[i] ls (List.getElem?_eq_getElem hlt) hi).1
  have hpw : ∀ q ∈ summaryPoints E period sums, q.WF ∧ q.ts < B + period := by
    intro q hq
    obtain ⟨i, ls, h1, h2, h3⟩ := mem_summaryPoints hq
    have h4 := hsum i ls h1
    have hne : inWindow period (E + i * period) order ≠ [] := by
      obtain ⟨l, hl, -⟩ := List.mem_map.1 ((h4.2.1 q.line.key).1 (List.mem_map_of_mem h2))
      exact List.ne_nil_of_mem hl
    obtain ⟨g1, g2⟩ := hrange i hne
    obtain ⟨w1, w2⟩ := summary_wf hpl (uniform_window U period (E + i * period)) h4 q.line h2
    exact ⟨⟨w1, w2, by omega, by omega⟩, by omega⟩
  have htext : (w.pubs.map (·.data)).flatten = ((summaryPoints E period sums).map Point.text).flatten := by
    rw [a7]
    exact texts_flatten em sums 0 s1 fun i m ls h1 h2 => by
      rw [Nat.zero_add]
      exact (s2 i m ls h1 h2).2
  refine ⟨order, E, sums, a1, ⟨a2, ⟨a3, a4⟩, hsum, by rw [s1]; exact a6⟩, ⟨w.pubs.map fun p => linesOf p.data, ?_, ?_⟩, hpw, ?_⟩
  · rw [List.map_map]
    apply List.map_congr_left
    intro p _
    exact (linesOf_flatten p.data).symm
  · have h1 := linesOf_flatten_complete (w.pubs.map (·.data)) fun c hc => by
      obtain ⟨p, hp, rfl⟩ := List.mem_map.1 hc
      exact Or.inr (hnl p hp)
    rw [htext, linesOf_lines] at h1
    · rw [h1, List.flatMap_map, List.flatMap_def]
    · intro t ht
      obtain ⟨q, hq, rfl⟩ := List.mem_map.1 ht
      exact ⟨q.bare, bare_noNL (hpw q hq).1, rfl⟩
  · intro p hp q hq hkey f hf g hg hfg
    obtain ⟨i, ls, h1, h2, -⟩ := mem_summaryPoints hp
    obtain ⟨j, ls', h1', h2', -⟩ := mem_summaryPoints hq
    obtain ⟨p', hp', k1, f', hf', e1, e2⟩ := summary_kind U (hsum i ls h1) h2 hf
    obtain ⟨q', hq', k2, g', hg', e3, e4⟩ := summary_kind U (hsum j ls' h1') h2' hg
    rw [← e2, ← e4]
    exact hk p' (a1.mem_iff.1 hp') q' (a1.mem_iff.1 hq') (by rw [k1, k2, hkey]) f' hf' g' hg' (by rw [e1, e3, hfg])

end Spout.Delivery
