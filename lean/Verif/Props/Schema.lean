import Verif.Props.DeploymentOnTime
import Verif.Props.FloatPlain
import Verif.Props.FloatText

/-! # C120: archives keep to the schema of the measurements -/

set_option linter.unusedSimpArgs false

namespace Spout.Delivery
open Spout Spout.Listener Spout.Spec Spout.Pool

/-! ## Specification -/

/-- A schema says of which kind the values of a field (second argument) of a series (first argument) are. -/
abbrev Schema := Bytes → Bytes → Kind

/-- A well-formed measurement, with no field twice, whose values are of the kinds of the schema. -/
structure Conforms (fo : FloatOps) (T : Schema) (q : Point) : Prop where
  wf : q.WF
  names : (q.line.fields.map (·.1)).Nodup
  kinds : ∀ f ∈ q.line.fields, f.2.kind fo = T q.line.key f.1

/-- The message is the lines of measurements that conform to the schema, with times before `B`. -/
def Typed (fo : FloatOps) (T : Schema) (B : Int) (m : Bytes) : Prop :=
  ∃ qs : List Point, m = (qs.map Point.text).flatten ∧ ∀ q ∈ qs, Conforms fo T q ∧ q.ts < B

/-- What is printed for a float is read as a float, not as an integer. -/
def ReadableFloats (fo : FloatOps) : Prop := ∀ x, (fo.parse (fo.print x)).isSome = true ∧ intLit (fo.print x) = none

/-! ## Floats -/

theorem intLit_last {s : Bytes} (h : s.getLast? ≠ some 105) : intLit s = none := by
  unfold intLit
  rw [if_neg h]

theorem parse_nan (other : Bytes → Option F64) : parseFloat other b!"NaN" = some .nan := rfl
theorem parse_pinf (other : Bytes → Option F64) : parseFloat other b!"+Inf" = some (.inf false) := rfl
theorem parse_ninf (other : Bytes → Option F64) : parseFloat other b!"-Inf" = some (.inf true) := rfl

/-- **C120 (floats stay floats).** Whatever float64 the average of a field is - also an infinity or not a number - what is printed for it is read as a float again. -/
theorem C120_binary64_readable (other : Bytes → Option F64) : ReadableFloats (binary64 other) := by
  intro x
  refine ⟨?_, ?_⟩
  · show (parseFloat other (printFloat x)).isSome = true
    cases x with
    | nan => show (parseFloat other b!"NaN").isSome = true; rw [parse_nan]; rfl
    | inf neg =>
      cases neg with
      | true => show (parseFloat other b!"-Inf").isSome = true; rw [parse_ninf]; rfl
      | false => show (parseFloat other b!"+Inf").isSome = true; rw [parse_pinf]; rfl
    | fin neg k => rw [(C105_written_reads_back other (.fin neg k) trivial).1]; rfl
  · refine intLit_last fun h => ?_
    exact ((printFloat_chars x).2 105 (List.mem_of_getLast? h)).2.2.2.2 rfl

theorem wholeFloats_readable : ReadableFloats wholeFloats := by
  intro x
  refine ⟨?_, ?_⟩
  · show (match toInt (itoa (wrap64 x)) with | .ok n => some n | .error _ => none).isSome = true
    rw [C05_print_parse_roundtrip _ (inInt64_wrap64 x)]
    rfl
  · exact intLit_last fun h => itoa_no' _ 105 (by decide) (by decide) (List.mem_of_getLast? h)

/-! ## The kind of an aggregated value -/

theorem runningMean_range : ∀ (l : List Int) (avg c : Int), InInt64 avg → InInt64 (runningMean avg c l)
  | [], _, _, h => h
  | _ :: l, _, c, _ => runningMean_range l _ (c + 1) (inInt64_wrap64 _)

theorem intLit_range {s : Bytes} {v : Int} (h : intLit s = some v) : InInt64 v := by
  unfold intLit at h
  dsimp only at h
  unfold InInt64
  repeat' split at h
  all_goals first
    | cases h; done
    | (injection h with h; omega)

theorem intLit_itoa {n : Int} (h : InInt64 n) : intLit (itoa n ++ b!"i") = some n := by
  rw [← intText_eq]
  unfold intText
  have hne : itoa n ≠ [] := by
    unfold itoa
    split
    · simp
    · exact natDigits_ne_nil _
  have hl := List.length_pos_iff.2 hne
  rw [if_neg (by simp; omega)]
  have : (itoa n ++ b!"i").dropLast = itoa n := by simp
  rw [this, C05_print_parse_roundtrip _ h]

/-- **C120 (the kind of a value is kept).** The aggregation of values of one kind is of this kind. -/
theorem C120_kind_kept {fo : FloatOps} (hrd : ReadableFloats fo) {ss : List Sample} {κ : Kind} (hne : ss ≠ []) (h : ∀ s ∈ ss, s.kind fo = κ) :
    (aggSample fo ss).kind fo = κ := by
  cases ss with
  | nil => exact absurd rfl hne
  | cons s ss =>
    have hs := h s List.mem_cons_self
    have hl := h _ (List.getLast_mem (l := s :: ss) (by simp))
    unfold aggSample
    dsimp only
    generalize (s :: ss).getLast (by simp) = last at hl ⊢
    have raw : ∀ c : Bytes, (⟨false, c⟩ : Sample).kind fo = if (intLit c).isSome then .integer else if (fo.parse c).isSome then .float else .other := by
      intro c
      unfold Sample.kind
      rw [if_neg (by simp)]
    have eta : ∀ x : Sample, x.quoted = false → x = ⟨false, x.content⟩ := fun x hx => by rw [← hx]
    cases hq : s.quoted with
    | true =>
      rw [if_pos rfl, ← hs]
      unfold Sample.kind
      rw [if_pos rfl, hq, if_pos rfl]
    | false =>
      rw [if_neg (by simp)]
      rw [eta s hq, raw] at hs
      cases hi : intLit s.content with
      | some v =>
        rw [hi] at hs
        dsimp only
        rw [raw, intLit_itoa (runningMean_range _ _ _ (intLit_range hi))]
        exact hs
      | none =>
        rw [hi] at hs
        cases hp : fo.parse s.content with
        | some v =>
          rw [hp] at hs
          dsimp only
          rw [raw, (hrd _).2, (hrd _).1]
          exact hs
        | none =>
          rw [hp] at hs
          have hκ : κ = .other := hs.symm
          subst hκ
          dsimp only
          cases hlq : last.quoted with
          | true =>
            unfold Sample.kind at hl
            rw [hlq, if_pos rfl] at hl
            cases hl
          | false =>
            rw [← eta last hlq]
            exact hl

/-- Integers stay integers and strings strings. -/
example : (aggSample wholeFloats [⟨false, b!"1i"⟩, ⟨false, b!"4i"⟩]).kind wholeFloats = .integer ∧ (aggSample wholeFloats [⟨true, b!"a"⟩, ⟨true, b!"b"⟩]).kind wholeFloats = .string :=
  ⟨C120_kind_kept wholeFloats_readable (by simp) (by decide), C120_kind_kept wholeFloats_readable (by simp) (by decide)⟩

/-- Floats stay floats, even if they are not numbers. -/
example (other : Bytes → Option F64) : (aggSample (binary64 other) [⟨false, b!"+Inf"⟩, ⟨false, b!"-Inf"⟩]).kind (binary64 other) = .float :=
  C120_kind_kept (C120_binary64_readable other) (by simp) (by
    intro s hs
    rcases List.mem_cons.1 hs with rfl | hs
    · rfl
    · rcases List.mem_singleton.1 hs with rfl
      rfl)

/-! ## One downsampler -/

/-- What a window gets, if all lines are measurements and none is refused but for its time. -/
theorem legal_some {fo : FloatOps} {p now0 e : Int} {got : List Got} {em : List Emission} {h : List (AOp × AOut)} (hl : Legal fo p now0 e got em h) {P : Point → Prop} (hP : ∀ q, P q → q.WF) :
    (∀ x ∈ errsOf h, x = .tooOld ∨ x = .tooNew) → (∀ l ∈ opLines (h.map (·.1)), ∃ q, P q ∧ l = q.bare) →
      ∃ order : List Point, (∀ q ∈ order, P q) ∧ got = order.map fun q => ⟨q.ts, q.line.text, []⟩ := by
  have left : ∀ {h x : List (AOp × AOut)}, (∀ e ∈ errsOf (h ++ x), e = .tooOld ∨ e = .tooNew) → ∀ e ∈ errsOf h, e = .tooOld ∨ e = .tooNew := by
    intro h x he e hm
    rw [errsOf_append] at he
    exact he e (List.mem_append_left _ hm)
  have left' : ∀ {h x : List (AOp × AOut)}, (∀ l ∈ opLines ((h ++ x).map (·.1)), ∃ q, P q ∧ l = q.bare) → ∀ l ∈ opLines (h.map (·.1)), ∃ q, P q ∧ l = q.bare := by
    intro h x he l hm
    rw [List.map_append, opLines_append] at he
    exact he l (List.mem_append_left _ hm)
  induction hl with
  | start => exact fun _ _ => ⟨[], by simp, rfl⟩
  | empty _ ih => exact fun a b => ih (left a) (left' b)
  | old _ _ _ _ ih => exact fun a b => ih (left a) (left' b)
  | new _ _ _ _ ih => exact fun a b => ih (left a) (left' b)
  | @accept e got em h l now ts body errs _ hne hs _ _ ht ih =>
    intro a b
    obtain ⟨order, o1, o2⟩ := ih (left a) (left' b)
    have he : errs = [] := by
      cases errs with
      | nil => rfl
      | cons x errs =>
        have h1 := ht x (by simp)
        have h2 := a x (by rw [errsOf_append]; exact List.mem_append_right _ (by simp [errsOf]))
        rcases h2 with rfl | rfl <;> cases h1
    subst he
    obtain ⟨q, hq, rfl⟩ := b l (by
      rw [List.map_append, opLines_append]
      exact List.mem_append_right _ (by simp [opLines, hne]))
    obtain ⟨rfl, rfl⟩ := bare_stamped (hP q hq) hs
    refine ⟨order ++ [q], ?_, by rw [o2, List.map_append]; rfl⟩
    intro z hz
    rcases List.mem_append.1 hz with hz | hz
    · exact o1 z hz
    · rw [List.mem_singleton.1 hz]; exact hq
  | early _ _ ih => exact fun a b => ih (left a) (left' b)
  | emit _ _ _ ih => exact fun a b => ih (left a) (left' b)

theorem conforms_samples {fo : FloatOps} {T : Schema} {ls : List SLine} (h : ∀ l ∈ ls, ∀ f ∈ l.fields, f.2.kind fo = T l.key f.1) {k n : Bytes} : ∀ s ∈ samplesOf k n ls, s.kind fo = T k n := by
  intro s hs
  obtain ⟨l, hl, rfl, hf⟩ := mem_samplesOf hs
  exact h l hl _ hf

theorem kind_quoted {fo : FloatOps} {a b : Sample} (h : a.kind fo = b.kind fo) : a.quoted = b.quoted := by
  have : ∀ s : Sample, s.quoted = true ↔ s.kind fo = .string := by
    intro s
    unfold Sample.kind
    cases s.quoted with
    | true => simp
    | false =>
      simp only [Bool.false_eq_true, if_false, false_iff]
      split
      · intro h; cases h
      · split <;> (intro h; cases h)
  have h1 := this a
  have h2 := this b
  rw [h, ← h2] at h1
  cases ha : a.quoted <;> cases hb : b.quoted <;> simp_all

/-- The text of a window of measurements that conform to the schema conforms to the schema. -/
theorem window_typed {fo : FloatOps} (hpl : PlainFloats fo) (hrd : ReadableFloats fo) {T : Schema} {p w B : Int} (hp : 0 < p) (hB : B + p ≤ 9223372036854775808) {order : List Point}
    (ho : ∀ q ∈ order, Conforms fo T q ∧ q.ts < B) {rows : List Row} (h : Aggregates fo (inWindow p w order) rows) : Typed fo T (B + p) (rows.flatMap (Row.text (wrap64 w))) := by
  have hin : ∀ l ∈ inWindow p w order, ∃ q ∈ order, q.line = l ∧ w - p ≤ q.ts ∧ q.ts < w := by
    intro l hl
    unfold inWindow at hl
    obtain ⟨q, hq, rfl⟩ := List.mem_map.1 hl
    obtain ⟨hq, hr⟩ := List.mem_filter.1 hq
    have hr : w - p ≤ q.ts ∧ q.ts < w := by simpa using hr
    exact ⟨q, hq, rfl, hr⟩
  have hk : ∀ l ∈ inWindow p w order, ∀ f ∈ l.fields, f.2.kind fo = T l.key f.1 := by
    intro l hl
    obtain ⟨q, hq, rfl, -⟩ := hin l hl
    exact (ho q hq).1.kinds
  have hwf : ∀ l ∈ inWindow p w order, l.WF ∧ NL ∉ l.text := by
    intro l hl
    obtain ⟨q, hq, rfl, -⟩ := hin l hl
    exact ⟨(ho q hq).1.wf.1, (ho q hq).1.wf.2.1⟩
  have U : Uniform (inWindow p w order) := ⟨hwf, fun l hl m hm e f hf g hg e' => kind_quoted (fo := fo) (by rw [hk l hl f hf, hk m hm g hg, e, e'])⟩
  have hs := rows_summary h
  have hrange : ∀ r ∈ rows, 0 ≤ w ∧ w < B + p := by
    intro r hr
    obtain ⟨l, hl, -⟩ := List.mem_map.1 ((h.2.1 r.key).1 (List.mem_map_of_mem hr))
    obtain ⟨q, hq, -, h1, h2⟩ := hin l hl
    have := (ho q hq).2
    have := (ho q hq).1.wf.2.2.1
    omega
  refine ⟨rows.map fun r => ⟨rowLine fo (inWindow p w order) r, w⟩, ?_, ?_⟩
  · rw [List.map_map, List.flatMap_def]
    congr 1
    apply List.map_congr_left
    intro r hr
    have := hrange r hr
    exact row_text h (fun l hl => (hwf l hl).1) (wrap64_of_inInt64 ⟨by omega, by omega⟩) hr
  · intro q hq
    obtain ⟨r, hr, rfl⟩ := List.mem_map.1 hq
    have hr' : rowLine fo (inWindow p w order) r ∈ rows.map (rowLine fo (inWindow p w order)) := List.mem_map_of_mem hr
    have := hrange r hr
    obtain ⟨w1, w2⟩ := summary_wf hpl U hs _ hr'
    refine ⟨⟨⟨w1, w2, by show 0 ≤ w; omega, by show w < _; omega⟩, ?_, ?_⟩, by show w < _; omega⟩
    · refine ((hs.2.2 _ hr').1).imp ?_
      intro a b hab e
      rw [e, bytesLt_irrefl] at hab
      cases hab
    · intro f hf
      obtain ⟨hne, he⟩ := summary_field hs hr' hf
      rw [he]
      exact C120_kind_kept hrd hne (conforms_samples hk)

theorem typed_flatten {fo : FloatOps} {T : Schema} {B : Int} : ∀ (ms : List Bytes), (∀ m ∈ ms, Typed fo T B m) → Typed fo T B ms.flatten
  | [], _ => ⟨[], rfl, by simp⟩
  | m :: ms, h => by
    obtain ⟨qs, e1, e2⟩ := h m (by simp)
    obtain ⟨rs, f1, f2⟩ := typed_flatten ms fun m hm => h m (List.mem_cons_of_mem _ hm)
    refine ⟨qs ++ rs, by rw [List.flatten_cons, e1, f1, List.map_append, List.flatten_append], ?_⟩
    intro q hq
    rcases List.mem_append.1 hq with hq | hq
    · exact e2 q hq
    · exact f2 q hq

/-- A text that conforms, cut between lines. -/
theorem typed_cut {fo : FloatOps} {T : Schema} {B : Int} {ms : List Bytes} (h : Typed fo T B ms.flatten) (hnl : ∀ m ∈ ms, m.getLast? = some NL) : ∀ m ∈ ms, Typed fo T B m := by
  obtain ⟨qs, e1, e2⟩ := h
  have h1 := linesOf_flatten_complete ms fun c hc => Or.inr (hnl c hc)
  rw [e1, linesOf_lines] at h1
  · intro m hm
    have hsub : ∀ t ∈ linesOf m, ∃ q ∈ qs, q.text = t := by
      intro t ht
      have : t ∈ qs.map Point.text := by rw [h1]; exact List.mem_flatMap.2 ⟨m, hm, ht⟩
      exact List.mem_map.1 this
    have : ∃ rs : List Point, linesOf m = rs.map Point.text ∧ ∀ q ∈ rs, q ∈ qs := by
      generalize linesOf m = l at hsub
      induction l with
      | nil => exact ⟨[], rfl, by simp⟩
      | cons t l ih =>
        obtain ⟨q, hq, rfl⟩ := hsub t (by simp)
        obtain ⟨rs, r1, r2⟩ := ih fun t ht => hsub t (List.mem_cons_of_mem _ ht)
        refine ⟨q :: rs, by rw [r1]; rfl, ?_⟩
        intro z hz
        rcases List.mem_cons.1 hz with rfl | hz
        · exact hq
        · exact r2 z hz
    obtain ⟨rs, r1, r2⟩ := this
    exact ⟨rs, by rw [← r1, linesOf_flatten], fun q hq => e2 q (r2 q hq)⟩
  · intro t ht
    obtain ⟨q, hq, rfl⟩ := List.mem_map.1 ht
    exact ⟨q.bare, bare_noNL (e2 q hq).1.wf, rfl⟩

/-- **C120 (a downsampler keeps to the schema).** In every history of a downsampler worker - whatever the clock, the order, failures - all of whose messages are lines of measurements that conform to a schema: no line is ever counted invalid, everything
emitted so far is lines of measurements that conform to the same schema, and so is every message by itself if no line is so long that it had to be cut. -/
theorem C120_keeps_schema {S : Sorter} {fo : FloatOps} (hpl : PlainFloats fo) (hrd : ReadableFloats fo) {period now0 : Int} (hper : 0 < period) {evs : List DEvent} {w : DWorker fo}
    (hrun : DWorker.run S (DWorker.new fo period now0) evs = .ok w) {T : Schema} {B : Int} (hm : ∀ m ∈ messagesIn evs, Typed fo T B m) (hB : B + period ≤ 9223372036854775808) :
    w.stats.invalidLines = 0 ∧ Typed fo T (B + period) (w.pubs.map (·.data)).flatten ∧
    ((∀ p ∈ w.pubs, p.data.getLast? = some NL) → ∀ p ∈ w.pubs, Typed fo T (B + period) p.data) := by
  have hlines : ∀ m ∈ messagesIn evs, ∀ l ∈ splitNL m, l ≠ [] → ∃ q, (Conforms fo T q ∧ q.ts < B) ∧ l = q.bare := by
    intro m hm' l hl hne
    obtain ⟨qs, e1, e2⟩ := hm m hm'
    have hsp := split_points qs fun q hq => (e2 q hq).1.wf
    rw [← e1] at hsp
    have : l ∈ qs.map Point.bare := by
      rw [← hsp, List.mem_filter]
      exact ⟨hl, by simpa using hne⟩
    obtain ⟨q, hq, rfl⟩ := List.mem_map.1 this
    exact ⟨q, e2 q hq, rfl⟩
  have hinv : w.stats.invalidLines = 0 := by
    obtain ⟨pts, p1, p2⟩ : ∃ pts : List Point, (∀ q ∈ pts, Conforms fo T q) ∧ ∀ m ∈ messagesIn evs, LinesOf pts m := by
      clear hm hrun
      generalize messagesIn evs = ms at hlines
      have one : ∀ ls : List Bytes, (∀ l ∈ ls, l ≠ [] → ∃ q, (Conforms fo T q ∧ q.ts < B) ∧ l = q.bare) → ∃ pts : List Point, (∀ q ∈ pts, Conforms fo T q) ∧ ∀ l ∈ ls, l ≠ [] → ∃ q ∈ pts, l = q.bare := by
        intro ls
        induction ls with
        | nil => exact fun _ => ⟨[], by simp, by simp⟩
        | cons l ls ih =>
          intro h
          obtain ⟨pts, a1, a2⟩ := ih fun l hl => h l (List.mem_cons_of_mem _ hl)
          by_cases hne : l = []
          · refine ⟨pts, a1, fun x hx hxn => ?_⟩
            rcases List.mem_cons.1 hx with rfl | hx
            · exact absurd hne hxn
            · exact a2 x hx hxn
          · obtain ⟨q, hq, rfl⟩ := h l (by simp) hne
            refine ⟨q :: pts, ?_, ?_⟩
            · intro z hz
              rcases List.mem_cons.1 hz with rfl | hz
              · exact hq.1
              · exact a1 z hz
            · intro x hx hxn
              rcases List.mem_cons.1 hx with rfl | hx
              · exact ⟨q, by simp, rfl⟩
              · obtain ⟨z, hz, e⟩ := a2 x hx hxn
                exact ⟨z, List.mem_cons_of_mem _ hz, e⟩
      obtain ⟨pts, a1, a2⟩ := one (ms.flatMap splitNL) (by
        intro l hl
        obtain ⟨m, hm, hl⟩ := List.mem_flatMap.1 hl
        exact hlines m hm l hl)
      exact ⟨pts, a1, fun m hm l hl => a2 l (List.mem_flatMap.2 ⟨m, hm, hl⟩)⟩
    refine C119_consistent_never_invalid fo S period now0 evs pts (fun q hq => (p1 q hq).wf) ⟨?_, ?_⟩ p2 hrun
    · intro l hl
      obtain ⟨q, hq, rfl⟩ := List.mem_map.1 hl
      exact (p1 q hq).names
    · intro l hl m hm e f hf g hg e'
      obtain ⟨q, hq, rfl⟩ := List.mem_map.1 hl
      obtain ⟨r, hr, rfl⟩ := List.mem_map.1 hm
      rw [(p1 q hq).kinds f hf, (p1 r hr).kinds g hg, e, e']
  have htext : Typed fo T (B + period) (w.pubs.map (·.data)).flatten := by
    obtain ⟨w', e, got, em, outs, r1, rel, r2, r3, r4, -, r6, r7, -, -⟩ := dstream fo S period now0 hper evs
    rw [hrun] at r1
    injection r1 with r1
    subst r1
    have hops : ((evs.flatMap evOps).zip outs).map (·.1) = evs.flatMap evOps := List.map_fst_zip (by omega)
    obtain ⟨order, o1, o2⟩ := legal_some r3 (P := fun q => Conforms fo T q ∧ q.ts < B) (fun q hq => hq.1.wf) (by
      intro x hx
      rw [hinv] at r7
      have := List.countP_eq_zero.1 r7.symm x hx
      by_cases h1 : x = .tooOld
      · exact Or.inl h1
      · by_cases h2 : x = .tooNew
        · exact Or.inr h2
        · exact absurd (by simp [h1, h2]) this) (by
      intro l hl
      rw [hops, opLines_evs] at hl
      obtain ⟨m, hm', hl⟩ := List.mem_flatMap.1 hl
      obtain ⟨hl, hne⟩ := List.mem_filter.1 hl
      exact hlines m hm' l hl (by simpa using hne))
    obtain ⟨E0, f⟩ := legal_facts hper r3
    rw [r4]
    apply typed_flatten
    intro t ht
    obtain ⟨m, hm', rfl⟩ := List.mem_map.1 ht
    obtain ⟨i, hi⟩ := List.getElem?_of_mem hm'
    obtain ⟨-, -, rows, k3, k4⟩ := f.ends i m hi
    rw [o2, kept_points _ _ _ fun q hq => (o1 q hq).1.wf] at k3
    rw [k4]
    exact window_typed hpl hrd hper hB o1 k3
  refine ⟨hinv, htext, fun hnl p hp => ?_⟩
  exact typed_cut htext (by
    intro m hm'
    obtain ⟨p, hp, rfl⟩ := List.mem_map.1 hm'
    exact hnl p hp) p.data (List.mem_map_of_mem hp)

def scEvs : List DEvent := [⟨.msg b!"m f=1i 5\nm f=4i 6\n" fun _ => 16, 16, idOrder, fun _ => false⟩, ⟨.timeout, 20, idOrder, fun _ => false⟩]

/-- A worker with a period of 10 that gets two measurements and then looks for output. -/
example : (∀ m ∈ messagesIn scEvs, Typed wholeFloats (fun _ _ => .integer) 100 m) ∧
    ∃ w, DWorker.run insertionSorter (DWorker.new wholeFloats 10 15) scEvs = .ok w ∧ w.stats.invalidLines = 0 ∧ Typed wholeFloats (fun _ _ => .integer) 110 (w.pubs.map (·.data)).flatten := by
  have h : ∀ m ∈ messagesIn scEvs, Typed wholeFloats (fun _ _ => .integer) 100 m := by
    intro m hm
    have hm : m ∈ [b!"m f=1i 5\nm f=4i 6\n"] := hm
    rw [List.mem_singleton] at hm
    have hw := arPts_WF
    refine ⟨[⟨⟨b!"m", [(b!"f", ⟨false, b!"1i"⟩)]⟩, 5⟩, ⟨⟨b!"m", [(b!"f", ⟨false, b!"4i"⟩)]⟩, 6⟩], by rw [hm]; decide +kernel, ?_⟩
    intro q hq
    have hq' : q ∈ arPts := by
      rcases List.mem_cons.1 hq with rfl | hq
      · exact .head _
      · rcases List.mem_singleton.1 hq with rfl
        exact .tail _ (.tail _ (.head _))
    refine ⟨⟨hw q hq', ?_, ?_⟩, ?_⟩ <;> clear hq <;> revert q <;> decide
  refine ⟨h, ?_⟩
  obtain ⟨w, -, -, -, -, r, -⟩ := dstream wholeFloats insertionSorter 10 15 (by decide) scEvs
  obtain ⟨a1, a2, -⟩ := C120_keeps_schema wholeFloats_plain wholeFloats_readable (by decide) r h (by decide)
  exact ⟨w, r, a1, a2⟩

end Spout.Delivery
