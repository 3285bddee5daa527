import Verif.Props.ArchiveChain
import Verif.Props.WriterStore

/-! # C122: the archive as InfluxDB stores it

What is stored of an archive does not depend on the order of the writes: no two lines of an archive give a value to the same field of the same point. -/

namespace Spout.Delivery
open Spout Spout.Listener Spout.Spec Spout.Pool

/-! ## Specification -/

/-- How a database reads the lines of measurements: every field of a line gives a value to a key that depends on the texts of the series and the field and on the time.  (Other lines may mean anything.) -/
structure Reading (K V : Type) where
  key : Bytes → Bytes → Int → K
  val : Sample → V
  sets : Int → Bytes → List (K × V)
  points : ∀ (t : Int) (q : Point), q.WF → sets t q.text = q.line.fields.map fun f => (key q.line.key f.1 q.ts, val f.2)

/-- The series and field occur in the measurements. -/
def Occurs (pts : List Point) (series field : Bytes) : Prop := ∃ p ∈ pts, p.line.key = series ∧ ∃ f ∈ p.line.fields, f.1 = field

/-- The measurements name each series and each field always in the same way: the database tells different texts, and different times, apart. -/
def Reading.Distinct {K V : Type} (R : Reading K V) (pts : List Point) : Prop :=
  ∀ a n a' n', Occurs pts a n → Occurs pts a' n' → ∀ t t', R.key a n t = R.key a' n' t' → a = a' ∧ n = n' ∧ t = t'

/-! ## Proofs -/

/-- The text of a measurement determines it. -/
theorem point_text_inj {p q : Point} (hp : p.WF) (hq : q.WF) (h : p.text = q.text) : p = q := by
  have hb : p.bare = q.bare := by
    have := congrArg List.dropLast h
    simpa [Point.text] using this
  have h1 : Stamped 0 p.bare p.ts (p.bare.take (((p.line.text.length + 1 : Nat) : Int) - 1).toNat) := .own _ _ (bare_hasTs hp)
  obtain ⟨-, e1⟩ := bare_stamped hp h1
  have h2 := h1
  rw [hb] at h2
  obtain ⟨e2, e3⟩ := bare_stamped hq h2
  rw [hb] at e1
  have e4 : p.line.text = q.line.text := e1.symm.trans e3
  have e5 := asRead_text p.line hp.1
  rw [e4, asRead_text q.line hq.1] at e5
  cases p; cases q
  simp only at e2 e5
  rw [e2, e5]

open Classical in
/-- There is a database that reads lines in this way, and tells all texts apart. -/
theorem C122_reading_exists : ∃ R : Reading (Bytes × Bytes × Int) Sample, ∀ pts, R.Distinct pts := by
  refine ⟨⟨fun a n t => (a, n, t), id, fun _ line => if h : ∃ q : Point, q.WF ∧ q.text = line then h.choose.line.fields.map fun f => ((h.choose.line.key, f.1, h.choose.ts), f.2) else [], ?_⟩, ?_⟩
  · intro t q hq
    have h : ∃ q' : Point, q'.WF ∧ q'.text = q.text := ⟨q, hq, rfl⟩
    simp only [dif_pos h]
    rw [point_text_inj h.choose_spec.1 hq h.choose_spec.2]
    rfl
  · intro pts a n a' n' _ _ t t' e
    simpa using e

/-- What a level makes of well-formed measurements. -/
theorem summarised_points {fo : FloatOps} (hpl : PlainFloats fo) {period now0 E B : Int} (hper : 0 < period) {pts order : List Point} {sums : List (List SLine)} (hp : order.Perm pts)
    (hs : Summarised fo period now0 order E sums) (hw : ∀ q ∈ pts, q.WF) (hk : SameKinds pts) (hB : ∀ q ∈ pts, q.ts < B) (hlim : B + period < 9223372036854775808) :
    (∀ q ∈ summaryPoints E period sums, q.WF ∧ q.ts < B + period) ∧ SameKinds (summaryPoints E period sums) := by
  have how : ∀ q ∈ order, q.WF := fun q hq => hw q (hp.mem_iff.1 hq)
  have U := uniform_of how fun p hp' q hq => hk p (hp.mem_iff.1 hp') q (hp.mem_iff.1 hq)
  refine ⟨?_, ?_⟩
  · intro q hq
    obtain ⟨i, ls, h1, h2, h3⟩ := mem_summaryPoints hq
    have h4 := hs.windows i ls h1
    obtain ⟨w1, w2⟩ := summary_wf hpl (uniform_window U period (E + i * period)) h4 q.line h2
    obtain ⟨l, hl, -⟩ := List.mem_map.1 ((h4.2.1 q.line.key).1 (List.mem_map_of_mem h2))
    unfold inWindow at hl
    obtain ⟨p, hp', rfl⟩ := List.mem_map.1 hl
    obtain ⟨hp', hr⟩ := List.mem_filter.1 hp'
    have hr : E + i * period - period ≤ p.ts ∧ p.ts < E + i * period := by simpa using hr
    have := (how p hp').2.2.1
    have := hB p (hp.mem_iff.1 hp')
    exact ⟨⟨w1, w2, by omega, by omega⟩, by omega⟩
  · intro p hp' q hq hkey f hf g hg hfg
    obtain ⟨i, ls, h1, h2, -⟩ := mem_summaryPoints hp'
    obtain ⟨j, ls', h1', h2', -⟩ := mem_summaryPoints hq
    obtain ⟨p', hp', k1, f', hf', e1, e2⟩ := summary_kind U (hs.windows i ls h1) h2 hf
    obtain ⟨q', hq', k2, g', hg', e3, e4⟩ := summary_kind U (hs.windows j ls' h1') h2' hg
    rw [← e2, ← e4]
    exact hk p' (hp.mem_iff.1 hp') q' (hp.mem_iff.1 hq') (by rw [k1, k2, hkey]) f' hf' g' hg' (by rw [e1, e3, hfg])

theorem sum_pos {ps : List (Int × Int)} (h : ∀ p ∈ ps, 0 < p.1) : 0 ≤ (ps.map (·.1)).sum := by
  induction ps with
  | nil => simp
  | cons a l ih =>
    have := h a List.mem_cons_self
    have := ih fun y hy => h y (List.mem_cons_of_mem _ hy)
    simp only [List.map_cons, List.sum_cons]; omega

/-- The measurements of the last level of an archive are well-formed, and of the series and fields that were sent. -/
theorem archives_wf {fo : FloatOps} (hpl : PlainFloats fo) {levels : List (Int × Int)} {pts outs : List Point} (A : Archives fo levels pts outs) (hpos : ∀ l ∈ levels, 0 < l.1) :
    ∀ B : Int, (∀ q ∈ pts, q.WF) → SameKinds pts → (∀ q ∈ pts, q.ts < B) → B + (levels.map (·.1)).sum < 9223372036854775808 →
      (∀ q ∈ outs, q.WF) ∧ ∀ a n, Occurs outs a n → Occurs pts a n := by
  induction A with
  | none pts => exact fun B h1 h2 h3 h4 => ⟨h1, fun a n h => h⟩
  | level period now0 rest pts order out E sums hp hs hr ih =>
    intro B h1 h2 h3 h4
    have hper : 0 < period := hpos (period, now0) List.mem_cons_self
    have hsum := sum_pos fun l hl => hpos l (List.mem_cons_of_mem _ hl)
    simp only [List.map_cons, List.sum_cons] at h4
    obtain ⟨a1, a2⟩ := summarised_points hpl hper hp hs h1 h2 h3 (by omega)
    obtain ⟨b1, b2⟩ := ih (fun l hl => hpos l (List.mem_cons_of_mem _ hl)) (B + period) (fun q hq => (a1 q hq).1) a2 (fun q hq => (a1 q hq).2) (by omega)
    refine ⟨b1, fun a n h => ?_⟩
    obtain ⟨q, hq, rfl, f, hf, rfl⟩ := b2 a n h
    obtain ⟨i, ls, g1, g2, -⟩ := mem_summaryPoints hq
    obtain ⟨hne, -⟩ := summary_field (hs.windows i ls g1) g2 hf
    obtain ⟨x, hx⟩ := List.exists_mem_of_ne_nil _ hne
    obtain ⟨l, hl, hk, hfl⟩ := mem_samplesOf hx
    unfold inWindow at hl
    obtain ⟨p, hp', rfl⟩ := List.mem_map.1 hl
    exact ⟨p, hp.mem_iff.1 (List.mem_filter.1 hp').1, hk, _, hfl, rfl⟩

theorem nodup_key {l : List SLine} (h : (l.map (·.key)).Nodup) {a b : SLine} (ha : a ∈ l) (hb : b ∈ l) (e : a.key = b.key) : a = b := by
  induction l with
  | nil => cases ha
  | cons c l ih =>
    rw [List.map_cons, List.nodup_cons] at h
    rcases List.mem_cons.1 ha with e1 | ha' <;> rcases List.mem_cons.1 hb with e2 | hb'
    · rw [e1, e2]
    · exact absurd (by rw [← e1, e]; exact List.mem_map_of_mem hb') h.1
    · exact absurd (by rw [← e2, ← e]; exact List.mem_map_of_mem ha') h.1
    · exact ih h.2 ha' hb'

/-- One level: a series has at most one line with a time, and the line has a field at most once. -/
theorem summary_unique {fo : FloatOps} {period now0 E : Int} (hper : 0 < period) {order : List Point} {sums : List (List SLine)} (hs : Summarised fo period now0 order E sums) :
    (∀ p ∈ summaryPoints E period sums, ∀ q ∈ summaryPoints E period sums, p.line.key = q.line.key → p.ts = q.ts → p = q) ∧
    ∀ p ∈ summaryPoints E period sums, ∀ f ∈ p.line.fields, ∀ g ∈ p.line.fields, f.1 = g.1 → f = g := by
  refine ⟨?_, ?_⟩
  · intro p hp q hq hk ht
    obtain ⟨i, ls, h1, h2, h3⟩ := mem_summaryPoints hp
    obtain ⟨j, ls', g1, g2, g3⟩ := mem_summaryPoints hq
    have hij : (i : Int) * period = j * period := by omega
    have hij : (i : Int) = j := Int.eq_of_mul_eq_mul_right (by omega) hij
    have hij : i = j := by omega
    subst hij
    rw [h1] at g1
    injection g1 with g1
    subst g1
    have := nodup_key (hs.windows i ls h1).1 h2 g2 hk
    cases p; cases q
    simp only at this ht
    rw [this, ht]
  · intro p hp f hf g hg e
    obtain ⟨i, ls, h1, h2, h3⟩ := mem_summaryPoints hp
    obtain ⟨-, a⟩ := summary_field (hs.windows i ls h1) h2 hf
    obtain ⟨-, b⟩ := summary_field (hs.windows i ls h1) h2 hg
    rw [e, ← b] at a
    exact Prod.ext e a

/-- **C122 (one value).** In an archive of any number of levels (at least one), a series has at most one line with a time, and the line has each field at most once. -/
theorem C122_one_value {fo : FloatOps} {levels : List (Int × Int)} {pts outs : List Point} (A : Archives fo levels pts outs) (hpos : ∀ l ∈ levels, 0 < l.1) (hne : levels ≠ []) :
    (∀ p ∈ outs, ∀ q ∈ outs, p.line.key = q.line.key → p.ts = q.ts → p = q) ∧ ∀ p ∈ outs, ∀ f ∈ p.line.fields, ∀ g ∈ p.line.fields, f.1 = g.1 → f = g := by
  induction A with
  | none pts => exact absurd rfl hne
  | level period now0 rest pts order out E sums hp hs hr ih =>
    by_cases h : rest = []
    · subst h
      cases hr
      exact summary_unique (hpos (period, now0) List.mem_cons_self) hs
    · exact ih (fun l hl => hpos l (List.mem_cons_of_mem _ hl)) h

/-- The lines of an archive give no field of a point two values. -/
theorem archive_consistent {K V : Type} (R : Reading K V) {pts outs : List Point} (hR : R.Distinct pts) (hw : ∀ q ∈ outs, q.WF) (ho : ∀ a n, Occurs outs a n → Occurs pts a n)
    (h1 : ∀ p ∈ outs, ∀ q ∈ outs, p.line.key = q.line.key → p.ts = q.ts → p = q) (h2 : ∀ p ∈ outs, ∀ f ∈ p.line.fields, ∀ g ∈ p.line.fields, f.1 = g.1 → f = g)
    {lines : List Bytes} (hl : ∀ l ∈ lines, l ∈ outs.map Point.text) : Timestamped R.sets lines ∧ Consistent R.sets lines := by
  refine ⟨?_, ?_⟩
  · intro line hline t t'
    obtain ⟨q, hq, rfl⟩ := List.mem_map.1 (hl line hline)
    rw [R.points t q (hw q hq), R.points t' q (hw q hq)]
  · intro l hl1 l' hl2 t t' k v v' hv hv'
    obtain ⟨p, hp, rfl⟩ := List.mem_map.1 (hl l hl1)
    obtain ⟨q, hq, rfl⟩ := List.mem_map.1 (hl l' hl2)
    rw [R.points t p (hw p hp)] at hv
    rw [R.points t' q (hw q hq)] at hv'
    obtain ⟨f, hf, e⟩ := List.mem_map.1 hv
    obtain ⟨g, hg, e'⟩ := List.mem_map.1 hv'
    injection e with e1 e2
    injection e' with e1' e2'
    obtain ⟨a, b, c⟩ := hR _ _ _ _ (ho _ _ ⟨p, hp, rfl, f, hf, rfl⟩) (ho _ _ ⟨q, hq, rfl, g, hg, rfl⟩) _ _ (e1.trans e1'.symm)
    have := h1 p hp q hq a c
    subst this
    have := h2 p hp f hf g hg b
    rw [← e2, ← e2', this]

theorem aligned_window {p E T : Int} (hp : 0 < p) (hE : Aligned p E) (hT : Aligned p T) {i : Nat} {ts : Int} (h1 : E + i * p - p ≤ ts ∧ ts < E + i * p) (h2 : T - p ≤ ts ∧ ts < T) : T = E + i * p := by
  unfold Aligned at hE hT
  have e : (T - (E + i * p)) % p = 0 := by
    have : T - (E + i * p) = (T + zeroTimeOffset) - (E + zeroTimeOffset) - i * p := by omega
    rw [this, Int.sub_mul_emod_self_right, Int.sub_emod, hE, hT]
    simp
  have hd := Int.emod_add_mul_ediv (T - (E + i * p)) p
  rw [e] at hd
  have hq : (T - (E + i * p)) / p = 0 := by
    have hlo : -p < T - (E + i * p) := by omega
    have hhi : T - (E + i * p) < p := by omega
    generalize (T - (E + i * p)) / p = q at hd
    rcases Int.lt_trichotomy q 0 with h | h | h
    · have : p * q ≤ p * (-1) := Int.mul_le_mul_of_nonneg_left (by omega) (by omega)
      omega
    · exact h
    · have : p * 1 ≤ p * q := Int.mul_le_mul_of_nonneg_left (by omega) (by omega)
      omega
  rw [hq] at hd
  omega

/-- The fields of a single level of an archive, at a time: the aggregations of the samples in the window that ends then. -/
theorem level_fields {fo : FloatOps} {period now0 E : Int} (hper : 0 < period) {order : List Point} {sums : List (List SLine)} (hs : Summarised fo period now0 order E sums) (a n : Bytes) (T : Int) (v : Sample) :
    (∃ q ∈ summaryPoints E period sums, q.line.key = a ∧ q.ts = T ∧ (n, v) ∈ q.line.fields) ↔
      Aligned period T ∧ samplesOf a n (inWindow period T order) ≠ [] ∧ v = aggSample fo (samplesOf a n (inWindow period T order)) := by
  constructor
  · rintro ⟨q, hq, rfl, rfl, hf⟩
    obtain ⟨i, ls, h1, h2, h3⟩ := mem_summaryPoints hq
    obtain ⟨g1, g2⟩ := summary_field (hs.windows i ls h1) h2 hf
    rw [h3]
    refine ⟨?_, g1, g2⟩
    unfold Aligned
    rw [show E + i * period + zeroTimeOffset = E + zeroTimeOffset + i * period by omega, Int.add_mul_emod_self_right]
    exact hs.aligned
  · rintro ⟨hT, hne, hv⟩
    obtain ⟨x, hx⟩ := List.exists_mem_of_ne_nil _ hne
    obtain ⟨l, hl, hk, hfl⟩ := mem_samplesOf hx
    have hl' := hl
    unfold inWindow at hl'
    obtain ⟨p, hp, rfl⟩ := List.mem_map.1 hl'
    obtain ⟨hp, hr⟩ := List.mem_filter.1 hp
    have hr : T - period ≤ p.ts ∧ p.ts < T := by simpa using hr
    obtain ⟨i, hi, h1⟩ := hs.all p hp
    have e := aligned_window hper hs.aligned hT h1 hr
    have hsi := hs.windows i sums[i] (List.getElem?_eq_getElem hi)
    rw [← e] at hsi
    obtain ⟨r, hr', hrk⟩ := List.mem_map.1 ((hsi.2.1 a).2 (by rw [← hk]; exact List.mem_map_of_mem hl))
    refine ⟨⟨r, T⟩, ?_, hrk, rfl, ?_⟩
    · unfold summaryPoints
      refine List.mem_flatMap.2 ⟨(sums[i], i), List.mem_zipIdx_iff_getElem?.2 (List.getElem?_eq_getElem hi), List.mem_map.2 ⟨r, hr', ?_⟩⟩
      rw [e]
    · refine ((hsi.2.2 r hr').2 n v).2 ?_
      rw [hrk]
      exact ⟨hne, hv⟩

end Spout.Delivery
