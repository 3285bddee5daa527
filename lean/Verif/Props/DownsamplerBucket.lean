import Verif.Lemmas.Downsampler
import Verif.Props.Convert

set_option linter.unusedSimpArgs false

/-! # Aggregation of one sampling window (C28–C33) -/

namespace Spout
open Spec

/-- A concrete float implementation for the examples: whole numbers only. -/
def wholeFloats : FloatOps where
  F := Int
  parse := fun b => match toInt b with | .ok n => some n | .error _ => none
  step := fun average b count => average + (b - average) / count
  print := fun n => itoa (wrap64 n)

/-- The identity iteration order. -/
def idOrder : MapOrder := ⟨fun l => l, fun _ => List.Perm.refl _⟩

/-! ## C33: the output of a window -/

/-- **C33.** Whatever lines are added to a window, and in whatever order Go iterates over its
maps: nothing panics, and the text emitted is one row per series of the lines kept (those
without an error, and those of a series already present), with the fields in strictly
ascending name order, each aggregated from its samples, and the end of the window as time. -/
theorem C33_window_output (fo : FloatOps) (S : Sorter) (ts : Int) (lines : List Bytes) :
    ∃ b es, addAll (Bucket.new fo ts) lines = .ok (b, es) ∧ es.length = lines.length ∧
      ∃ rows0, Aggregates fo (keptFrom [] (lines.zip es)) rows0 ∧
        ∀ ord : MapOrder, ∃ rows : List Row, rows.Perm rows0 ∧
          b.bytes S ord = rows.flatMap (Row.text (wrap64 ts)) := by
  obtain ⟨b, es, h1, h2, h3, h4⟩ := addAll_holds (holds_new fo ts) lines
  refine ⟨b, es, h1, h2, b.lines.map (rowOf S), ?_, ?_⟩
  · exact rows_aggregate S b _ (by simpa using h4)
  · intro ord
    refine ⟨(ord.order b.lines).map (rowOf S), (ord.perm b.lines).map _, ?_⟩
    rw [bytes_rows, h3]; rfl

/-- **C33.** A line as a producer writes it is read as that series with those fields. -/
theorem C33_line_read (l : SLine) (h : l.WF) : asRead l.text = l := asRead_text l h

/-- **C33.** When no line is in error, all of them are aggregated. -/
theorem C33_all_kept (ls : List SLine) (h : ∀ l ∈ ls, l.WF) :
    ∀ es : List (List DErr), es.length = ls.length → (∀ e ∈ es, e = []) →
      keptFrom [] ((ls.map SLine.text).zip es) = ls := by
  suffices ∀ known, ∀ es : List (List DErr), es.length = ls.length → (∀ e ∈ es, e = []) →
      keptFrom known ((ls.map SLine.text).zip es) = ls from this []
  induction ls with
  | nil => intro known es h1 _; cases es <;> simp_all [keptFrom]
  | cons l ls ih =>
    intro known es h1 h2
    cases es with
    | nil => simp at h1
    | cons e es =>
      rw [List.map_cons, List.zip_cons_cons, keptFrom, h2 e (by simp), if_pos (Or.inl rfl),
        asRead_text l (h l (by simp)),
        ih (fun l hl => h l (by simp [hl])) _ es (by simpa using h1) (fun e he => h2 e (by simp [he]))]

/-- A small concrete window. -/
def exLines : List SLine :=
  [⟨b!"cpu,host=a", [(b!"y", ⟨false, b!"10i"⟩), (b!"x", ⟨true, b!"on"⟩)]⟩,
   ⟨b!"mem", [(b!"y", ⟨false, b!"1i"⟩)]⟩,
   ⟨b!"cpu,host=a", [(b!"x", ⟨true, b!"of\"f"⟩), (b!"y", ⟨false, b!"20i"⟩)]⟩]

example : ∃ b, addAll (Bucket.new wholeFloats 60) (exLines.map SLine.text) = .ok (b, [[], [], []]) ∧
    b.bytes insertionSorter idOrder = b!"cpu,host=a x=\"of\\\"f\",y=15i 60\nmem y=1i 60\n" :=
  ⟨_, rfl, by decide +kernel⟩

example : ∀ l ∈ exLines, l.WF := by
  have hk : ∀ (d : Byte) (s : Bytes), s ≠ [] → s.getLast? ≠ some BS → d ∉ s → Delimitable d s := by
    intro d s h1 h2 h3
    refine ⟨h1, h2, ?_⟩
    rintro pre post rfl
    simp at h3
  intro l hl
  simp only [exLines, List.mem_cons, List.not_mem_nil, or_false] at hl
  rcases hl with rfl | rfl | rfl <;>
  · refine ⟨hk _ _ (by decide) (by decide) (by decide), by decide, ?_⟩
    intro f hf
    simp only [List.mem_cons, List.not_mem_nil, or_false] at hf
    rcases hf with rfl | rfl <;>
    exact ⟨hk _ _ (by decide) (by decide) (by decide), by simp [Sample.WF]; decide⟩

/-! ## C28, C29: integer averages -/

/-- The integers among the samples after the first. -/
def laterInts (ss : List Sample) : List Int := ss.filterMap fun x => intLit x.content

theorem tdiv_between (x d : Int) (hd : 1 ≤ d) :
    (0 ≤ x → 0 ≤ x.tdiv d ∧ x.tdiv d ≤ x) ∧ (x ≤ 0 → x ≤ x.tdiv d ∧ x.tdiv d ≤ 0) := by
  have hpos : ∀ y : Int, 0 ≤ y → 0 ≤ y.tdiv d ∧ y.tdiv d ≤ y := by
    intro y hy
    refine ⟨Int.tdiv_nonneg hy (by omega), ?_⟩
    rw [Int.tdiv_eq_ediv_of_nonneg hy]
    exact Int.ediv_le_self d hy
  refine ⟨hpos x, ?_⟩
  intro hx
  have := hpos (-x) (by omega)
  rw [Int.neg_tdiv] at this
  omega

theorem runningMean_range (lo hi : Int) (hlo : -9223372036854775808 ≤ lo) (hhi : hi ≤ 9223372036854775807)
    (hs : hi - lo ≤ 9223372036854775807) (avg count : Int) (hc : 1 ≤ count) (ha : lo ≤ avg ∧ avg ≤ hi)
    (vs : List Int) (h : ∀ v ∈ vs, lo ≤ v ∧ v ≤ hi) :
    lo ≤ runningMean avg count vs ∧ runningMean avg count vs ≤ hi := by
  induction vs generalizing avg count with
  | nil => exact ha
  | cons s vs ih =>
    have hv := h s (by simp)
    have hw : wrap64 (s - avg) = s - avg := wrap64_of_inInt64 (by unfold InInt64; omega)
    have ht := tdiv_between (s - avg) (count + 1) (by omega)
    have hb : lo ≤ avg + (s - avg).tdiv (count + 1) ∧ avg + (s - avg).tdiv (count + 1) ≤ hi := by
      rcases Int.le_total 0 (s - avg) with hz | hz
      · have := ht.1 hz; omega
      · have := ht.2 hz; omega
    rw [runningMean, hw, wrap64_of_inInt64 (by unfold InInt64; omega)]
    exact ih _ _ (by omega) hb (fun v hv => h v (by simp [hv]))

theorem agg_within (fo : FloatOps) (s : Sample) (ss : List Sample) (v lo hi : Int)
    (hq : s.quoted = false) (hv : intLit s.content = some v)
    (h : ∀ x ∈ v :: laterInts ss, lo ≤ x ∧ x ≤ hi)
    (hlo : -9223372036854775808 ≤ lo) (hhi : hi ≤ 9223372036854775807) (hs : hi - lo < 2 ^ 63) :
    ∃ m, aggText fo (s :: ss) = itoa m ++ b!"i" ∧ lo ≤ m ∧ m ≤ hi := by
  refine ⟨runningMean v 1 (laterInts ss), ?_, ?_⟩
  · unfold aggText; simp only [hq, Bool.false_eq_true, if_false, hv]; rfl
  · exact runningMean_range lo hi hlo hhi (by omega) v 1 (by omega) (h v (by simp)) _
      (fun x hx => h x (by simp [hx]))

/-- Sum of a list. -/
def isum : List Int → Int
  | [] => 0
  | x :: xs => x + isum xs

/-- `m` is the mean of `xs`, rounded up or down to an integer. -/
def IsRoundedMean (m : Int) (xs : List Int) : Prop :=
  (m * xs.length - isum xs < xs.length) ∧ (isum xs - m * xs.length < xs.length)

theorem itoa_i_inj {a b : Int} (h : itoa a ++ b!"i" = itoa b ++ b!"i") : a = b :=
  decimal_unique (List.append_cancel_right h ▸ itoa_decimal a) (itoa_decimal b)

theorem tdiv_rem (x d : Int) (hd : 1 ≤ d) :
    ∃ r, d * x.tdiv d = x - r ∧ -(d - 1) ≤ r ∧ r ≤ d - 1 := by
  refine ⟨x.tmod d, ?_, ?_, ?_⟩
  · have := Int.mul_tdiv_add_tmod x d; omega
  · have := Int.lt_tmod_of_pos x (show 0 < d by omega); omega
  · have := Int.tmod_lt_of_pos x (show 0 < d by omega); omega

theorem runningMean_error (lo hi : Int) (hlo : -9223372036854775808 ≤ lo) (hhi : hi ≤ 9223372036854775807)
    (hs : hi - lo ≤ 9223372036854775807) (avg count sum : Int) (hc : 1 ≤ count) (ha : lo ≤ avg ∧ avg ≤ hi)
    (vs : List Int) (h : ∀ v ∈ vs, lo ≤ v ∧ v ≤ hi)
    (he : -(count * (count - 1)) ≤ 2 * (avg * count - sum) ∧ 2 * (avg * count - sum) ≤ count * (count - 1)) :
    -((count + vs.length) * (count + vs.length - 1)) ≤
        2 * (runningMean avg count vs * (count + vs.length) - (sum + isum vs)) ∧
      2 * (runningMean avg count vs * (count + vs.length) - (sum + isum vs)) ≤
        (count + vs.length) * (count + vs.length - 1) := by
  induction vs generalizing avg count sum with
  | nil => simpa [runningMean, isum] using he
  | cons s vs ih =>
    have hv := h s (by simp)
    have hw : wrap64 (s - avg) = s - avg := wrap64_of_inInt64 (by unfold InInt64; omega)
    have ht := tdiv_between (s - avg) (count + 1) (by omega)
    have hb : lo ≤ avg + (s - avg).tdiv (count + 1) ∧ avg + (s - avg).tdiv (count + 1) ≤ hi := by
      rcases Int.le_total 0 (s - avg) with hz | hz
      · have := ht.1 hz; omega
      · have := ht.2 hz; omega
    have hw2 : wrap64 (avg + (s - avg).tdiv (count + 1)) = avg + (s - avg).tdiv (count + 1) :=
      wrap64_of_inInt64 (by unfold InInt64; omega)
    obtain ⟨r, hr, hr1, hr2⟩ := tdiv_rem (s - avg) (count + 1) (by omega)
    have hE : (avg + (s - avg).tdiv (count + 1)) * (count + 1) - (sum + s) = avg * count - sum - r := by
      have : (s - avg).tdiv (count + 1) * (count + 1) = s - avg - r := by rw [Int.mul_comm]; exact hr
      rw [Int.add_mul, this, Int.mul_add]; omega
    have hq : (count + 1) * (count + 1 - 1) = count * (count - 1) + 2 * count := by
      rw [Int.add_sub_cancel, Int.add_mul, Int.mul_sub]; omega
    have := ih (avg + (s - avg).tdiv (count + 1)) (count + 1) (sum + s) (by omega) hb
      (fun v hv => h v (by simp [hv])) (by rw [hE, hq]; omega)
    have hn : count + ((s :: vs).length : Int) = count + 1 + vs.length := by
      simp only [List.length_cons, Int.natCast_add]; omega
    have hsum : sum + isum (s :: vs) = sum + s + isum vs := by simp only [isum]; omega
    simp only [runningMean, hw, hw2, hn, hsum]
    exact this

theorem agg_error (fo : FloatOps) (s : Sample) (ss : List Sample) (v lo hi : Int)
    (hq : s.quoted = false) (hv : intLit s.content = some v)
    (h : ∀ x ∈ v :: laterInts ss, lo ≤ x ∧ x ≤ hi)
    (hlo : -9223372036854775808 ≤ lo) (hhi : hi ≤ 9223372036854775807) (hs : hi - lo < 2 ^ 63) :
    ∃ m, aggText fo (s :: ss) = itoa m ++ b!"i" ∧
      let n : Int := (v :: laterInts ss).length
      2 * (m * n - isum (v :: laterInts ss)) ≤ n * (n - 1) ∧
      2 * (isum (v :: laterInts ss) - m * n) ≤ n * (n - 1) := by
  refine ⟨runningMean v 1 (laterInts ss), ?_, ?_⟩
  · unfold aggText; simp only [hq, Bool.false_eq_true, if_false, hv]; rfl
  · have := runningMean_error lo hi hlo hhi (by omega) v 1 v (by omega) (h v (by simp)) (laterInts ss)
      (fun x hx => h x (by simp [hx])) (by omega)
    have hn : (((v :: laterInts ss).length : Nat) : Int) = 1 + (laterInts ss).length := by
      simp only [List.length_cons, Int.natCast_add]; omega
    simp only [hn, isum]
    omega

/-- For one sample, and for two, the bound means the mean rounded towards the first. -/
example (m a b : Int) (h : 2 * (m * 2 - (a + b)) ≤ 2 * 1 ∧ 2 * ((a + b) - m * 2) ≤ 2 * 1) :
    IsRoundedMean m [a, b] := by simp only [IsRoundedMean, isum, List.length]; omega

/-- The integers 0, 1, …, n-1 as samples. -/
def ramp (n : Nat) : List Int := (List.range n).map Int.ofNat

theorem ramp_append (a b : Nat) : ramp (a + b) = ramp a ++ (List.range b).map (fun i => Int.ofNat (a + i)) := by
  simp [ramp, List.range_add]

theorem agg_tight (fo : FloatOps) (n : Nat) (hn : n < 2 ^ 63) (s : Sample) (ss : List Sample)
    (hq : s.quoted = false) (hv : intLit s.content = some 0)
    (h : laterInts ss = (ramp n).map (· + 1)) :
    aggText fo (s :: ss) = b!"0i" := by
  have key : ∀ (m k : Nat), k + m < 2 ^ 63 →
      runningMean 0 (k + 1 : Nat) ((List.range m).map fun i => (Int.ofNat (k + i) + 1)) = 0 := by
    intro m
    induction m with
    | zero => intro k _; rfl
    | succ m ih =>
      intro k hk
      rw [List.range_succ_eq_map, List.map_cons, List.map_map, runningMean]
      have hz : (wrap64 ((Int.ofNat (k + 0) + 1) - 0)).tdiv (((k + 1 : Nat) : Int) + 1) = 0 := by
        have : Int.ofNat (k + 0) = (k : Int) := rfl
        rw [this, wrap64_of_inInt64 (by unfold InInt64; omega)]
        exact Int.tdiv_eq_zero_of_lt (by omega) (by omega)
      rw [hz]
      have := ih (k + 1) (by omega)
      have hw : wrap64 (0 + 0) = 0 := by decide
      rw [hw]
      have hc : (((k + 1 : Nat) : Int) + 1) = ((k + 1 + 1 : Nat) : Int) := by omega
      rw [hc]
      have hf : ((fun i => (Int.ofNat (k + i) + 1)) ∘ Nat.succ) = fun i => (Int.ofNat (k + 1 + i) + 1) := by
        funext i
        show Int.ofNat (k + (i + 1)) + 1 = _
        rw [show k + (i + 1) = k + 1 + i by omega]
      rw [hf]; exact this
  unfold aggText
  simp only [hq, Bool.false_eq_true, if_false, hv]
  have := key n 0 (by omega)
  have hr : (ss.filterMap fun x => intLit x.content) = (List.range n).map fun i => (Int.ofNat (0 + i) + 1) := by
    have : (ss.filterMap fun x => intLit x.content) = laterInts ss := rfl
    rw [this, h, ramp, List.map_map]
    apply List.map_congr_left
    intro i _
    simp
  rw [hr]
  have h1 : ((0 + 1 : Nat) : Int) = 1 := rfl
  rw [h1] at this
  rw [this]
  decide +kernel

example : laterInts [⟨false, b!"1i"⟩, ⟨false, b!"2i"⟩, ⟨false, b!"3i"⟩, ⟨false, b!"4i"⟩] = (ramp 4).map (· + 1) := by
  decide +kernel

/-! ## One series with one field -/

theorem nodup_singleton_of_mem_iff {l : List α} {a : α} (hn : l.Nodup) (h : ∀ x, x ∈ l ↔ x = a) : l = [a] := by
  match l, hn, h with
  | [], _, h => exact absurd ((h a).2 rfl) (by simp)
  | [b], _, h => rw [(h b).1 (by simp)]
  | b :: c :: l, hn, h =>
    have h1 := (h b).1 (by simp)
    have h2 := (h c).1 (by simp)
    rw [List.nodup_cons] at hn
    exact absurd (by rw [h1, h2]; simp) hn.1

theorem pairwise_lt_nodup {l : List Bytes} (h : l.Pairwise (fun a b => bytesLt a b = true)) : l.Nodup := by
  apply List.Pairwise.imp _ h
  intro a b hab heq
  subst heq
  rw [bytesLt_irrefl] at hab
  cases hab

theorem samplesOf_single (k n m : Bytes) (ss : List Sample) :
    samplesOf k m (ss.map fun s => (⟨k, [(n, s)]⟩ : SLine)) = if n = m then ss else [] := by
  induction ss with
  | nil => simp [samplesOf]
  | cons s ss ih =>
    unfold samplesOf at ih ⊢
    rw [List.map_cons, List.flatMap_cons, ih]
    by_cases hm : n = m
    · simp [hm]
    · simp [hm]

theorem aggregates_single {fo : FloatOps} (k n : Bytes) (ss : List Sample) (hss : ss ≠ []) (rows : List Row)
    (h : Aggregates fo (ss.map fun s => ⟨k, [(n, s)]⟩) rows) : rows = [⟨k, [(n, aggText fo ss)]⟩] := by
  obtain ⟨h1, h2, h3⟩ := h
  have hk : rows.map (·.key) = [k] := by
    apply nodup_singleton_of_mem_iff h1
    intro x
    rw [h2]
    simp only [List.map_map, List.mem_map, Function.comp]
    constructor
    · rintro ⟨_, _, h⟩; exact h.symm
    · rintro rfl
      obtain ⟨s, hs⟩ := List.exists_mem_of_ne_nil ss hss
      exact ⟨s, hs, rfl⟩
  obtain ⟨r, rfl⟩ : ∃ r, rows = [r] := by
    match rows, hk with
    | [r], _ => exact ⟨r, rfl⟩
    | [], hk => simp at hk
    | _ :: _ :: _, hk => simp at hk
  simp only [List.map_cons, List.map_nil, List.cons.injEq, and_true] at hk
  obtain ⟨h4, h5⟩ := h3 r (by simp)
  have hsam : ∀ m, samplesOf r.key m (ss.map fun s => (⟨k, [(n, s)]⟩ : SLine)) = if n = m then ss else [] := by
    intro m
    rw [hk, samplesOf_single]
  have hf : r.fields = [(n, aggText fo ss)] := by
    have hnd : r.fields.Nodup := by
      have := pairwise_lt_nodup h4
      exact List.Pairwise.of_map (·.1) (fun a b hab heq => hab (by rw [heq])) this
    apply nodup_singleton_of_mem_iff hnd
    rintro ⟨m, v⟩
    rw [h5, hsam]
    by_cases hm : n = m
    · subst hm; simp [hss]
    · simp only [hm, if_false, ne_eq, not_true_eq_false, false_and, false_iff, Prod.mk.injEq, not_and]
      intro h; exact absurd h.symm hm
  obtain ⟨rk, rf⟩ := r
  simp only at hk hf
  rw [hk, hf]

theorem keptFrom_known (k n : Bytes) (known : List Bytes) (hk : k ∈ known) (ss : List Sample)
    (es : List (List DErr)) (hl : es.length = ss.length) (hw : ∀ s ∈ ss, (SLine.mk k [(n, s)]).WF) :
    keptFrom known ((ss.map fun s => (SLine.mk k [(n, s)]).text).zip es) = ss.map fun s => ⟨k, [(n, s)]⟩ := by
  induction ss generalizing known es with
  | nil => simp [keptFrom]
  | cons s ss ih =>
    match es, hl with
    | e :: es, hl =>
      rw [List.map_cons, List.zip_cons_cons, keptFrom, asRead_text _ (hw s (by simp)),
        if_pos (Or.inr hk), ih _ (by simp) es (by simpa using hl) (fun s hs => hw s (by simp [hs]))]
      rfl

/-- **C33, C28–C31.** For one series with one field: the emitted text is the single row with the
aggregate of all its samples, whatever they are (mismatching samples are handled by `aggText`). -/
theorem C33_single_field (fo : FloatOps) (S : Sorter) (ts : Int) (k n : Bytes) (ss : List Sample)
    (hss : ss ≠ []) (hwf : ∀ s ∈ ss, (SLine.mk k [(n, s)]).WF) :
    ∃ b es, addAll (Bucket.new fo ts) (ss.map fun s => (SLine.mk k [(n, s)]).text) = .ok (b, es) ∧
      ∀ ord, b.bytes S ord = Row.text (wrap64 ts) ⟨k, [(n, aggText fo ss)]⟩ := by
  obtain ⟨b, es, h1, h2, rows0, h3, h4⟩ := C33_window_output fo S ts (ss.map fun s => (SLine.mk k [(n, s)]).text)
  refine ⟨b, es, h1, ?_⟩
  have hkept : keptFrom [] ((ss.map fun s => (SLine.mk k [(n, s)]).text).zip es) =
      ss.map fun s => ⟨k, [(n, s)]⟩ := by
    match ss, hss, hwf, h1, h2 with
    | s :: ss, _, hwf, h1, h2 =>
      match es, h2 with
      | e :: es, h2 =>
        have he : e = [] := by
          rw [List.map_cons, addAll, addLine_eq, readLine_text _ (hwf s (by simp))] at h1
          simp only [Bucket.new, mget_nil, List.map_cons, List.map_nil, addItems, addItem, setField,
            List.append_nil, Option.toList_none, List.nil_append, if_true, Go.ok_bind] at h1
          revert h1
          generalize addAll _ _ = x
          cases x with
          | panic => intro h1; simp at h1
          | ok x => intro h1; simp at h1; exact h1.2.1
        rw [List.map_cons, List.zip_cons_cons, keptFrom, if_pos (Or.inl he), asRead_text _ (hwf s (by simp)),
          List.map_cons]
        congr 1
        have hlen : es.length = ss.length := by simpa using h2
        exact keptFrom_known k n _ (by simp) ss es hlen (fun s hs => hwf s (by simp [hs]))
  rw [hkept] at h3
  have hrows := aggregates_single k n ss hss rows0 h3
  intro ord
  obtain ⟨rows, hp, hb⟩ := h4 ord
  rw [hrows] at hp
  rw [List.perm_singleton.1 hp] at hb
  simpa using hb

theorem delimitable_of_not_mem {d : Byte} {s : Bytes} (h1 : s ≠ []) (h2 : s.getLast? ≠ some BS) (h3 : d ∉ s) :
    Delimitable d s := by
  refine ⟨h1, h2, ?_⟩
  rintro pre post rfl
  simp at h3

/-- A window that receives, in this order, lines of the series `k` with the single field `n` and these
samples emits exactly one line, with the value `v` for that field. -/
def Emits (fo : FloatOps) (k n : Bytes) (ss : List Sample) (v : Bytes) : Prop :=
  ∀ (S : Sorter) (ts : Int), InInt64 ts →
    ∃ b es, addAll (Bucket.new fo ts) (ss.map fun s => (SLine.mk k [(n, s)]).text) = .ok (b, es) ∧
      ∀ ord : MapOrder, b.bytes S ord = Row.text ts ⟨k, [(n, v)]⟩

/-- The lines are well-formed. -/
def WFSamples (k n : Bytes) (ss : List Sample) : Prop := ∀ s ∈ ss, (SLine.mk k [(n, s)]).WF

theorem emits_agg (fo : FloatOps) (k n : Bytes) (ss : List Sample) (hss : ss ≠ []) (h : WFSamples k n ss) :
    Emits fo k n ss (aggText fo ss) := by
  intro S ts hts
  obtain ⟨b, es, h1, h2⟩ := C33_single_field fo S ts k n ss hss h
  exact ⟨b, es, h1, fun ord => by rw [h2 ord, wrap64_of_inInt64 hts]⟩

theorem emits_unique {fo : FloatOps} {k n : Bytes} {ss : List Sample} {v v' : Bytes}
    (h : Emits fo k n ss v) (h' : Emits fo k n ss v') : v = v' := by
  obtain ⟨b, es, h1, h2⟩ := h insertionSorter 0 (by decide)
  obtain ⟨b', es', h1', h2'⟩ := h' insertionSorter 0 (by decide)
  rw [h1] at h1'
  obtain ⟨rfl, rfl⟩ := Prod.mk.inj (Go.ok.inj h1')
  have := (h2 idOrder).symm.trans (h2' idOrder)
  simp only [Row.text, fieldsText, List.map_cons, List.map_nil, List.intersperse_singleton, List.flatten_cons,
    List.flatten_nil, List.append_nil, List.cons_ne_nil, if_false] at this
  have h3 := List.append_cancel_right (List.append_cancel_right this)
  have h4 := List.append_cancel_right (List.append_cancel_left h3)
  exact List.append_cancel_left h4

/-- The well-formed one-field lines of the examples: series `m`, field `f`, bare numbers. -/
theorem wfSamples_ints (ss : List Bytes)
    (h : ∀ b ∈ ss, b ≠ [] ∧ COMMA ∉ b ∧ BS ∉ b ∧ b.head? ≠ some DQ) :
    WFSamples b!"m" b!"f" (ss.map fun b => ⟨false, b⟩) := by
  intro s hs
  obtain ⟨b, hb, rfl⟩ := List.mem_map.1 hs
  refine ⟨delimitable_of_not_mem (s := b!"m") (by decide) (by decide) (by decide), by simp, ?_⟩
  intro f hf
  rw [List.mem_singleton] at hf
  subst hf
  refine ⟨delimitable_of_not_mem (s := b!"f") (by decide) (by decide) (by decide), ?_⟩
  simpa [Sample.WF] using h b hb

/-! ## C28, C29: the emitted integer -/

/-- The full C28: a field whose first sample of the period is an integer is emitted as an integer between
the smallest and the largest of its integer samples. -/
def AverageWithinSamples : Prop :=
  ∀ (fo : FloatOps) (k n : Bytes) (s : Sample) (ss : List Sample) (v lo hi : Int), WFSamples k n (s :: ss) →
    s.quoted = false → intLit s.content = some v → (∀ x ∈ v :: laterInts ss, lo ≤ x ∧ x ≤ hi ∧ InInt64 x) →
    ∃ m, Emits fo k n (s :: ss) (itoa m ++ b!"i") ∧ lo ≤ m ∧ m ≤ hi

/-- **C28 is false of the code**: the difference of two samples is computed in int64 and may
wrap.  The samples 9000000000000000000i and -9000000000000000000i are emitted as
-9223372036854775808i, which is less than both. -/
theorem C28_average_outside_samples : ¬ AverageWithinSamples := by
  intro h
  have hw : WFSamples b!"m" b!"f" [⟨false, b!"9000000000000000000i"⟩, ⟨false, b!"-9000000000000000000i"⟩] :=
    wfSamples_ints [b!"9000000000000000000i", b!"-9000000000000000000i"] (by decide)
  obtain ⟨m, h1, h2, h3⟩ := h wholeFloats b!"m" b!"f" ⟨false, b!"9000000000000000000i"⟩
    [⟨false, b!"-9000000000000000000i"⟩]
    9000000000000000000 (-9000000000000000000) 9000000000000000000 hw rfl (by decide +kernel) (by
      have : (9000000000000000000 : Int) :: laterInts [⟨false, b!"-9000000000000000000i"⟩] =
        [9000000000000000000, -9000000000000000000] := by decide +kernel
      rw [this]
      intro x hx
      simp at hx
      rcases hx with rfl | rfl <;> exact ⟨by decide, by decide, by decide⟩)
  obtain ⟨b, es, e1, e2⟩ := h1 insertionSorter 60 (by decide)
  obtain ⟨b', e3, e4⟩ : ∃ b, addAll (Bucket.new wholeFloats 60) [b!"m f=9000000000000000000i", b!"m f=-9000000000000000000i"] =
      .ok (b, [[], []]) ∧ b.bytes insertionSorter idOrder = b!"m f=-9223372036854775808i 60\n" := ⟨_, rfl, by decide +kernel⟩
  have e5 : addAll (Bucket.new wholeFloats 60) [b!"m f=9000000000000000000i", b!"m f=-9000000000000000000i"] =
    .ok (b, es) := e1
  rw [e3] at e5
  obtain ⟨rfl, rfl⟩ := Prod.mk.inj (Go.ok.inj e5)
  have e6 := e2 idOrder
  rw [e4] at e6
  have e7 : b!"m f=-9223372036854775808i 60\n" =
      Row.text 60 ⟨b!"m", [(b!"f", itoa (-9223372036854775808) ++ b!"i")]⟩ := by decide +kernel
  rw [e7] at e6
  simp only [Row.text, fieldsText, List.map_cons, List.map_nil, List.intersperse_singleton, List.flatten_cons,
    List.flatten_nil, List.append_nil, List.cons_ne_nil, if_false] at e6
  have h3 := List.append_cancel_right (List.append_cancel_right e6)
  have h4 := List.append_cancel_right (List.append_cancel_left h3)
  have := itoa_i_inj (List.append_cancel_left h4)
  omega

/-- **C28 (partial).** If largest and smallest sample differ by less than 2^63, the emitted
integer lies between them.  Missing: larger spreads, where the code's int64
subtraction wraps (`C28_average_outside_samples`). -/
theorem C28_average_within_samples_partial (fo : FloatOps) (k n : Bytes) (s : Sample) (ss : List Sample)
    (v lo hi : Int) (hw : WFSamples k n (s :: ss)) (hq : s.quoted = false) (hv : intLit s.content = some v)
    (h : ∀ x ∈ v :: laterInts ss, lo ≤ x ∧ x ≤ hi)
    (hlo : -9223372036854775808 ≤ lo) (hhi : hi ≤ 9223372036854775807) (hs : hi - lo < 2 ^ 63) :
    ∃ m, Emits fo k n (s :: ss) (itoa m ++ b!"i") ∧ lo ≤ m ∧ m ≤ hi := by
  obtain ⟨m, h1, h2⟩ := agg_within fo s ss v lo hi hq hv h hlo hhi hs
  exact ⟨m, h1 ▸ emits_agg fo k n (s :: ss) (by simp) hw, h2⟩

example : ∃ m, Emits wholeFloats b!"m" b!"f" [⟨false, b!"7i"⟩, ⟨false, b!"-3i"⟩, ⟨false, b!"x"⟩] (itoa m ++ b!"i") ∧
    -3 ≤ m ∧ m ≤ 7 :=
  C28_average_within_samples_partial _ _ _ _ _ 7 (-3) 7
    (wfSamples_ints [b!"7i", b!"-3i", b!"x"] (by decide)) rfl (by decide +kernel)
    (by have : (7 : Int) :: laterInts [⟨false, b!"-3i"⟩, ⟨false, b!"x"⟩] = [7, -3] := by decide +kernel
        rw [this]; simp)
    (by decide) (by decide) (by decide)

/-- The full C29 (already for samples between 0 and 2^62). -/
def IntegerFieldsAveraged : Prop :=
  ∀ (fo : FloatOps) (k n : Bytes) (s : Sample) (ss : List Sample) (v : Int), WFSamples k n (s :: ss) →
    s.quoted = false → intLit s.content = some v → (∀ x ∈ v :: laterInts ss, 0 ≤ x ∧ x < 2 ^ 62) →
    ∃ m, Emits fo k n (s :: ss) (itoa m ++ b!"i") ∧ IsRoundedMean m (v :: laterInts ss)

/-- **C29.** The error bound is attained for every number of samples: 0, 1, …, n, whose mean is n/2,
is emitted as 0. -/
theorem C29_error_bound_tight (fo : FloatOps) (k n : Bytes) (c : Nat) (hc : c < 2 ^ 63) (s : Sample) (ss : List Sample)
    (hw : WFSamples k n (s :: ss)) (hq : s.quoted = false) (hv : intLit s.content = some 0)
    (h : laterInts ss = (ramp c).map (· + 1)) :
    Emits fo k n (s :: ss) b!"0i" :=
  agg_tight fo c hc s ss hq hv h ▸ emits_agg fo k n (s :: ss) (by simp) hw

/-- **C29 is false of the code**: rounding in the incremental formula accumulates.  The samples
0, 1, 2 have the mean 1 exactly; the value emitted is 0. -/
theorem C29_not_the_mean : ¬ IntegerFieldsAveraged := by
  intro h
  have hw : WFSamples b!"m" b!"f" [⟨false, b!"0i"⟩, ⟨false, b!"1i"⟩, ⟨false, b!"2i"⟩] :=
    wfSamples_ints [b!"0i", b!"1i", b!"2i"] (by decide)
  have hl : (0 : Int) :: laterInts [⟨false, b!"1i"⟩, ⟨false, b!"2i"⟩] = [0, 1, 2] := by decide +kernel
  obtain ⟨m, h1, h2⟩ := h wholeFloats b!"m" b!"f" ⟨false, b!"0i"⟩ [⟨false, b!"1i"⟩, ⟨false, b!"2i"⟩] 0 hw rfl
    (by decide +kernel) (by rw [hl]; decide)
  rw [hl] at h2
  have h5 := C29_error_bound_tight wholeFloats b!"m" b!"f" 2 (by decide) ⟨false, b!"0i"⟩
    [⟨false, b!"1i"⟩, ⟨false, b!"2i"⟩] hw rfl (by decide +kernel) (by decide +kernel)
  have h6 : itoa 0 ++ b!"i" = b!"0i" := by decide +kernel
  have := itoa_i_inj ((emits_unique h1 h5).trans h6.symm)
  subst this
  revert h2; unfold IsRoundedMean; decide

/-- **C29 (partial).** With n samples of spread less than 2^63 the emitted integer differs from the mean
by at most (n-1)/2.  Missing: the mean rounded to an integer, which is false of the code. -/
theorem C29_error_bound_partial (fo : FloatOps) (k n : Bytes) (s : Sample) (ss : List Sample) (v lo hi : Int)
    (hw : WFSamples k n (s :: ss)) (hq : s.quoted = false) (hv : intLit s.content = some v)
    (h : ∀ x ∈ v :: laterInts ss, lo ≤ x ∧ x ≤ hi)
    (hlo : -9223372036854775808 ≤ lo) (hhi : hi ≤ 9223372036854775807) (hs : hi - lo < 2 ^ 63) :
    ∃ m, Emits fo k n (s :: ss) (itoa m ++ b!"i") ∧
      let c : Int := (v :: laterInts ss).length
      2 * (m * c - isum (v :: laterInts ss)) ≤ c * (c - 1) ∧
      2 * (isum (v :: laterInts ss) - m * c) ≤ c * (c - 1) := by
  obtain ⟨m, h1, h2⟩ := agg_error fo s ss v lo hi hq hv h hlo hhi hs
  exact ⟨m, h1 ▸ emits_agg fo k n (s :: ss) (by simp) hw, h2⟩

/-! ## C30: strings and other tokens -/

/-- The full C30, for one series and one field whose first sample is a string or a token that is
not a number. -/
def LastValueEmitted : Prop :=
  ∀ (fo : FloatOps) (S : Sorter) (ts : Int) (k n : Bytes) (s : Sample) (ss : List Sample),
    InInt64 ts → (∀ x ∈ s :: ss, (SLine.mk k [(n, x)]).WF) →
    (s.quoted = true ∨ intLit s.content = none ∧ fo.parse s.content = none) →
    ∃ b es, addAll (Bucket.new fo ts) ((s :: ss).map fun x => (SLine.mk k [(n, x)]).text) = .ok (b, es) ∧
      ∀ ord, b.bytes S ord = Row.text ts ⟨k, [(n, ((s :: ss).getLast (by simp)).text)]⟩

/-- **C30 is false of the code** when a field changes between string and non-string: the quotes of
the first sample's kind are used.  After `m b=t` and `m b="x y"` the line `m b=x y 60` is
emitted, which is not valid line protocol. -/
theorem C30_kind_of_first_sample : ¬ LastValueEmitted := by
  intro h
  obtain ⟨b, es, h1, h2⟩ := h wholeFloats insertionSorter 60 b!"m" b!"b" ⟨false, b!"t"⟩ [⟨true, b!"x y"⟩]
    (by decide) (by
      intro x hx
      refine ⟨delimitable_of_not_mem (s := b!"m") (by decide) (by decide) (by decide), by simp, ?_⟩
      intro f hf
      rw [List.mem_singleton] at hf
      subst hf
      refine ⟨delimitable_of_not_mem (s := b!"b") (by decide) (by decide) (by decide), ?_⟩
      simp only [List.mem_cons, List.not_mem_nil, or_false] at hx
      rcases hx with rfl | rfl <;> simp [Sample.WF] <;> decide)
    (Or.inr (by decide +kernel))
  have h3 : ∃ b, addAll (Bucket.new wholeFloats 60) [b!"m b=t", b!"m b=\"x y\""] = .ok (b, [[], []]) ∧
      b.bytes insertionSorter idOrder = b!"m b=x y 60\n" := ⟨_, rfl, by decide +kernel⟩
  obtain ⟨b', h3, h4⟩ := h3
  have h5 : addAll (Bucket.new wholeFloats 60) [b!"m b=t", b!"m b=\"x y\""] = .ok (b, es) := h1
  rw [h3] at h5
  simp only [Go.ok.injEq, Prod.mk.injEq] at h5
  have h6 := h2 idOrder
  rw [← h5.1, h4] at h6
  revert h6
  decide +kernel

/-- **C30 (partial).** If the samples of the period are all quoted, or all bare tokens of which the
first is not a number, the value emitted is that of the last sample, as it was written.
Missing: fields that change between quoted and bare within a period (false of the code). -/
theorem C30_last_value_partial (fo : FloatOps) (S : Sorter) (ts : Int) (k n : Bytes) (s : Sample)
    (ss : List Sample) (hts : InInt64 ts) (hwf : ∀ x ∈ s :: ss, (SLine.mk k [(n, x)]).WF)
    (hkind : s.quoted = true ∨ intLit s.content = none ∧ fo.parse s.content = none)
    (hsame : ∀ x ∈ ss, x.quoted = s.quoted) :
    ∃ b es, addAll (Bucket.new fo ts) ((s :: ss).map fun x => (SLine.mk k [(n, x)]).text) = .ok (b, es) ∧
      ∀ ord, b.bytes S ord = Row.text ts ⟨k, [(n, ((s :: ss).getLast (by simp)).text)]⟩ := by
  obtain ⟨b, es, h1, h2⟩ := C33_single_field fo S ts k n (s :: ss) (by simp) hwf
  refine ⟨b, es, h1, ?_⟩
  intro ord
  rw [h2 ord, wrap64_of_inInt64 hts]
  have hl : ((s :: ss).getLast (by simp)).quoted = s.quoted := by
    have := List.getLast_mem (l := s :: ss) (by simp)
    rcases List.mem_cons.1 this with h | h
    · rw [h]
    · exact hsame _ h
  have : aggText fo (s :: ss) = ((s :: ss).getLast (by simp)).text := by
    unfold aggText Sample.text
    rw [hl]
    by_cases hq : s.quoted = true
    · simp only [hq, if_true]
    · have hk2 := hkind.resolve_left hq
      simp only [hq, hk2.1, hk2.2]
  rw [this]

example : ∃ b, addAll (Bucket.new wholeFloats 60) [b!"m b=true", b!"m b=false", b!"m b=t"] = .ok (b, [[], [], []]) ∧
    b.bytes insertionSorter idOrder = b!"m b=t 60\n" := ⟨_, rfl, by decide +kernel⟩
example : intLit b!"true" = none ∧ wholeFloats.parse b!"true" = none := by decide +kernel

/-! ## C31: the first value fixes the type -/

/-- Does a sample fit a field whose first sample was `first`?  (The error reported if not.) -/
def mismatch (fo : FloatOps) (first s : Sample) : Option DErr :=
  if first.quoted then none
  else match intLit first.content with
    | some _ => if intLit s.content = none then some .wrongInt else none
    | none => match fo.parse first.content with
      | some _ => match fo.parse s.content with | none => some .wrongFloat | some _ => none
      | none => none

/-- The full C31: a sample that is not an integer (in particular: a string) is reported when the field
holds an integer. -/
def TypeFixed : Prop :=
  ∀ (fo : FloatOps) (k n : Bytes) (first s : Sample),
    (∀ x ∈ [first, s], (SLine.mk k [(n, x)]).WF) → first.quoted = false → (intLit first.content).isSome →
    (s.quoted = true ∨ intLit s.content = none) →
    ∃ b e1 e2, addAll (Bucket.new fo 0) [(SLine.mk k [(n, first)]).text, (SLine.mk k [(n, s)]).text] = .ok (b, [e1, e2]) ∧
      e2 ≠ []

/-- **C31 is false of the code** for strings that look like integers: the quotes are removed before the
value is compared with the type of the field, so `m f="5i"` after `m f=1i` counts as the integer 5. -/
theorem C31_quoted_integer_accepted : ¬ TypeFixed := by
  intro h
  obtain ⟨b, e1, e2, h1, h2⟩ := h wholeFloats b!"m" b!"f" ⟨false, b!"1i"⟩ ⟨true, b!"5i"⟩
    (by
      intro x hx
      refine ⟨delimitable_of_not_mem (s := b!"m") (by decide) (by decide) (by decide), by simp, ?_⟩
      intro f hf
      rw [List.mem_singleton] at hf
      subst hf
      refine ⟨delimitable_of_not_mem (s := b!"f") (by decide) (by decide) (by decide), ?_⟩
      simp only [List.mem_cons, List.not_mem_nil, or_false] at hx
      rcases hx with rfl | rfl <;> simp [Sample.WF] <;> decide)
    rfl (by decide +kernel) (Or.inl rfl)
  obtain ⟨b', h3, -⟩ : ∃ b, addAll (Bucket.new wholeFloats 0) [b!"m f=1i", b!"m f=\"5i\""] = .ok (b, [[], []]) ∧
      b.bytes insertionSorter idOrder = b!"m f=3i 0\n" := ⟨_, rfl, by decide +kernel⟩
  have h5 : addAll (Bucket.new wholeFloats 0) [b!"m f=1i", b!"m f=\"5i\""] = .ok (b, [e1, e2]) := h1
  rw [h3] at h5
  simp at h5
  exact h2 h5.2.2

theorem update_mismatch {fo : FloatOps} (s0 : Sample) (ss : List Sample) (w : FieldValue fo)
    (h : fieldVal fo (s0 :: ss) = some w) (c : Sample) :
    (w.update c.content).2 = mismatch fo s0 c ∧
      (mismatch fo s0 c ≠ none → (w.update c.content).1 = w) := by
  unfold fieldVal at h
  simp only [List.foldl_cons, valStep] at h
  unfold mismatch
  by_cases hq : s0.quoted = true
  · simp only [hq, if_true] at h ⊢
    rw [foldl_str] at h
    cases h
    exact ⟨rfl, fun h => absurd rfl h⟩
  · simp only [hq, Bool.false_eq_true, if_false] at h ⊢
    unfold newFieldValue at h
    rw [intText_eq] at h
    cases hi : intLit s0.content with
    | some iv =>
      simp only [hi] at h ⊢
      rw [foldl_int] at h
      cases h
      unfold FieldValue.update
      rw [intText_eq]
      cases hc : intLit c.content with
      | none => simp [hc]
      | some x => simp [hc]
    | none =>
      simp only [hi] at h ⊢
      cases hp : fo.parse s0.content with
      | some fv =>
        simp only [hp] at h ⊢
        rw [foldl_float] at h
        cases h
        unfold FieldValue.update
        cases hc : fo.parse c.content with
        | none => simp [hc]
        | some x => simp [hc]
      | none =>
        simp only [hp] at h ⊢
        rw [foldl_raw] at h
        cases h
        exact ⟨rfl, fun h => absurd rfl h⟩

/-- The errors a line's fields must produce, given the lines aggregated before: one for each field whose
sample does not fit the first sample of that field. -/
def mismatches (fo : FloatOps) (before : List SLine) (l : SLine) : List DErr :=
  l.fields.flatMap fun f =>
    match samplesOf l.key f.1 before with
    | [] => []
    | first :: _ => (mismatch fo first f.2).toList

theorem addItems_errs {fo : FloatOps} (k : Bytes) (before : List SLine) (fields : List (Bytes × Sample))
    (hnd : (fields.map (·.1)).Nodup) (fs : Fields fo)
    (hfs : ∀ f ∈ fields, mget fs f.1 = fieldVal fo (samplesOf k f.1 before)) :
    (addItems fs (fields.map fun f => ⟨f.1, f.2.quoted, f.2.content⟩)).2 = mismatches fo before ⟨k, fields⟩ := by
  induction fields generalizing fs with
  | nil => rfl
  | cons f fields ih =>
    rw [List.map_cons, List.nodup_cons] at hnd
    have hf := hfs f (by simp)
    rw [List.map_cons, addItems]
    simp only []
    rw [ih hnd.2]
    · unfold mismatches
      rw [List.flatMap_cons]
      congr 1
      unfold addItem setField
      cases hs : samplesOf k f.1 before with
      | nil =>
        rw [hs] at hf
        simp [hf, fieldVal]
      | cons s0 ss =>
        rw [hs] at hf
        obtain ⟨w, hw⟩ := Option.isSome_iff_exists.1 ((fieldVal_isSome fo (s0 :: ss)).2 (by simp))
        rw [hf, hw]
        simp only []
        rw [(update_mismatch s0 ss w hw f.2).1]
    · intro g hg
      rw [addItem_mget]
      rw [if_neg]
      · exact hfs g (by simp [hg])
      · intro heq
        have heq : g.1 = f.1 := heq.symm
        exact hnd.1 (heq ▸ List.mem_map_of_mem (f := (·.1)) hg)

/-- **C31 (partial).** In a window that has aggregated the lines `kept`, a well-formed line with distinct
field names reports exactly its mismatching samples.  Missing: strings whose text is
an integer, which the code does not report. -/
theorem C31_mismatch_reported_partial (fo : FloatOps) (ts : Int) (lines : List Bytes) (b : Bucket fo)
    (es : List (List DErr)) (hadd : addAll (Bucket.new fo ts) lines = .ok (b, es))
    (l : SLine) (hl : l.WF) (hnd : (l.fields.map (·.1)).Nodup) :
    ∃ b', b.addLine l.text = .ok (b', mismatches fo (keptFrom [] (lines.zip es)) l) := by
  obtain ⟨b1, es1, h1, h2, h3, h4⟩ := addAll_holds (holds_new fo ts) lines
  rw [hadd] at h1
  obtain ⟨rfl, rfl⟩ := Prod.mk.inj (Go.ok.inj h1)
  simp only [List.nil_append, List.map_nil] at h4
  rw [addLine_eq, readLine_text l hl]
  simp only [Option.toList_none, List.append_nil]
  cases hm : mget b.lines l.key with
  | some fs =>
    simp only []
    rw [addItems_errs l.key _ l.fields hnd fs (fun f _ => h4.vals _ _ _ hm)]
    exact ⟨_, rfl⟩
  | none =>
    have hnot : l.key ∉ (keptFrom [] (lines.zip es)).map (·.key) := by
      rw [← h4.keys]; exact (mget_eq_none _ _).1 hm
    have he := addItems_errs (fo := fo) l.key (keptFrom [] (lines.zip es)) l.fields hnd []
      (fun f _ => by rw [samplesOf_not_mem _ _ _ hnot]; rfl)
    have hz : mismatches fo (keptFrom [] (lines.zip es)) l = [] := by
      unfold mismatches
      rw [List.flatMap_eq_nil_iff]
      intro f _
      rw [samplesOf_not_mem _ _ _ hnot]
    rw [hz] at he ⊢
    simp only [he, if_true]
    exact ⟨_, rfl⟩

theorem agg_mismatch (fo : FloatOps) (first : Sample) (ss rest : List Sample) (s : Sample)
    (h : mismatch fo first s ≠ none) :
    aggText fo (first :: (ss ++ s :: rest)) = aggText fo (first :: (ss ++ rest)) := by
  unfold mismatch at h
  unfold aggText
  by_cases hq : first.quoted = true
  · simp [hq] at h
  · simp only [hq, Bool.false_eq_true, if_false] at h ⊢
    cases hi : intLit first.content with
    | some iv =>
      simp only [hi] at h ⊢
      cases hs : intLit s.content with
      | some x => simp [hs] at h
      | none => simp [List.filterMap_append, hs]
    | none =>
      simp only [hi] at h ⊢
      cases hp : fo.parse first.content with
      | some fv =>
        simp only [hp] at h ⊢
        cases hs : fo.parse s.content with
        | some x => simp [hs] at h
        | none => simp [List.filterMap_append, hs]
      | none => simp [hp] at h

/-- **C31.** A mismatching sample has no influence on the emitted value, wherever in the period it comes. -/
theorem C31_mismatch_ignored (fo : FloatOps) (k n : Bytes) (first : Sample) (ss rest : List Sample) (s : Sample)
    (hw : WFSamples k n (first :: (ss ++ s :: rest))) (h : mismatch fo first s ≠ none) (v : Bytes) :
    Emits fo k n (first :: (ss ++ s :: rest)) v ↔ Emits fo k n (first :: (ss ++ rest)) v := by
  have hw2 : WFSamples k n (first :: (ss ++ rest)) := by
    intro x hx
    apply hw
    simp only [List.mem_cons, List.mem_append] at hx ⊢
    rcases hx with h | h | h
    · exact Or.inl h
    · exact Or.inr (Or.inl h)
    · exact Or.inr (Or.inr (Or.inr h))
  have h1 := emits_agg fo k n _ (by simp) hw
  have h2 := emits_agg fo k n _ (by simp) hw2
  rw [agg_mismatch fo first ss rest s h] at h1
  exact ⟨fun h => emits_unique h h1 ▸ h2, fun h => emits_unique h h2 ▸ h1⟩

/-- **C31.** In particular for an integer field: after any integer samples, any bare or quoted sample that
is not decimal digits followed by `i` is reported and does not change what is emitted. -/
theorem C31_integer_field (fo : FloatOps) (k n : Bytes) (first s : Sample) (v : Int)
    (hw : WFSamples k n [first, s]) (hq : first.quoted = false)
    (hv : intLit first.content = some v) (hs : intLit s.content = none) :
    Emits fo k n [first, s] (itoa v ++ b!"i") ∧
    ∀ ts, ∃ b, addAll (Bucket.new fo ts) [(SLine.mk k [(n, first)]).text, (SLine.mk k [(n, s)]).text] =
      .ok (b, [[], [.wrongInt]]) := by
  have hm : mismatch fo first s = some .wrongInt := by simp [mismatch, hq, hv, hs]
  refine ⟨?_, ?_⟩
  · refine (C31_mismatch_ignored fo k n first [] [] s hw (by simp [hm]) _).2 ?_
    have := emits_agg fo k n [first] (by simp) (fun x hx => hw x (by simp at hx; simp [hx]))
    have h2 : aggText fo [first] = itoa v ++ b!"i" := by simp [aggText, hq, hv, runningMean]
    rwa [h2] at this
  · intro ts
    obtain ⟨b1, h1⟩ := C31_mismatch_reported_partial fo ts [] (Bucket.new fo ts) [] rfl (SLine.mk k [(n, first)])
      (hw first (by simp)) (by simp)
    have hz : mismatches fo (keptFrom [] (([] : List Bytes).zip [])) (SLine.mk k [(n, first)]) = [] := by
      simp [mismatches, keptFrom, samplesOf]
    rw [hz] at h1
    have ha : addAll (Bucket.new fo ts) [(SLine.mk k [(n, first)]).text] = .ok (b1, [[]]) := by
      simp [addAll, h1]
    obtain ⟨b2, h2⟩ := C31_mismatch_reported_partial fo ts _ b1 [[]] ha (SLine.mk k [(n, s)])
      (hw s (by simp)) (by simp)
    have hk : keptFrom [] ([(SLine.mk k [(n, first)]).text].zip [([] : List DErr)]) = [SLine.mk k [(n, first)]] :=
      C33_all_kept [SLine.mk k [(n, first)]] (by simpa using hw first (by simp)) [[]] rfl (by simp)
    have hz2 : mismatches fo [SLine.mk k [(n, first)]] (SLine.mk k [(n, s)]) = [.wrongInt] := by
      simp [mismatches, samplesOf, hm]
    rw [hk, hz2] at h2
    exact ⟨b2, by simp [addAll, h1, h2]⟩

example : ∃ b, addAll (Bucket.new wholeFloats 0) [b!"m f=1i", b!"m f=5", b!"m f=\"x\"", b!"m f=3i"] =
      .ok (b, [[], [.wrongInt], [.wrongInt], []]) ∧
    b.bytes insertionSorter idOrder = b!"m f=2i 0\n" := ⟨_, rfl, by decide +kernel⟩

/-! ## C32: invalid lines -/

/-- The full C32. -/
def InvalidLinesIgnored : Prop :=
  ∀ (fo : FloatOps) (S : Sorter) (ord : MapOrder) (ts : Int) (lines : List Bytes) (b b' : Bucket fo)
    (es : List (List DErr)) (line : Bytes) (e : List DErr),
    addAll (Bucket.new fo ts) lines = .ok (b, es) → b.addLine line = .ok (b', e) → e ≠ [] →
    b'.bytes S ord = b.bytes S ord

/-- **C32 is false of the code** for a series already present: the fields before the invalid one are
aggregated.  After `a f=1i`, the invalid line `a f=3i,g` changes the output to `a f=2i`. -/
theorem C32_invalid_line_counted : ¬ InvalidLinesIgnored := by
  intro h
  obtain ⟨b, b', h1, h2, h3, h4⟩ : ∃ b b', addAll (Bucket.new wholeFloats 0) [b!"a f=1i"] = .ok (b, [[]]) ∧
      b.addLine b!"a f=3i,g" = .ok (b', [.invalidField]) ∧
      b.bytes insertionSorter idOrder = b!"a f=1i 0\n" ∧
      b'.bytes insertionSorter idOrder = b!"a f=2i 0\n" := ⟨_, _, rfl, rfl, by decide +kernel, by decide +kernel⟩
  have := h wholeFloats insertionSorter idOrder 0 _ b b' _ _ _ h1 h2 (by simp)
  rw [h3, h4] at this
  revert this
  decide +kernel

/-- **C32 (partial).** A line reported as invalid leaves the window unchanged if its series is not yet
present, or if its first field is already malformed; and it never affects any other
series.  Missing: lines of a known series with a valid field before the invalid one, whose valid
fields the code aggregates. -/
theorem C32_invalid_line_ignored_partial (fo : FloatOps) (b b' : Bucket fo) (line : Bytes) (e : List DErr)
    (hadd : b.addLine line = .ok (b', e)) (he : e ≠ []) :
    ((asRead line).key ∉ b.lines.map (·.1) → b' = b) ∧
    ((asRead line).fields = [] → ∀ k, mget b'.lines k = mget b.lines k) ∧
    (∀ k, k ≠ (asRead line).key → mget b'.lines k = mget b.lines k) := by
  rw [addLine_eq] at hadd
  have hk : (asRead line).key = (readLine line).1 := rfl
  have hf : (asRead line).fields = (readLine line).2.1.map fun it => (it.name, it.sample) := rfl
  cases hm : mget b.lines (readLine line).1 with
  | none =>
    rw [hm] at hadd
    simp only [] at hadd
    split at hadd
    · obtain ⟨rfl, rfl⟩ := Prod.mk.inj (Go.ok.inj hadd)
      exact absurd rfl he
    · obtain ⟨rfl, rfl⟩ := Prod.mk.inj (Go.ok.inj hadd)
      exact ⟨fun _ => rfl, fun _ _ => rfl, fun _ _ => rfl⟩
  | some fs =>
    rw [hm] at hadd
    simp only [] at hadd
    obtain ⟨rfl, rfl⟩ := Prod.mk.inj (Go.ok.inj hadd)
    refine ⟨?_, ?_, ?_⟩
    · intro h
      rw [hk] at h
      have := (mget_eq_none _ _).2 h
      rw [hm] at this; cases this
    · intro h k
      rw [hf, List.map_eq_nil_iff] at h
      simp only [h, addItems, mget_mset]
      split
      · rename_i hkk; rw [← hkk, hm]
      · rfl
    · intro k hkk
      simp only [mget_mset]
      rw [if_neg (fun x => hkk (by rw [hk, x]))]

example : ∃ b b', addAll (Bucket.new wholeFloats 0) [b!"a f=1i", b!"c g=1i"] = .ok (b, [[], []]) ∧
    b.addLine b!"b f=3i,g" = .ok (b', [.invalidField]) ∧
    b'.bytes insertionSorter idOrder = b!"a f=1i 0\nc g=1i 0\n" := ⟨_, _, rfl, rfl, by decide +kernel⟩

end Spout
