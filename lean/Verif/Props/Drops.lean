import Verif.Model.Drops
import Verif.Props.Statistician

/-! # Dropped messages are reported (C85) -/

set_option linter.unusedSimpArgs false

namespace Spout.Spec

/-- `v` is the largest of the readings that succeeded, 0 if none did. -/
def IsLargest (readings : List (Option Int)) (v : Int) : Prop :=
  (∀ d, some d ∈ readings → d ≤ v) ∧ (some v ∈ readings ∨ (v = 0 ∧ ∀ d, some d ∉ readings))

/-- Readings of a counter are not negative. -/
def Counts (readings : List (Option Int)) : Prop := ∀ d, some d ∈ readings → 0 ≤ d ∧ InInt64 d

theorem IsLargest.unique {rs : List (Option Int)} {v w : Int} (h1 : IsLargest rs v) (h2 : IsLargest rs w) : v = w := by
  rcases h1.2 with a | ⟨a, a'⟩
  · rcases h2.2 with b | ⟨-, b'⟩
    · have := h1.1 w b; have := h2.1 v a; omega
    · exact absurd a (b' v)
  · rcases h2.2 with b | ⟨b, -⟩
    · exact absurd b (a' w)
    · omega

end Spout.Spec

namespace Spout.Prom
open Spout Spout.Spec Spout.Counters

/-- The atomic steps of `Max` without interference. -/
theorem maxCounter_action (counts : List Nat) (i cur : Nat) (h : counts[i]? = some cur) (d : Int) :
    ∃ p, action counts (.maxLoad i (toUint64 d)) = .ok p ∧
      ((p = (counts, .done (.val cur)) ∧ updateDropped cur (some d) = cur) ∨
       ∃ r, action p.1 p.2 = .ok r ∧ r.1 = counts.set i (updateDropped cur (some d)) ∧ r.2 = .done (.val (updateDropped cur (some d)))) := by
  have hc : counter counts i = .ok cur := by unfold counter; rw [h]
  by_cases hle : toUint64 d ≤ cur
  · exact ⟨_, by simp only [action, hc, Go.ok_bind, if_pos hle]; rfl, Or.inl ⟨rfl, by simp [updateDropped, hle]⟩⟩
  · refine ⟨(counts, .maxCas i (toUint64 d) cur), by simp only [action, hc, Go.ok_bind, if_neg hle]; rfl, Or.inr ?_⟩
    exact ⟨_, by simp only [action, hc, Go.ok_bind, if_true]; rfl, by simp [updateDropped, hle], by simp [updateDropped, hle]⟩

/-- The counter after some readings. -/
def afterReadings (cur : Nat) (rs : List (Option Int)) : Nat := rs.foldl updateDropped cur

theorem toUint64_count {d : Int} (h : 0 ≤ d ∧ InInt64 d) : (toUint64 d : Int) = d := by
  obtain ⟨h1, h2, h3⟩ := h
  unfold toUint64
  rw [Int.toNat_of_nonneg (by omega)]
  omega

theorem afterReadings_le (cur : Nat) (rs : List (Option Int)) : cur ≤ afterReadings cur rs := by
  unfold afterReadings
  induction rs generalizing cur with
  | nil => exact Nat.le_refl _
  | cons r rs ih =>
    refine Nat.le_trans ?_ (ih _)
    cases r with
    | none => exact Nat.le_refl _
    | some d => show cur ≤ (if toUint64 d ≤ cur then cur else toUint64 d); split <;> omega

theorem afterReadings_largest (rs : List (Option Int)) (hr : Counts rs) :
    ∀ cur : Nat, (∀ d, some d ∈ rs → d ≤ afterReadings cur rs) ∧
      (some (afterReadings cur rs : Int) ∈ rs ∨ (afterReadings cur rs = cur)) := by
  unfold afterReadings
  induction rs with
  | nil => intro cur; simp
  | cons r rs ih =>
    intro cur
    have hr' : Counts rs := fun d hd => hr d (List.mem_cons_of_mem _ hd)
    obtain ⟨h1, h2⟩ := ih hr' (updateDropped cur r)
    have hge : updateDropped cur r ≤ List.foldl updateDropped (updateDropped cur r) rs := afterReadings_le _ _
    rw [List.foldl_cons]
    refine ⟨?_, ?_⟩
    · intro d hd
      rw [List.mem_cons] at hd
      rcases hd with hd | hd
      · subst hd
        have e := toUint64_count (hr d List.mem_cons_self)
        have : toUint64 d ≤ updateDropped cur (some d) := by simp only [updateDropped]; split <;> omega
        omega
      · exact h1 d hd
    · rcases h2 with h2 | h2
      · left; exact List.mem_cons_of_mem _ h2
      · rw [h2]
        cases r with
        | none => right; rfl
        | some d =>
          have e := toUint64_count (hr d List.mem_cons_self)
          simp only [updateDropped]
          split
          · right; rfl
          · left; rw [e]; exact List.mem_cons_self

theorem isLargest_after (rs : List (Option Int)) (hr : Counts rs) : IsLargest rs (afterReadings 0 rs) := by
  obtain ⟨h1, h2⟩ := afterReadings_largest rs hr 0
  refine ⟨h1, ?_⟩
  rcases h2 with h2 | h2
  · exact Or.inl h2
  · by_cases h : ∃ d, some d ∈ rs
    · obtain ⟨d, hd⟩ := h
      left
      have := h1 d hd
      have h0 := (hr d hd).1
      have : d = 0 := by omega
      rw [h2]
      show some (0 : Int) ∈ rs
      rw [← this]; exact hd
    · exact Or.inr ⟨by rw [h2]; rfl, fun d hd => h ⟨d, hd⟩⟩

theorem filterRounds_append (S : Sorter) (ord : MapOrder) (name hostname : Bytes) (subjects : List Bytes)
    (rs : List FilterRound) (r : FilterRound) : ∀ cur : Nat,
    filterRounds S ord name hostname subjects cur (rs ++ [r]) =
      filterRounds S ord name hostname subjects cur rs ++
        [filterStats S ord name hostname
          (r.others ++ [(b!"nats_dropped", afterReadings cur ((rs ++ [r]).map (·.reading)))]) subjects r.ruleCounts r.now] := by
  induction rs with
  | nil => intro cur; rfl
  | cons a rs ih =>
    intro cur
    rw [List.cons_append]
    dsimp only [filterRounds]
    rw [ih]
    rfl

theorem inInt64_largest {rs : List (Option Int)} {v : Int} (hr : Counts rs) (h : IsLargest rs v) : InInt64 v := by
  rcases h.2 with h | ⟨h, -⟩
  · exact (hr v h).2
  · subst h; decide

/-- **C85 (filter).** When the messages of a round reach the monitor, whatever the monitor received
before, its page shows as `nats_dropped` the largest number of dropped messages that the filter has
read up to that round. -/
theorem C85_filter_drops_shown (S : Sorter) (ord ordS ordR : MapOrder) {evs : List MEv} {R : List VMetric}
    (hev : FromComponents S evs R) (name hostname : Bytes) (hn : Plain name) (hh : Plain hostname)
    (subjects : List Bytes) (hsub : ∀ s ∈ subjects, Plain s) (hdis : subjects.Nodup)
    (earlier : List FilterRound) (r : FilterRound) (hr : Counts ((earlier ++ [r]).map (·.reading)))
    (hg : GoodCounters (r.others ++ [(b!"nats_dropped", 0)])) (ht : InInt64 r.now) :
    ∃ msgs set text set' v, (filterRounds S ordS name hostname subjects 0 (earlier ++ [r])).getLast? = some msgs ∧
      monitorRun S [] (evs ++ received ord msgs) = .ok set ∧ scrape S ordR set = .ok (text, set') ∧
      IsLargest ((earlier ++ [r]).map (·.reading)) v ∧
      HasLine text (metricLine ⟨b!"nats_dropped",
        [⟨b!"component", b!"filter"⟩, ⟨b!"host", hostname⟩, ⟨b!"name", name⟩], v, shownMillis r.now⟩) := by
  have hl := isLargest_after _ hr
  generalize hv : afterReadings 0 ((earlier ++ [r]).map (·.reading)) = v at hl
  have hg' : GoodCounters (r.others ++ [(b!"nats_dropped", v)]) := by
    obtain ⟨h1, h2⟩ := hg
    refine ⟨by rw [List.map_append] at h1 ⊢; exact h1, fun c hc => ?_⟩
    rw [List.mem_append, List.mem_singleton] at hc
    rcases hc with hc | hc
    · exact h2 c (List.mem_append_left _ hc)
    · have := h2 (b!"nats_dropped", 0) (List.mem_append_right _ List.mem_cons_self)
      subst hc; exact this
  obtain ⟨set, text, set', e1, e2, e3, -⟩ := C74_filter_statistics_shown S ord ordS ordR hev name hostname hn hh
    (r.others ++ [(b!"nats_dropped", v)]) hg' subjects r.ruleCounts hsub hdis r.now ht
  refine ⟨_, set, text, set', v, ?_, e1, e2, hl, ?_⟩
  · rw [filterRounds_append, List.getLast?_concat, hv]
  · have := e3 (b!"nats_dropped", v) (List.mem_append_right _ List.mem_cons_self)
    rw [wrap64_of_inInt64 (inInt64_largest hr hl)] at this
    exact this

/-! ## Downsampler -/

/-- The counters after some rounds. -/
def afterRounds (curs : List Nat) (rs : List (List (Option Int))) : List Nat := rs.foldl updateDrops curs

theorem afterRounds_get (rs : List (List (Option Int))) : ∀ (curs : List Nat), (∀ r ∈ rs, r.length = curs.length) →
    (afterRounds curs rs).length = curs.length ∧
    ∀ i (h : i < curs.length), (afterRounds curs rs)[i]? = some (afterReadings curs[i] (rs.map fun r => (r[i]?).getD none)) := by
  unfold afterRounds afterReadings
  induction rs with
  | nil => intro curs _; simp
  | cons r rs ih =>
    intro curs hlen
    have hr := hlen r List.mem_cons_self
    have hu : (updateDrops curs r).length = curs.length := by unfold updateDrops; simp [hr]
    obtain ⟨h1, h2⟩ := ih (updateDrops curs r) (fun x hx => by rw [hu]; exact hlen x (List.mem_cons_of_mem _ hx))
    rw [List.foldl_cons]
    refine ⟨by rw [h1, hu], fun i hi => ?_⟩
    rw [h2 i (by rw [hu]; exact hi), List.map_cons, List.foldl_cons]
    have : (updateDrops curs r)[i]'(by rw [hu]; exact hi) = updateDropped curs[i] ((r[i]?).getD none) := by
      have hi' : i < r.length := by rw [hr]; exact hi
      unfold updateDrops
      simp [List.getElem?_eq_getElem hi']
    rw [this]

theorem downsamplerRounds_append (S : Sorter) (ord : MapOrder) (name hostname : Bytes) (subjects : List Bytes)
    (rs : List DownsamplerRound) (r : DownsamplerRound) : ∀ curs : List Nat,
    downsamplerRounds S ord name hostname subjects curs (rs ++ [r]) =
      downsamplerRounds S ord name hostname subjects curs rs ++
        [downsamplerStats S ord name hostname r.snap subjects (afterRounds curs ((rs ++ [r]).map (·.readings))) r.now] := by
  induction rs with
  | nil => intro cur; rfl
  | cons a rs ih =>
    intro cur
    rw [List.cons_append]
    dsimp only [downsamplerRounds]
    rw [ih]
    rfl

/-- The readings of the subscription with index `i`. -/
def readingsOf (i : Nat) (rs : List DownsamplerRound) : List (Option Int) := rs.map fun r => (r.readings[i]?).getD none

/-- **C85 (downsampler).** The page shows for each subject the largest number of dropped messages read for its
subscription up to the round whose messages have arrived. -/
theorem C85_downsampler_drops_shown (S : Sorter) (ord ordS ordR : MapOrder) {evs : List MEv} {R : List VMetric}
    (hev : FromComponents S evs R) (name hostname : Bytes) (hn : Plain name) (hh : Plain hostname)
    (subjects : List Bytes) (hsub : ∀ s ∈ subjects, Plain s) (hdis : subjects.Nodup)
    (earlier : List DownsamplerRound) (r : DownsamplerRound)
    (hlen : ∀ x ∈ earlier ++ [r], x.readings.length = subjects.length)
    (hr : ∀ i, Counts (readingsOf i (earlier ++ [r]))) (hg : GoodCounters r.snap) (ht : InInt64 r.now) :
    ∃ msgs set text set', (downsamplerRounds S ordS name hostname subjects (List.replicate subjects.length 0) (earlier ++ [r])).getLast? = some msgs ∧
      monitorRun S [] (evs ++ received ord msgs) = .ok set ∧ scrape S ordR set = .ok (text, set') ∧
      ∀ i s, subjects[i]? = some s → ∃ v, IsLargest (readingsOf i (earlier ++ [r])) v ∧
        HasLine text (metricLine ⟨b!"nats_dropped",
          [⟨b!"component", b!"downsampler"⟩, ⟨b!"host", hostname⟩, ⟨b!"name", name⟩, ⟨b!"subject", s⟩], v, shownMillis r.now⟩) := by
  obtain ⟨hl, hget⟩ := afterRounds_get ((earlier ++ [r]).map (·.readings)) (List.replicate subjects.length 0)
    (fun x hx => by
      obtain ⟨y, hy, rfl⟩ := List.mem_map.1 hx
      rw [hlen y hy, List.length_replicate])
  generalize hv : afterRounds (List.replicate subjects.length 0) ((earlier ++ [r]).map (·.readings)) = vs at hl hget
  obtain ⟨set, text, set', e1, e2, -, e3⟩ := C74_downsampler_statistics_shown S ord ordS ordR hev name hostname hn hh
    r.snap hg subjects vs hsub hdis r.now ht
  refine ⟨_, set, text, set', ?_, e1, e2, ?_⟩
  · rw [downsamplerRounds_append, List.getLast?_concat, hv]
  · intro i s hs
    have hi : i < subjects.length := (List.getElem?_eq_some_iff.1 hs).1
    have hg := hget i (by rw [List.length_replicate]; exact hi)
    have hmap : List.map (fun r => (r[i]?).getD none) (List.map (fun x => x.readings) (earlier ++ [r])) = readingsOf i (earlier ++ [r]) := by
      unfold readingsOf; rw [List.map_map]; rfl
    rw [hmap, List.getElem_replicate] at hg
    have hL := isLargest_after _ (hr i)
    refine ⟨_, hL, ?_⟩
    have := e3 (s, afterReadings 0 (readingsOf i (earlier ++ [r]))) (by
      rw [List.mem_iff_getElem?]
      exact ⟨i, by rw [List.getElem?_zip_eq_some]; exact ⟨hs, hg⟩⟩)
    rw [wrap64_of_inInt64 (inInt64_largest (hr i) hL)] at this
    exact this

theorem largest_mono {rs rs' : List (Option Int)} {v w : Int} (h : Counts (rs ++ rs'))
    (h1 : IsLargest rs v) (h2 : IsLargest (rs ++ rs') w) : v ≤ w := by
  rcases h1.2 with h1 | ⟨h1, -⟩
  · exact h2.1 v (List.mem_append_left _ h1)
  · subst h1
    rcases h2.2 with h2 | ⟨h2, -⟩
    · exact (h w h2).1
    · omega

/-- **C85.** The number shown for a filter never goes down from one round to a later one. -/
theorem C85_never_decreases (S : Sorter) (ord ordS ordR : MapOrder) {evs evs' : List MEv} {R R' : List VMetric}
    (hev : FromComponents S evs R) (hev' : FromComponents S evs' R') (name hostname : Bytes) (hn : Plain name) (hh : Plain hostname)
    (subjects : List Bytes) (hsub : ∀ s ∈ subjects, Plain s) (hdis : subjects.Nodup)
    (earlier between : List FilterRound) (r r' : FilterRound)
    (hr : Counts ((earlier ++ [r] ++ between ++ [r']).map (·.reading)))
    (hg : GoodCounters (r.others ++ [(b!"nats_dropped", 0)])) (hg' : GoodCounters (r'.others ++ [(b!"nats_dropped", 0)]))
    (ht : InInt64 r.now) (ht' : InInt64 r'.now) :
    ∃ msgs msgs' set set' text text' x x' v v',
      (filterRounds S ordS name hostname subjects 0 (earlier ++ [r])).getLast? = some msgs ∧
      (filterRounds S ordS name hostname subjects 0 (earlier ++ [r] ++ between ++ [r'])).getLast? = some msgs' ∧
      monitorRun S [] (evs ++ received ord msgs) = .ok set ∧ scrape S ordR set = .ok (text, x) ∧
      monitorRun S [] (evs' ++ received ord msgs') = .ok set' ∧ scrape S ordR set' = .ok (text', x') ∧
      HasLine text (metricLine ⟨b!"nats_dropped",
        [⟨b!"component", b!"filter"⟩, ⟨b!"host", hostname⟩, ⟨b!"name", name⟩], v, shownMillis r.now⟩) ∧
      HasLine text' (metricLine ⟨b!"nats_dropped",
        [⟨b!"component", b!"filter"⟩, ⟨b!"host", hostname⟩, ⟨b!"name", name⟩], v', shownMillis r'.now⟩) ∧ v ≤ v' := by
  have hr1 : Counts ((earlier ++ [r]).map (·.reading)) := fun d hd => hr d (by
    rw [List.append_assoc, List.map_append]; exact List.mem_append_left _ hd)
  obtain ⟨msgs, set, text, x, v, a1, a2, a3, a4, a5⟩ := C85_filter_drops_shown S ord ordS ordR hev name hostname hn hh subjects hsub hdis
    earlier r hr1 hg ht
  obtain ⟨msgs', set', text', x', v', b1, b2, b3, b4, b5⟩ := C85_filter_drops_shown S ord ordS ordR hev' name hostname hn hh subjects hsub hdis
    (earlier ++ [r] ++ between) r' hr hg' ht'
  refine ⟨msgs, msgs', set, set', text, text', x, x', v, v', a1, b1, a2, a3, b2, b3, a5, b5, ?_⟩
  rw [List.append_assoc, List.map_append] at b4 hr
  exact largest_mono hr a4 b4

/-- Four rounds, one of which cannot read the number. -/
def exRounds : List FilterRound :=
  [⟨some 0, [(b!"passed", 1)], [1], 1000000⟩, ⟨some 7, [(b!"passed", 2)], [1], 2000000⟩, ⟨none, [(b!"passed", 3)], [1], 3000000⟩]
/-- The last round. -/
def exLast : FilterRound := ⟨some 7, [(b!"passed", 4)], [2], 4000000⟩

example : Counts ((exRounds ++ [exLast]).map (·.reading)) ∧ IsLargest ((exRounds ++ [exLast]).map (·.reading)) 7 ∧
    GoodCounters (exLast.others ++ [(b!"nats_dropped", 0)]) ∧
    (filterRounds insertionSorter plainOrder b!"f" b!"h" [b!"s"] 0 exRounds).getLast? =
      some [b!"nats_dropped{component=\"filter\",host=\"h\",name=\"f\"} 7 3\npassed{component=\"filter\",host=\"h\",name=\"f\"} 3 3\n",
        b!"triggered{component=\"filter\",host=\"h\",name=\"f\",rule=\"s\"} 1 3"] := by
  refine ⟨?_, ?_, ?_, ?_⟩
  · intro d hd
    have : some d ∈ [some (0 : Int), some 7, none, some 7] := hd
    simp at this
    rcases this with rfl | rfl <;> decide
  · refine ⟨?_, Or.inl (by decide)⟩
    intro d hd
    have : some d ∈ [some (0 : Int), some 7, none, some 7] := hd
    simp at this
    omega
  · unfold GoodCounters NameOK; decide
  · decide +kernel

end Spout.Prom
