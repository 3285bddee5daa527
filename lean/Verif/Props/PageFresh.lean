import Verif.Model.StatLoop
import Verif.Props.Statistician

/-! # C127: how far the monitor's page is behind -/

set_option linter.unusedSimpArgs false

namespace Spout.Prom
open Spout.Spec

/-! ## Specification -/

/-- The monitor's history `evs`: the snapshots `rs` of a component with the labels `labels` (sorted: `ls`), in order, and between them scrapes and messages of others, none with the labels of the component. -/
inductive Interleaved (S : Sorter) (labels ls : List Label) : List MEv → List (Int × List (Bytes × Nat)) → Prop
  | nil : Interleaved S labels ls [] []
  | other {evs rs} (more : List MEv) (R : List VMetric) : Interleaved S labels ls evs rs → FromComponents S more R → (∀ v ∈ R, ¬ v.labels.Perm ls) → Interleaved S labels ls (evs ++ more) rs
  | round {evs rs} (ord ordS : MapOrder) (t : Int) (snap : List (Bytes × Nat)) : Interleaved S labels ls evs rs →
      Interleaved S labels ls (evs ++ [.recv (snapshotToPrometheus S ordS snap t labels) ord]) (rs ++ [(t, snap)])

/-- The labels of a component: they can be sent with every good counter name, and `ls` is their sorted form. -/
structure LabelsOf (labels ls : List Label) : Prop where
  sendable : ∀ c : Bytes, c ≠ [] → NameOK c → NL ∉ c → Sendable c labels
  perm : ls.Perm labels
  ascending : Ascending ls

/-! ## The loop -/

theorem sr_trans {i D : Int} {a b c : StatSys} (h1 : StatReach i D a b) (h2 : StatReach i D b c) : StatReach i D a c := by
  induction h2 with
  | refl => exact h1
  | step _ hs ih => exact .step ih hs

structure StatInv (i t0 : Int) (s : StatSys) : Prop where
  since : t0 ≤ s.now
  none : s.rounds = [] → s.due = t0
  last : ∀ r, s.rounds.getLast? = some r → s.due = r.1 + max 0 i ∧ r.1 ≤ s.now
  order : s.rounds.Pairwise fun a b => a.1 ≤ b.1

theorem pairwise_last {l : List (Int × List (Bytes × Nat))} (h : l.Pairwise fun a b => a.1 ≤ b.1) {r x : Int × List (Bytes × Nat)} (hr : l.getLast? = some r) (hx : x ∈ l) : x.1 ≤ r.1 := by
  obtain ⟨ys, rfl⟩ := List.getLast?_eq_some_iff.1 hr
  rcases List.mem_append.1 hx with hx | hx
  · exact (List.pairwise_append.1 h).2.2 x hx r (by simp)
  · rw [List.mem_singleton.1 hx]
    exact Int.le_refl _

theorem stat_inv {i D t0 : Int} {cs : List (Bytes × Nat)} {s : StatSys} (h : StatReach i D (StatSys.start cs t0) s) : StatInv i t0 s := by
  induction h with
  | refl => exact ⟨Int.le_refl _, fun _ => rfl, (by intro r hr; cases hr), List.Pairwise.nil⟩
  | @step b c _ hs ih =>
    cases hs with
    | tick t ht hd =>
      refine ⟨Int.le_trans ih.since ht, ih.none, ?_, ih.order⟩
      intro r hr
      have := ih.last r hr
      exact ⟨this.1, Int.le_trans this.2 ht⟩
    | inc n k => exact ⟨ih.since, ih.none, ih.last, ih.order⟩
    | round hdue =>
      refine ⟨ih.since, by simp, ?_, ?_⟩
      · intro r hr
        rw [List.getLast?_append] at hr
        have hr : (b.now, b.counters) = r := by simpa using hr
        subst hr
        exact ⟨rfl, Int.le_refl _⟩
      · refine List.pairwise_append.2 ⟨ih.order, List.pairwise_singleton .., ?_⟩
        intro x hx y hy
        rw [List.mem_singleton.1 hy]
        cases hl : b.rounds.getLast? with
        | none => rw [List.getLast?_eq_none_iff.1 hl] at hx; cases hx
        | some r =>
          have h1 := pairwise_last ih.order hl hx
          have h2 := (ih.last r hl).2
          show x.1 ≤ b.now
          omega

/-- **C127 (rounds).** There is a round in every stretch of `stats_interval + D`, once the first one was due. -/
theorem C127_rounds {i D t0 : Int} (hi : 0 ≤ i) (hD : 0 ≤ D) {cs : List (Bytes × Nat)} {s : StatSys} (h : StatReach i D (StatSys.start cs t0) s) (x : Int) (h1 : t0 + D < x) (h2 : x ≤ s.now) :
    ∃ r ∈ s.rounds, x - i - D ≤ r.1 ∧ r.1 ≤ x := by
  induction h with
  | refl =>
    have : x ≤ t0 := h2
    omega
  | @step b c hb hs ih =>
    have I := stat_inv hb
    cases hs with
    | tick t ht hd =>
      by_cases hx : x ≤ b.now
      · exact ih hx
      · have h2 : x ≤ t := h2
        cases hl : b.rounds.getLast? with
        | none =>
          have := I.none (List.getLast?_eq_none_iff.1 hl)
          omega
        | some r =>
          obtain ⟨k1, k2⟩ := I.last r hl
          exact ⟨r, List.mem_of_getLast? hl, by omega, by omega⟩
    | inc n k => exact ih h2
    | round hdue =>
      obtain ⟨r, hr, k⟩ := ih h2
      exact ⟨r, List.mem_append_left _ hr, k⟩

/-- Each round shows the counters as they were at its time. -/
theorem round_state {i D t0 : Int} {cs : List (Bytes × Nat)} {s : StatSys} (h : StatReach i D (StatSys.start cs t0) s) : ∀ r ∈ s.rounds, ∃ a, StatReach i D (StatSys.start cs t0) a ∧ StatReach i D a s ∧ a.now = r.1 ∧ a.counters = r.2 := by
  induction h with
  | refl => intro r hr; cases hr
  | @step b c hb hs ih =>
    intro r hr
    have old : r ∈ b.rounds → ∃ a, StatReach i D (StatSys.start cs t0) a ∧ StatReach i D a c ∧ a.now = r.1 ∧ a.counters = r.2 := by
      intro hr
      obtain ⟨a, a1, a2, a3, a4⟩ := ih r hr
      exact ⟨a, a1, .step a2 hs, a3, a4⟩
    cases hs with
    | tick t ht hd => exact old hr
    | inc n k => exact old hr
    | round hdue =>
      rcases List.mem_append.1 hr with hr | hr
      · exact old hr
      · rw [List.mem_singleton.1 hr]
        exact ⟨b, hb, .step (.refl _) (.round b hdue), rfl, rfl⟩

theorem bump_names (n : Bytes) (k : Nat) (cs : List (Bytes × Nat)) : (bump n k cs).map (·.1) = cs.map (·.1) := by
  unfold bump
  rw [List.map_map]
  apply List.map_congr_left
  intro c _
  show (if c.1 = n then (c.1, c.2 + k) else c).1 = c.1
  split <;> rfl

theorem stat_names {i D : Int} {a s : StatSys} (h : StatReach i D a s) : s.counters.map (·.1) = a.counters.map (·.1) := by
  induction h with
  | refl => rfl
  | step _ hs ih =>
    rw [← ih]
    cases hs with
    | inc n k => exact bump_names n k _
    | _ => rfl

/-- Counters only grow. -/
theorem stat_grows {i D : Int} {a s : StatSys} (h : StatReach i D a s) : ∀ c ∈ a.counters, ∃ v, (c.1, v) ∈ s.counters ∧ c.2 ≤ v := by
  induction h with
  | refl => intro c hc; exact ⟨c.2, hc, Nat.le_refl _⟩
  | @step b c' _ hs ih =>
    intro c hc
    obtain ⟨v, h1, h2⟩ := ih c hc
    cases hs with
    | inc n k =>
      by_cases he : c.1 = n
      · refine ⟨v + k, ?_, by omega⟩
        refine List.mem_map.2 ⟨(c.1, v), h1, ?_⟩
        simp [he]
      · refine ⟨v, ?_, h2⟩
        refine List.mem_map.2 ⟨(c.1, v), h1, ?_⟩
        simp [he]
    | _ => exact ⟨v, h1, h2⟩

theorem good_of_names {a b : List (Bytes × Nat)} (h : b.map (·.1) = a.map (·.1)) (ha : GoodCounters a) : GoodCounters b := by
  refine ⟨by rw [h]; exact ha.1, ?_⟩
  intro c hc
  have : c.1 ∈ a.map (·.1) := by
    rw [← h]
    exact List.mem_map.2 ⟨c, hc, rfl⟩
  obtain ⟨d, hd, he⟩ := List.mem_map.1 this
  rw [← he]
  exact ha.2 d hd

/-! ## The page -/

/-- The metrics of an interleaved history end with the last snapshot and metrics of others. -/
theorem interleaved_metrics {S : Sorter} {labels ls : List Label} (hl : LabelsOf labels ls) {evs : List MEv} {rs : List (Int × List (Bytes × Nat))} (h : Interleaved S labels ls evs rs)
    (hg : ∀ r ∈ rs, GoodCounters r.2 ∧ InInt64 r.1) :
    ∃ R, FromComponents S evs R ∧ ∀ r, rs.getLast? = some r → ∀ c ∈ r.2, Latest R ⟨c.1, ls, wrap64 c.2, shownMillis r.1⟩ := by
  induction h with
  | nil => exact ⟨[], .nil, by intro r hr; cases hr⟩
  | other more R2 _ h2 hno ih =>
    obtain ⟨R, h1, h3⟩ := ih hg
    refine ⟨R ++ R2, fromComponents_append h1 h2, ?_⟩
    intro r hr c hc
    rw [latest_append_iff]
    exact Or.inr ⟨h3 r hr c hc, fun x hx hs => hno x hx hs.2⟩
  | round ord ordS t snap _ ih =>
    obtain ⟨R, h1, -⟩ := ih (fun r hr => hg r (List.mem_append_left _ hr))
    obtain ⟨g1, g2⟩ := hg (t, snap) (by simp)
    let V := snap.map fun c => (⟨c.1, ls, wrap64 c.2, shownMillis t⟩ : VMetric)
    refine ⟨R ++ (V ++ []), fromComponents_append h1 (.snapshot ordS snap t labels ls V g2 g1.1 (fun c hc => hl.sendable c.1 (g1.2 c hc).1 (g1.2 c hc).2.1 (g1.2 c hc).2.2) hl.perm hl.ascending
      (List.Perm.refl _) .nil), ?_⟩
    intro r hr c hc
    rw [List.getLast?_append] at hr
    have hr : (t, snap) = r := by simpa using hr
    subst hr
    rw [List.append_nil]
    refine latest_of_distinct ?_ (List.mem_map.2 ⟨c, hc, rfl⟩)
    show (snap.map _).Pairwise _
    rw [List.pairwise_map]
    have := g1.1
    rw [List.Nodup, List.pairwise_map] at this
    exact this.imp (fun hab hss => hab hss.1.symm)

/-- **C127 (page).** Whatever other components send in between, the page shows every counter of the component as it was in the last of its rounds that the monitor received. -/
theorem C127_page {S : Sorter} {labels ls : List Label} (hl : LabelsOf labels ls) {evs : List MEv} {rs : List (Int × List (Bytes × Nat))} (h : Interleaved S labels ls evs rs)
    (hg : ∀ r ∈ rs, GoodCounters r.2 ∧ InInt64 r.1) {t : Int} {snap : List (Bytes × Nat)} (hlast : rs.getLast? = some (t, snap)) (ord : MapOrder) :
    ∃ set text set', monitorRun S [] evs = .ok set ∧ scrape S ord set = .ok (text, set') ∧ ∀ c ∈ snap, HasLine text (metricLine ⟨c.1, ls, wrap64 c.2, shownMillis t⟩) := by
  obtain ⟨R, h1, h2⟩ := interleaved_metrics hl h hg
  obtain ⟨set, text, set', k1, k2, k3⟩ := C72_component_counters_are_served S h1 ord
  exact ⟨set, text, set', k1, k2, fun c hc => shows_hasLine k3 (h2 (t, snap) hlast c hc) hl.ascending⟩

/-- **C127.** Let a component's statistician never be delayed by more than `D` and let the monitor have received, in order, all the rounds that were published at least `N` before now, and perhaps more. Then the page shows every counter with the value it had at some moment
(that of a round that the statistician did publish) between `now - N - stats_interval - D` and now; it is not larger than the value that the counter has now. -/
theorem C127_at_most_an_interval_behind {S : Sorter} {labels ls : List Label} (hl : LabelsOf labels ls) {i D N t0 : Int} (hi : 0 ≤ i) (hD : 0 ≤ D) (hN : 0 ≤ N) {cs : List (Bytes × Nat)} (hc : GoodCounters cs)
    (h0 : -9223372036854775808 ≤ t0) {s : StatSys} (h : StatReach i D (StatSys.start cs t0) s) (h1 : s.now < 9223372036854775808) (hold : t0 + D + N < s.now)
    {evs : List MEv} {rs : List (Int × List (Bytes × Nat))} (hev : Interleaved S labels ls evs rs) (hpre : rs <+: s.rounds) (hall : ∀ r ∈ s.rounds, r.1 ≤ s.now - N → r ∈ rs) (ord : MapOrder) :
    ∃ a, StatReach i D (StatSys.start cs t0) a ∧ StatReach i D a s ∧ (a.now, a.counters) ∈ s.rounds ∧ s.now - N - i - D ≤ a.now ∧ a.now ≤ s.now ∧ a.counters.map (·.1) = cs.map (·.1) ∧
      (∀ c ∈ a.counters, ∃ v, (c.1, v) ∈ s.counters ∧ c.2 ≤ v) ∧
      ∃ set text set', monitorRun S [] evs = .ok set ∧ scrape S ord set = .ok (text, set') ∧ ∀ c ∈ a.counters, HasLine text (metricLine ⟨c.1, ls, wrap64 c.2, shownMillis a.now⟩) := by
  have I := stat_inv h
  obtain ⟨r0, m1, m2, m3⟩ := C127_rounds hi hD h (s.now - N) (by omega) (by omega)
  have m4 := hall r0 m1 (by omega)
  obtain ⟨r, hr⟩ : ∃ r, rs.getLast? = some r := by
    cases hlst : rs.getLast? with
    | none => rw [List.getLast?_eq_none_iff.1 hlst] at m4; cases m4
    | some r => exact ⟨r, rfl⟩
  have hrm : r ∈ s.rounds := hpre.subset (List.mem_of_getLast? hr)
  have m5 : r0.1 ≤ r.1 := by
    obtain ⟨rest, he⟩ := hpre
    have := I.order
    rw [← he] at this
    exact pairwise_last (List.pairwise_append.1 this).1 hr m4
  have bounds : ∀ x ∈ s.rounds, GoodCounters x.2 ∧ InInt64 x.1 ∧ x.1 ≤ s.now := by
    intro x hx
    obtain ⟨b, b1, -, b3, b4⟩ := round_state h x hx
    have b5 := (stat_inv b1).since
    have b6 : x.1 ≤ s.now := by
      cases hlst : s.rounds.getLast? with
      | none => rw [List.getLast?_eq_none_iff.1 hlst] at hx; cases hx
      | some z => exact Int.le_trans (pairwise_last I.order hlst hx) (I.last z hlst).2
    refine ⟨good_of_names ?_ hc, ⟨by omega, by omega⟩, b6⟩
    rw [← b4]
    exact stat_names b1
  obtain ⟨a, a1, a2, a3, a4⟩ := round_state h r hrm
  obtain ⟨-, -, hle⟩ := bounds r hrm
  refine ⟨a, a1, a2, by rw [a3, a4]; exact hrm, by omega, by omega, stat_names a1, stat_grows a2, ?_⟩
  obtain ⟨set, text, set', k1, k2, k3⟩ := C127_page hl hev (fun x hx => ⟨(bounds x (hpre.subset hx)).1, (bounds x (hpre.subset hx)).2.1⟩) (t := r.1) (snap := r.2) hr ord
  refine ⟨set, text, set', k1, k2, ?_⟩
  rw [a4, a3]
  exact k3

/-- A round after a moment shows at least what had been counted then. -/
theorem rounds_after {i D : Int} {x s : StatSys} (h : StatReach i D x s) : ∀ r ∈ s.rounds, r ∈ x.rounds ∨ ∀ c ∈ x.counters, ∃ v, (c.1, v) ∈ r.2 ∧ c.2 ≤ v := by
  induction h with
  | refl => exact fun r hr => Or.inl hr
  | @step b c hb hs ih =>
    intro r hr
    cases hs with
    | tick t ht hd => exact ih r hr
    | inc n k => exact ih r hr
    | round hdue =>
      rcases List.mem_append.1 hr with hr | hr
      · exact ih r hr
      · rw [List.mem_singleton.1 hr]
        exact Or.inr (stat_grows hb)

/-- **C127 (nothing is missing).** Under the same conditions, everything that was counted more than `N + stats_interval + D` ago is on the page: for every moment `x` that long ago, the page shows for every counter a value that is at least its value then, and at most its value now. -/
theorem C127_counted {S : Sorter} {labels ls : List Label} (hl : LabelsOf labels ls) {i D N t0 : Int} (hi : 0 ≤ i) (hD : 0 ≤ D) (hN : 0 ≤ N) {cs : List (Bytes × Nat)} (hc : GoodCounters cs)
    (h0 : -9223372036854775808 ≤ t0) {x s : StatSys} (hx : StatReach i D (StatSys.start cs t0) x) (h : StatReach i D x s) (h1 : s.now < 9223372036854775808) (hold : x.now < s.now - N - i - D)
    {evs : List MEv} {rs : List (Int × List (Bytes × Nat))} (hev : Interleaved S labels ls evs rs) (hpre : rs <+: s.rounds) (hall : ∀ r ∈ s.rounds, r.1 ≤ s.now - N → r ∈ rs) (ord : MapOrder) :
    ∃ t set text set', x.now < t ∧ t ≤ s.now ∧ monitorRun S [] evs = .ok set ∧ scrape S ord set = .ok (text, set') ∧
      ∀ c ∈ x.counters, ∃ v w, c.2 ≤ v ∧ v ≤ w ∧ (c.1, w) ∈ s.counters ∧ HasLine text (metricLine ⟨c.1, ls, wrap64 v, shownMillis t⟩) := by
  have I := stat_inv hx
  obtain ⟨a, -, -, a3, a4, a5, -, a6, set, text, set', k1, k2, k3⟩ := C127_at_most_an_interval_behind hl hi hD hN hc h0 (sr_trans hx h) h1 (by have := I.since; omega) hev hpre hall ord
  refine ⟨a.now, set, text, set', by omega, a5, k1, k2, ?_⟩
  intro c hcx
  rcases rounds_after h _ a3 with hr | hr
  · exfalso
    cases hlst : x.rounds.getLast? with
    | none => rw [List.getLast?_eq_none_iff.1 hlst] at hr; cases hr
    | some z =>
      have := pairwise_last I.order hlst hr
      have := (I.last z hlst).2
      have : a.now ≤ z.1 := by assumption
      omega
  · obtain ⟨v, v1, v2⟩ := hr c hcx
    obtain ⟨w, w1, w2⟩ := a6 (c.1, v) v1
    exact ⟨v, w, v2, w2, w1, k3 (c.1, v) v1⟩

/-- **C127 (labels).** The labels of listeners, filters and downsamplers, and those of writers, are such labels. -/
theorem C127_labels (component name hostname : Bytes) (hc : Plain component) (hn : Plain name) (hh : Plain hostname) :
    LabelsOf (newLabels component name hostname) [⟨b!"component", component⟩, ⟨b!"host", hostname⟩, ⟨b!"name", name⟩] :=
  ⟨fun c h1 h2 h3 => base_sendable component name hostname c hc hn hh h1 h2 h3, baseLabels_perm _ _ _, baseLabels_ascending _ _ _⟩

theorem C127_writer_labels (name hostname address dbName : Bytes) (port : Int) (hn : Plain name) (hh : Plain hostname) (ha : Plain address) (hd : Plain dbName) :
    LabelsOf (writerLabels name hostname address port dbName)
      [⟨b!"component", b!"writer"⟩, ⟨b!"host", hostname⟩, ⟨b!"influxdb_address", address⟩, ⟨b!"influxdb_dbname", dbName⟩, ⟨b!"influxdb_port", itoa port⟩, ⟨b!"name", name⟩] := by
  refine ⟨?_, writer_perm _ _ _ _ _, ascending_of_names (ns := [b!"component", b!"host", b!"influxdb_address", b!"influxdb_dbname", b!"influxdb_port", b!"name"]) rfl (by decide +kernel)⟩
  intro c h1 h2 h3
  refine sendable_labels c _ h1 h2 h3 ?_ ?_ ?_
  · intro l hl
    simp only [writerLabels, withLabel, newLabels, List.cons_append, List.nil_append, List.mem_cons, List.not_mem_nil, or_false] at hl
    rcases hl with rfl | rfl | rfl | rfl | rfl | rfl <;> simp
  · intro l hl
    simp only [writerLabels, withLabel, newLabels, List.cons_append, List.nil_append, List.mem_cons, List.not_mem_nil, or_false] at hl
    rcases hl with rfl | rfl | rfl | rfl | rfl | rfl
    · exact ⟨by decide, by decide⟩
    · exact hn
    · exact hh
    · exact ha
    · exact plain_itoa port
    · exact hd
  · show [b!"component", b!"name", b!"host", b!"influxdb_address", b!"influxdb_port", b!"influxdb_dbname"].Nodup
    decide +kernel

/-! ## A case -/

/-- A listener's statistics at 0 and, the timer being 5 late, at 3005; it is 3200 now. -/
def pfSys : StatSys := ⟨3200, [(b!"received", 3), (b!"sent", 0)], 6005, [(0, [(b!"received", 0), (b!"sent", 0)]), (3005, [(b!"received", 2), (b!"sent", 0)])]⟩

/-- The same at 0, when two lines had been counted. -/
def pfThen : StatSys := ⟨0, [(b!"received", 2), (b!"sent", 0)], 3000, [(0, [(b!"received", 0), (b!"sent", 0)])]⟩

theorem pf_then : StatReach 3000 10 (StatSys.start [(b!"received", 0), (b!"sent", 0)] 0) pfThen :=
  .step (.step (.refl _)
    (.round (StatSys.start [(b!"received", 0), (b!"sent", 0)] 0) (by decide)))
    (.inc ⟨0, [(b!"received", 0), (b!"sent", 0)], 3000, [(0, [(b!"received", 0), (b!"sent", 0)])]⟩ b!"received" 2)

theorem pf_since : StatReach 3000 10 pfThen pfSys :=
  .step (.step (.step (.step (.refl _)
    (.tick pfThen 3005 (by decide) (by decide)))
    (.round ⟨3005, [(b!"received", 2), (b!"sent", 0)], 3000, [(0, [(b!"received", 0), (b!"sent", 0)])]⟩ (by decide)))
    (.inc ⟨3005, [(b!"received", 2), (b!"sent", 0)], 6005, [(0, [(b!"received", 0), (b!"sent", 0)]), (3005, [(b!"received", 2), (b!"sent", 0)])]⟩ b!"received" 1))
    (.tick ⟨3005, [(b!"received", 3), (b!"sent", 0)], 6005, [(0, [(b!"received", 0), (b!"sent", 0)]), (3005, [(b!"received", 2), (b!"sent", 0)])]⟩ 3200 (by decide) (by decide))

theorem pf_reach : StatReach 3000 10 (StatSys.start [(b!"received", 0), (b!"sent", 0)] 0) pfSys := sr_trans pf_then pf_since

/-- The hypotheses on the statistician of `C127_counted` are met. -/
example : StatReach 3000 10 (StatSys.start [(b!"received", 0), (b!"sent", 0)] 0) pfThen ∧ StatReach 3000 10 pfThen pfSys ∧ pfThen.now < pfSys.now - 100 - 3000 - 10 := ⟨pf_then, pf_since, by decide⟩

/-- All hypotheses of `C127_at_most_an_interval_behind` are met; the monitor has also heard of a filter on the same host. -/
example (S : Sorter) (o : MapOrder) : ∃ evs, evs.length = 3 ∧ LabelsOf (newLabels b!"listener" b!"l" b!"h") (baseLabels b!"listener" b!"l" b!"h") ∧ GoodCounters [(b!"received", 0), (b!"sent", 0)] ∧
    StatReach 3000 10 (StatSys.start [(b!"received", 0), (b!"sent", 0)] 0) pfSys ∧ (0 : Int) + 10 + 100 < pfSys.now ∧
    Interleaved S (newLabels b!"listener" b!"l" b!"h") (baseLabels b!"listener" b!"l" b!"h") evs pfSys.rounds ∧ pfSys.rounds <+: pfSys.rounds ∧ ∀ r ∈ pfSys.rounds, r.1 ≤ pfSys.now - 100 → r ∈ pfSys.rounds := by
  have p1 : Plain b!"listener" := ⟨by decide, by decide⟩
  have p2 : Plain b!"filter" := ⟨by decide, by decide⟩
  have p3 : Plain b!"l" := ⟨by decide, by decide⟩
  have p4 : Plain b!"h" := ⟨by decide, by decide⟩
  have hn : NameOK b!"processed" := by unfold NameOK; decide
  have hother : FromComponents S [.recv (snapshotToPrometheus S o [(b!"processed", 5)] 7 (newLabels b!"filter" b!"l" b!"h")) o] ([⟨b!"processed", baseLabels b!"filter" b!"l" b!"h", wrap64 (5 : Nat), max 0 (Int.tdiv 7 1000000)⟩] ++ []) := by
    refine .snapshot o [(b!"processed", 5)] 7 (newLabels b!"filter" b!"l" b!"h") (baseLabels b!"filter" b!"l" b!"h") _ ⟨by decide, by decide⟩ (by decide) ?_ (baseLabels_perm _ _ _) (baseLabels_ascending _ _ _) (List.Perm.refl _) .nil
    intro c hc
    rw [List.mem_singleton.1 hc]
    exact base_sendable _ _ _ _ p2 p3 p4 (by decide) hn (by decide)
  refine ⟨_, rfl, C127_labels _ _ _ p1 p3 p4, ⟨by decide, ?_⟩, pf_reach, by decide,
    .round o o 3005 [(b!"received", 2), (b!"sent", 0)] (.other _ _ (.round o o 0 [(b!"received", 0), (b!"sent", 0)] .nil) hother ?_), List.prefix_refl _, fun r hr _ => hr⟩
  · intro c hc
    simp only [List.mem_cons, List.not_mem_nil, or_false] at hc
    rcases hc with rfl | rfl
    · exact ⟨by decide, by unfold NameOK; decide, by decide⟩
    · exact ⟨by decide, by unfold NameOK; decide, by decide⟩
  · intro v hv hp
    have hv : v = ⟨b!"processed", baseLabels b!"filter" b!"l" b!"h", wrap64 (5 : Nat), max 0 (Int.tdiv 7 1000000)⟩ := by simpa using hv
    rw [hv] at hp
    have := hp.subset (List.mem_cons_self ..)
    revert this
    decide

end Spout.Prom
