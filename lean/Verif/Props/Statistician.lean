import Verif.Model.Statistician
import Verif.Props.Monitor

set_option linter.unusedSimpArgs false

/-! # The statistics of every component reach the monitor's page (C74) -/

namespace Spout.Spec

/-- `line` is one of the (newline-terminated) lines of `text`. -/
def HasLine (text line : Bytes) : Prop := ∃ a b, text = a ++ line ++ b!"\n" ++ b ∧ (a = [] ∨ a.getLast? = some NL)

/-- Label values that can be shown: no quote, no newline. -/
def Plain (v : Bytes) : Prop := DQ ∉ v ∧ NL ∉ v

/-- Counters by name: distinct, non-empty names without space, brace or newline. -/
def GoodCounters (snap : List (Bytes × Nat)) : Prop :=
  (snap.map (·.1)).Nodup ∧ ∀ c ∈ snap, c.1 ≠ [] ∧ NameOK c.1 ∧ NL ∉ c.1

/-- The time of a round in milliseconds, as shown. -/
def shownMillis (now : Int) : Int := max 0 (now.tdiv 1000000)

end Spout.Spec

namespace Spout.Prom

open Spout.Spec

/-- The events of receiving some messages. -/
def received (ord : MapOrder) (msgs : List Bytes) : List MEv := msgs.map (fun m => .recv m ord)

theorem fromComponents_append {S : Sorter} {A B : List MEv} {R1 R2 : List VMetric} (h1 : FromComponents S A R1)
    (h2 : FromComponents S B R2) : FromComponents S (A ++ B) (R1 ++ R2) := by
  induction h1 with
  | nil => exact h2
  | scrape _ ih => exact .scrape ih
  | snapshot ord' snap now labels ls vs k1 k2 k3 k4 k5 k6 _ ih =>
    rw [List.cons_append, List.append_assoc]
    exact .snapshot ord' snap now labels ls vs k1 k2 k3 k4 k5 k6 ih
  | counter name value now labels ls k1 k2 k3 k4 k5 _ ih =>
    exact .counter name value now labels ls k1 k2 k3 k4 k5 ih

/-- One counter sent on its own: name, value, labels as given, labels sorted. -/
structure Extra where
  name : Bytes
  value : Int
  labels : List Label
  sorted : List Label

theorem fromComponents_extras (S : Sorter) (ord : MapOrder) (now : Int) (hn : InInt64 now) (ex : List Extra)
    (h : ∀ x ∈ ex, InInt64 x.value ∧ Sendable x.name x.labels ∧ x.sorted.Perm x.labels ∧ Ascending x.sorted) :
    FromComponents S (received ord (ex.map fun x => counterToPrometheus S x.name x.value now x.labels))
      (ex.map fun x => ⟨x.name, x.sorted, x.value, shownMillis now⟩) := by
  induction ex with
  | nil => exact .nil
  | cons x ex ih =>
    obtain ⟨h1, h2, h3, h4⟩ := h x (by simp)
    exact .counter x.name x.value now x.labels x.sorted hn h1 h2 h3 h4 (ih (fun y hy => h y (List.mem_cons_of_mem _ hy)))

theorem fromComponents_ascending {S : Sorter} {evs : List MEv} {R : List VMetric} (h : FromComponents S evs R) :
    ∀ v ∈ R, Ascending v.labels := by
  induction h with
  | nil => intro v hv; cases hv
  | scrape _ ih => exact ih
  | snapshot ord' snap now labels ls vs k1 k2 k3 k4 k5 k6 _ ih =>
    intro v hv
    rcases List.mem_append.1 hv with hv | hv
    · obtain ⟨c, -, rfl⟩ := List.mem_map.1 (k6.subset hv)
      exact k5
    · exact ih v hv
  | counter name value now labels ls k1 k2 k3 k4 k5 _ ih =>
    intro v hv
    rcases List.mem_cons.1 hv with rfl | hv
    · exact k5
    · exact ih v hv

/-- A page that shows `R` has the line of every latest metric. -/
theorem shows_hasLine {text : Bytes} {R : List VMetric} (h : Shows text R) {v : VMetric} (hv : Latest R v)
    (ha : Ascending v.labels) : HasLine text (metricLine v) := by
  obtain ⟨rows, h1, h2, h3, h4⟩ := h
  obtain ⟨row, hrow, hs⟩ := h4 v (latest_mem hv)
  obtain ⟨ra, w, k1, k2, k3, k4⟩ := h3 row hrow
  have hvw : v = w := latest_unique hv k1 (sameSeries_trans (sameSeries_symm hs) k2)
  subst hvw
  have he : row = v := by
    have e := strict_perm_eq Label.name hs.2 ra ha
    have e1 := hs.1
    cases row; cases v
    simp_all
  subst he
  obtain ⟨A, B, rfl⟩ := List.append_of_mem hrow
  refine ⟨(A.map fun m => metricLine m ++ b!"\n").flatten, (B.map fun m => metricLine m ++ b!"\n").flatten, ?_, ?_⟩
  · rw [h1]; simp
  · rcases List.eq_nil_or_concat A with rfl | ⟨T, x, rfl⟩
    · left; rfl
    · right
      rw [List.concat_eq_append, List.map_append, List.flatten_append]
      simp

theorem latest_of_distinct {R0 D : List VMetric} {v : VMetric} (hD : D.Pairwise (fun a b => ¬ SameSeries b a)) (hv : v ∈ D) :
    Latest (R0 ++ D) v := by
  rw [latest_append_iff]
  left
  obtain ⟨A, B, rfl⟩ := List.append_of_mem hv
  refine ⟨A, B, rfl, ?_⟩
  rw [List.pairwise_append, List.pairwise_cons] at hD
  intro x hx
  exact hD.2.1.1 x hx

/-- A round of statistics is shown. -/
theorem round_shown (S : Sorter) (ord ordS : MapOrder) {evs : List MEv} {R : List VMetric} (hev : FromComponents S evs R)
    (snap : List (Bytes × Nat)) (hg : GoodCounters snap) (now : Int) (hn : InInt64 now) (labels ls : List Label)
    (hs : ∀ c : Bytes, c ≠ [] → NameOK c → NL ∉ c → Sendable c labels) (hp : ls.Perm labels) (ha : Ascending ls)
    (ex : List Extra)
    (hex : ∀ x ∈ ex, InInt64 x.value ∧ Sendable x.name x.labels ∧ x.sorted.Perm x.labels ∧ Ascending x.sorted)
    (hlen : ∀ x ∈ ex, x.sorted.length ≠ ls.length)
    (hdist : ex.Pairwise (fun x y => x.sorted ≠ y.sorted))
    (ordR : MapOrder) :
    ∃ set text set', monitorRun S [] (evs ++ received ord (snapshotToPrometheus S ordS snap now labels ::
          ex.map fun x => counterToPrometheus S x.name x.value now x.labels)) = .ok set ∧
      scrape S ordR set = .ok (text, set') ∧
      (∀ c ∈ snap, HasLine text (metricLine ⟨c.1, ls, wrap64 c.2, shownMillis now⟩)) ∧
      (∀ x ∈ ex, HasLine text (metricLine ⟨x.name, x.sorted, x.value, shownMillis now⟩)) := by
  let V := snap.map fun c => (⟨c.1, ls, wrap64 c.2, shownMillis now⟩ : VMetric)
  let X := ex.map fun x => (⟨x.name, x.sorted, x.value, shownMillis now⟩ : VMetric)
  have hall : FromComponents S (evs ++ received ord (snapshotToPrometheus S ordS snap now labels ::
      ex.map fun x => counterToPrometheus S x.name x.value now x.labels)) (R ++ (V ++ X)) := by
    apply fromComponents_append hev
    exact .snapshot ordS snap now labels ls V hn hg.1 (fun c hc => hs c.1 (hg.2 c hc).1 (hg.2 c hc).2.1 (hg.2 c hc).2.2) hp ha
      (List.Perm.refl _) (fromComponents_extras S ord now hn ex hex)
  obtain ⟨set, text, set', h1, h2, h3⟩ := C72_component_counters_are_served S hall ordR
  have hasc := fromComponents_ascending hall
  have hD : (V ++ X).Pairwise (fun a b => ¬ SameSeries b a) := by
    rw [List.pairwise_append]
    refine ⟨?_, ?_, ?_⟩
    · rw [List.pairwise_map]
      have := hg.1
      rw [List.Nodup, List.pairwise_map] at this
      exact this.imp (fun hab hss => hab hss.1.symm)
    · rw [List.pairwise_map]
      refine List.Pairwise.imp_of_mem ?_ hdist
      intro x y hx hy hxy hss
      exact hxy (strict_perm_eq Label.name hss.2 (hex y hy).2.2.2 (hex x hx).2.2.2).symm
    · intro a hma b hmb hss
      obtain ⟨c, -, rfl⟩ := List.mem_map.1 hma
      obtain ⟨x, hx, rfl⟩ := List.mem_map.1 hmb
      exact hlen x hx hss.2.length_eq
  refine ⟨set, text, set', h1, h2, ?_, ?_⟩
  · intro c hc
    have hm : (⟨c.1, ls, wrap64 c.2, shownMillis now⟩ : VMetric) ∈ V ++ X :=
      List.mem_append_left _ (List.mem_map.2 ⟨c, hc, rfl⟩)
    exact shows_hasLine h3 (latest_of_distinct hD hm) ha
  · intro x hx
    have hm : (⟨x.name, x.sorted, x.value, shownMillis now⟩ : VMetric) ∈ V ++ X :=
      List.mem_append_right _ (List.mem_map.2 ⟨x, hx, rfl⟩)
    exact shows_hasLine h3 (latest_of_distinct hD hm) (hex x hx).2.2.2

/-! ## The labels of the components -/

theorem sendable_labels (c : Bytes) (ls : List Label) (h1 : c ≠ []) (h2 : NameOK c) (h3 : NL ∉ c)
    (hnames : ∀ l ∈ ls, l.name ∈ [b!"component", b!"name", b!"host", b!"rule", b!"subject", b!"influxdb_address",
      b!"influxdb_port", b!"influxdb_dbname"])
    (hvals : ∀ l ∈ ls, Plain l.value) (hd : (ls.map (·.name)).Nodup) : Sendable c ls := by
  have ok : ∀ n ∈ [b!"component", b!"name", b!"host", b!"rule", b!"subject", b!"influxdb_address",
      b!"influxdb_port", b!"influxdb_dbname"], ¬ b!"=\"" <:+: n ∧ n.head? ≠ some RBRACE ∧ NL ∉ n := by decide +kernel
  refine ⟨h1, h2, h3, ?_, hd⟩
  intro l hl
  obtain ⟨a, b, d⟩ := ok _ (hnames l hl)
  exact ⟨⟨a, (hvals l hl).1⟩, b, d, (hvals l hl).2⟩

/-- The sorted labels of a component. -/
def baseLabels (component name hostname : Bytes) : List Label :=
  [⟨b!"component", component⟩, ⟨b!"host", hostname⟩, ⟨b!"name", name⟩]

theorem ascending_of_names {ls : List Label} {ns : List Bytes} (h : ls.map (·.name) = ns)
    (hp : ns.Pairwise fun a b => bytesLt a b = true) : Ascending ls := by
  unfold Ascending
  rw [← h, List.pairwise_map] at hp
  exact hp

theorem baseLabels_perm (component name hostname : Bytes) :
    (baseLabels component name hostname).Perm (newLabels component name hostname) :=
  (List.Perm.swap _ _ []).cons _

theorem baseLabels_ascending (component name hostname : Bytes) : Ascending (baseLabels component name hostname) :=
  ascending_of_names (ns := [b!"component", b!"host", b!"name"]) rfl (by decide +kernel)

theorem base_sendable (component name hostname c : Bytes) (hc : Plain component) (hn : Plain name) (hh : Plain hostname)
    (h1 : c ≠ []) (h2 : NameOK c) (h3 : NL ∉ c) : Sendable c (newLabels component name hostname) := by
  refine sendable_labels c _ h1 h2 h3 ?_ ?_ ?_
  · intro l hl
    simp only [newLabels, List.mem_cons, List.not_mem_nil, or_false] at hl
    rcases hl with rfl | rfl | rfl <;> simp
  · intro l hl
    simp only [newLabels, List.mem_cons, List.not_mem_nil, or_false] at hl
    rcases hl with rfl | rfl | rfl
    · exact hc
    · exact hn
    · exact hh
  · show [b!"component", b!"name", b!"host"].Nodup
    decide

/-! ## C74 -/

/-- **C74 (listener).** After a listener's statistics arrive, the page shows every counter. -/
theorem C74_listener_statistics_shown (S : Sorter) (ord ordS ordR : MapOrder) {evs : List MEv} {R : List VMetric}
    (hev : FromComponents S evs R) (name hostname : Bytes) (hn : Plain name) (hh : Plain hostname)
    (snap : List (Bytes × Nat)) (hg : GoodCounters snap) (now : Int) (ht : InInt64 now) :
    ∃ set text set', monitorRun S [] (evs ++ received ord (listenerStats S ordS name hostname snap now)) = .ok set ∧
      scrape S ordR set = .ok (text, set') ∧
      ∀ c ∈ snap, HasLine text (metricLine ⟨c.1,
        [⟨b!"component", b!"listener"⟩, ⟨b!"host", hostname⟩, ⟨b!"name", name⟩], wrap64 c.2, shownMillis now⟩) := by
  obtain ⟨set, text, set', h1, h2, h3, -⟩ := round_shown S ord ordS hev snap hg now ht _ _
    (fun c => base_sendable b!"listener" name hostname c ⟨by decide, by decide⟩ hn hh)
    (baseLabels_perm _ _ _) (baseLabels_ascending _ _ _) [] (by simp) (by simp) (by simp) ordR
  exact ⟨set, text, set', h1, h2, h3⟩

/-- Components whose extra counters carry one more label that sorts last. -/
theorem tagged_shown (S : Sorter) (ord ordS ordR : MapOrder) {evs : List MEv} {R : List VMetric}
    (hev : FromComponents S evs R) (component name hostname counter tag : Bytes)
    (hc : Plain component) (hn : Plain name) (hh : Plain hostname)
    (htag : tag = b!"rule" ∨ tag = b!"subject") (hcn : counter ≠ []) (hco : NameOK counter) (hcl : NL ∉ counter)
    (snap : List (Bytes × Nat)) (hg : GoodCounters snap) (subjects : List Bytes) (counts : List Nat)
    (hsub : ∀ s ∈ subjects, Plain s) (hdis : subjects.Nodup) (now : Int) (ht : InInt64 now) :
    ∃ set text set', monitorRun S [] (evs ++ received ord
        (snapshotToPrometheus S ordS snap now (newLabels component name hostname) ::
          (subjects.zip counts).map fun e =>
            counterToPrometheus S counter (wrap64 e.2) now (withLabel (newLabels component name hostname) tag e.1))) = .ok set ∧
      scrape S ordR set = .ok (text, set') ∧
      (∀ c ∈ snap, HasLine text (metricLine ⟨c.1,
        [⟨b!"component", component⟩, ⟨b!"host", hostname⟩, ⟨b!"name", name⟩], wrap64 c.2, shownMillis now⟩)) ∧
      (∀ e ∈ subjects.zip counts, HasLine text (metricLine ⟨counter,
        [⟨b!"component", component⟩, ⟨b!"host", hostname⟩, ⟨b!"name", name⟩, ⟨tag, e.1⟩], wrap64 e.2, shownMillis now⟩)) := by
  let ex : List Extra := (subjects.zip counts).map fun e =>
    ⟨counter, wrap64 e.2, withLabel (newLabels component name hostname) tag e.1,
      baseLabels component name hostname ++ [⟨tag, e.1⟩]⟩
  have hmemS : ∀ e ∈ subjects.zip counts, e.1 ∈ subjects := fun e he => (List.of_mem_zip he).1
  have hex : ∀ x ∈ ex, InInt64 x.value ∧ Sendable x.name x.labels ∧ x.sorted.Perm x.labels ∧ Ascending x.sorted := by
    intro x hx
    obtain ⟨e, he, rfl⟩ := List.mem_map.1 hx
    refine ⟨inInt64_wrap64 _, ?_, ?_, ?_⟩
    · refine sendable_labels _ _ hcn hco hcl ?_ ?_ ?_
      · intro l hl
        simp only [withLabel, newLabels, List.cons_append, List.nil_append, List.mem_cons, List.not_mem_nil, or_false] at hl
        rcases hl with rfl | rfl | rfl | rfl
        · simp
        · simp
        · simp
        · rcases htag with h | h <;> rw [h] <;> simp
      · intro l hl
        simp only [withLabel, newLabels, List.cons_append, List.nil_append, List.mem_cons, List.not_mem_nil, or_false] at hl
        rcases hl with rfl | rfl | rfl | rfl
        · exact hc
        · exact hn
        · exact hh
        · exact hsub _ (hmemS e he)
      · show [b!"component", b!"name", b!"host", tag].Nodup
        rcases htag with h | h <;> rw [h] <;> decide +kernel
    · exact (baseLabels_perm _ _ _).append_right _
    · refine ascending_of_names (ns := [b!"component", b!"host", b!"name", tag]) rfl ?_
      rcases htag with h | h <;> rw [h] <;> decide +kernel
  have hlen : ∀ x ∈ ex, x.sorted.length ≠ (baseLabels component name hostname).length := by
    intro x hx
    obtain ⟨e, he, rfl⟩ := List.mem_map.1 hx
    simp [baseLabels]
  have hdist : ex.Pairwise (fun x y => x.sorted ≠ y.sorted) := by
    rw [List.pairwise_map]
    have hz : ((subjects.zip counts).map (·.1)).Nodup := by
      refine List.Nodup.sublist ?_ hdis
      have : ∀ (a : List Bytes) (b : List Nat), ((a.zip b).map (·.1)).Sublist a := by
        intro a
        induction a with
        | nil => intro b; simp
        | cons x a ih =>
          intro b
          cases b with
          | nil => simp
          | cons y b => simp; exact ih b
      exact this subjects counts
    rw [List.Nodup, List.pairwise_map] at hz
    refine hz.imp ?_
    intro a b hab he
    apply hab
    have := List.append_cancel_left he
    injection this with this
    injection this
  obtain ⟨set, text, set', h1, h2, h3, h4⟩ := round_shown S ord ordS hev snap hg now ht _ _
    (fun c => base_sendable component name hostname c hc hn hh)
    (baseLabels_perm _ _ _) (baseLabels_ascending _ _ _) ex hex hlen hdist ordR
  refine ⟨set, text, set', ?_, h2, h3, ?_⟩
  · have e : ((subjects.zip counts).map fun e =>
            counterToPrometheus S counter (wrap64 e.2) now (withLabel (newLabels component name hostname) tag e.1))
        = ex.map fun x => counterToPrometheus S x.name x.value now x.labels := by
      show _ = ((subjects.zip counts).map _).map _
      rw [List.map_map]
      rfl
    rw [e]
    exact h1
  · intro e he
    exact h4 _ (List.mem_map.2 ⟨e, he, rfl⟩)

/-- **C74 (filter).** After a filter's statistics arrive, the page shows every
counter and, if the rules have different subjects, the number of lines each
rule has matched. -/
theorem C74_filter_statistics_shown (S : Sorter) (ord ordS ordR : MapOrder) {evs : List MEv} {R : List VMetric}
    (hev : FromComponents S evs R) (name hostname : Bytes) (hn : Plain name) (hh : Plain hostname)
    (snap : List (Bytes × Nat)) (hg : GoodCounters snap) (subjects : List Bytes) (ruleCounts : List Nat)
    (hsub : ∀ s ∈ subjects, Plain s) (hdis : subjects.Nodup) (now : Int) (ht : InInt64 now) :
    ∃ set text set', monitorRun S [] (evs ++ received ord (filterStats S ordS name hostname snap subjects ruleCounts now)) = .ok set ∧
      scrape S ordR set = .ok (text, set') ∧
      (∀ c ∈ snap, HasLine text (metricLine ⟨c.1,
        [⟨b!"component", b!"filter"⟩, ⟨b!"host", hostname⟩, ⟨b!"name", name⟩], wrap64 c.2, shownMillis now⟩)) ∧
      (∀ e ∈ subjects.zip ruleCounts, HasLine text (metricLine ⟨b!"triggered",
        [⟨b!"component", b!"filter"⟩, ⟨b!"host", hostname⟩, ⟨b!"name", name⟩, ⟨b!"rule", e.1⟩], wrap64 e.2, shownMillis now⟩)) :=
  tagged_shown S ord ordS ordR hev b!"filter" name hostname b!"triggered" b!"rule" ⟨by decide, by decide⟩ hn hh
    (Or.inl rfl) (by decide) (by unfold NameOK; decide) (by decide) snap hg subjects ruleCounts hsub hdis now ht

/-- **C74 (downsampler).** After a downsampler's statistics arrive, the page
shows every counter and the number of messages dropped for each subject. -/
theorem C74_downsampler_statistics_shown (S : Sorter) (ord ordS ordR : MapOrder) {evs : List MEv} {R : List VMetric}
    (hev : FromComponents S evs R) (name hostname : Bytes) (hn : Plain name) (hh : Plain hostname)
    (snap : List (Bytes × Nat)) (hg : GoodCounters snap) (subjects : List Bytes) (natsDrops : List Nat)
    (hsub : ∀ s ∈ subjects, Plain s) (hdis : subjects.Nodup) (now : Int) (ht : InInt64 now) :
    ∃ set text set', monitorRun S [] (evs ++ received ord (downsamplerStats S ordS name hostname snap subjects natsDrops now)) = .ok set ∧
      scrape S ordR set = .ok (text, set') ∧
      (∀ c ∈ snap, HasLine text (metricLine ⟨c.1,
        [⟨b!"component", b!"downsampler"⟩, ⟨b!"host", hostname⟩, ⟨b!"name", name⟩], wrap64 c.2, shownMillis now⟩)) ∧
      (∀ e ∈ subjects.zip natsDrops, HasLine text (metricLine ⟨b!"nats_dropped",
        [⟨b!"component", b!"downsampler"⟩, ⟨b!"host", hostname⟩, ⟨b!"name", name⟩, ⟨b!"subject", e.1⟩], wrap64 e.2, shownMillis now⟩)) :=
  tagged_shown S ord ordS ordR hev b!"downsampler" name hostname b!"nats_dropped" b!"subject" ⟨by decide, by decide⟩ hn hh
    (Or.inr rfl) (by decide) (by unfold NameOK; decide) (by decide) snap hg subjects natsDrops hsub hdis now ht

/-- The sorted labels of a writer. -/
def writerShown (name hostname address : Bytes) (port : Int) (dbName : Bytes) : List Label :=
  [⟨b!"component", b!"writer"⟩, ⟨b!"host", hostname⟩, ⟨b!"influxdb_address", address⟩, ⟨b!"influxdb_dbname", dbName⟩,
   ⟨b!"influxdb_port", itoa port⟩, ⟨b!"name", name⟩]

theorem perm_of_sort {ls ls' : List Label} (h : insertionSorter.sort Label.name ls = insertionSorter.sort Label.name ls') :
    ls.Perm ls' := (insertionSorter.perm Label.name ls).symm.trans (h ▸ insertionSorter.perm Label.name ls')

theorem writer_perm (name hostname address : Bytes) (port : Int) (dbName : Bytes) :
    (writerShown name hostname address port dbName).Perm (writerLabels name hostname address port dbName) := by
  show List.Perm [_, _, _, _, _, _] [_, _, _, _, _, _]
  refine List.Perm.cons _ ?_
  refine ((List.perm_middle (l₁ := [_, _, _, _]) (l₂ := [])).trans ?_)
  refine List.Perm.cons _ ?_
  refine List.Perm.cons _ ?_
  refine List.Perm.cons _ ?_
  exact List.Perm.swap _ _ []

theorem plain_itoa (n : Int) : Plain (itoa n) := by
  refine ⟨?_, nl_not_mem_itoa n⟩
  obtain ⟨ds, -, hd, h⟩ := itoa_decimal n
  have hds : DQ ∉ ds := by intro hm; exact absurd (hd _ hm) (by decide)
  intro hm
  rcases h with ⟨h, -⟩ | ⟨h, -⟩
  · rw [h] at hm; exact hds hm
  · rw [h] at hm
    rcases List.mem_cons.1 hm with e | e
    · exact absurd e (by decide)
    · exact hds e

/-- **C74 (writer).** After a writer's statistics arrive, the page shows every
counter and the number of messages dropped for each subscription that could be read. -/
theorem C74_writer_statistics_shown (S : Sorter) (ord ordS ordR : MapOrder) {evs : List MEv} {R : List VMetric}
    (hev : FromComponents S evs R) (name hostname address dbName : Bytes) (port : Int)
    (hn : Plain name) (hh : Plain hostname) (had : Plain address) (hdb : Plain dbName)
    (snap : List (Bytes × Nat)) (hg : GoodCounters snap) (drops : List (Bytes × Option Int))
    (hsub : ∀ s ∈ drops, Plain s.1 ∧ ∀ d, s.2 = some d → InInt64 d) (hdis : (drops.map (·.1)).Nodup) (now : Int) (ht : InInt64 now) :
    ∃ set text set', monitorRun S [] (evs ++ received ord
        (writerStats S ordS (writerLabels name hostname address port dbName) snap drops now)) = .ok set ∧
      scrape S ordR set = .ok (text, set') ∧
      (∀ c ∈ snap, HasLine text (metricLine ⟨c.1, writerShown name hostname address port dbName, wrap64 c.2, shownMillis now⟩)) ∧
      (∀ s d, (s, some d) ∈ drops → HasLine text (metricLine ⟨b!"nats_dropped",
        writerShown name hostname address port dbName ++ [⟨b!"subject", s⟩], d, shownMillis now⟩)) := by
  have hvalsW : ∀ l ∈ writerLabels name hostname address port dbName, Plain l.value := by
    intro l hl
    simp only [writerLabels, withLabel, newLabels, List.cons_append, List.nil_append, List.mem_cons, List.not_mem_nil, or_false] at hl
    rcases hl with rfl | rfl | rfl | rfl | rfl | rfl
    · exact ⟨by decide, by decide⟩
    · exact hn
    · exact hh
    · exact had
    · exact plain_itoa port
    · exact hdb
  have hnamesW : ∀ l ∈ writerLabels name hostname address port dbName, l.name ∈ [b!"component", b!"name", b!"host", b!"rule",
      b!"subject", b!"influxdb_address", b!"influxdb_port", b!"influxdb_dbname"] := by
    intro l hl
    simp only [writerLabels, withLabel, newLabels, List.cons_append, List.nil_append, List.mem_cons, List.not_mem_nil, or_false] at hl
    rcases hl with rfl | rfl | rfl | rfl | rfl | rfl <;> simp
  let pick : Bytes × Option Int → Option Extra := fun e => match e.2 with
    | some d => some ⟨b!"nats_dropped", d, withLabel (writerLabels name hostname address port dbName) b!"subject" e.1,
        writerShown name hostname address port dbName ++ [⟨b!"subject", e.1⟩]⟩
    | none => none
  have hpick : ∀ {e x}, pick e = some x → ∃ d, e.2 = some d ∧
      x = ⟨b!"nats_dropped", d, withLabel (writerLabels name hostname address port dbName) b!"subject" e.1,
        writerShown name hostname address port dbName ++ [⟨b!"subject", e.1⟩]⟩ := by
    intro e x h
    obtain ⟨s, o⟩ := e
    cases o with
    | none => cases h
    | some d => injection h with h; exact ⟨d, rfl, h.symm⟩
  let ex : List Extra := drops.filterMap pick
  have hex : ∀ x ∈ ex, InInt64 x.value ∧ Sendable x.name x.labels ∧ x.sorted.Perm x.labels ∧ Ascending x.sorted := by
    intro x hx
    obtain ⟨e, he, hpe⟩ := List.mem_filterMap.1 hx
    obtain ⟨d, hd, rfl⟩ := hpick hpe
    refine ⟨(hsub e he).2 d hd, ?_, (writer_perm _ _ _ _ _).append_right _, ?_⟩
    · refine sendable_labels b!"nats_dropped" _ (by decide) (by unfold NameOK; decide) (by decide) ?_ ?_ ?_
      · intro l hl
        rcases List.mem_append.1 hl with hl | hl
        · exact hnamesW l hl
        · simp at hl; rw [hl]; simp
      · intro l hl
        rcases List.mem_append.1 hl with hl | hl
        · exact hvalsW l hl
        · simp at hl; rw [hl]; exact (hsub e he).1
      · show [b!"component", b!"name", b!"host", b!"influxdb_address", b!"influxdb_port", b!"influxdb_dbname", b!"subject"].Nodup
        decide +kernel
    · exact ascending_of_names (ns := [b!"component", b!"host", b!"influxdb_address", b!"influxdb_dbname", b!"influxdb_port",
        b!"name", b!"subject"]) rfl (by decide +kernel)
  have hlen : ∀ x ∈ ex, x.sorted.length ≠ (writerShown name hostname address port dbName).length := by
    intro x hx
    obtain ⟨e, he, hpe⟩ := List.mem_filterMap.1 hx
    obtain ⟨d, hd, rfl⟩ := hpick hpe
    simp [writerShown]
  have hdist : ex.Pairwise (fun x y => x.sorted ≠ y.sorted) := by
    show (drops.filterMap pick).Pairwise _
    rw [List.pairwise_filterMap]
    rw [List.Nodup, List.pairwise_map] at hdis
    refine hdis.imp ?_
    intro a b hab x hx y hy he
    obtain ⟨d, hd, rfl⟩ := hpick hx
    obtain ⟨d', hd', rfl⟩ := hpick hy
    apply hab
    have := List.append_cancel_left he
    injection this with this
    injection this
  obtain ⟨set, text, set', h1, h2, h3, h4⟩ := round_shown S ord ordS hev snap hg now ht _ _
    (fun c k1 k2 k3 => sendable_labels c _ k1 k2 k3 hnamesW hvalsW (by
      show [b!"component", b!"name", b!"host", b!"influxdb_address", b!"influxdb_port", b!"influxdb_dbname"].Nodup
      decide +kernel))
    (writer_perm name hostname address port dbName)
    (ascending_of_names (ns := [b!"component", b!"host", b!"influxdb_address", b!"influxdb_dbname", b!"influxdb_port",
        b!"name"]) rfl (by decide +kernel)) ex hex hlen hdist ordR
  refine ⟨set, text, set', ?_, h2, h3, ?_⟩
  · rw [← h1]
    have : writerStats S ordS (writerLabels name hostname address port dbName) snap drops now
        = snapshotToPrometheus S ordS snap now (writerLabels name hostname address port dbName) ::
          ex.map fun x => counterToPrometheus S x.name x.value now x.labels := by
      unfold writerStats
      rw [show ex.map (fun x => counterToPrometheus S x.name x.value now x.labels) = _ from List.map_filterMap]
      refine congrArg (List.cons _) ?_
      refine congrArg (fun f => List.filterMap f drops) ?_
      funext e
      obtain ⟨s, o⟩ := e
      cases o with
      | none => rfl
      | some d => rfl
    rw [this]
  · intro s d hm
    have hp : pick (s, some d) = some ⟨b!"nats_dropped", d,
        withLabel (writerLabels name hostname address port dbName) b!"subject" s,
        writerShown name hostname address port dbName ++ [⟨b!"subject", s⟩]⟩ := rfl
    have hx := List.mem_filterMap.2 ⟨_, hm, hp⟩
    have h5 := h4 _ hx
    exact h5

/-- **C74 (limit).** Rules with the same subject share one line: only the count
of the last one is shown. -/
theorem C74_rules_sharing_a_subject :
    (do let set ← monitorRun insertionSorter [] (received plainOrder
          (filterStats insertionSorter plainOrder b!"f" b!"h" [(b!"passed", 12)] [b!"s", b!"s"] [5, 7] 1000000))
        let r ← scrape insertionSorter plainOrder set
        return r.1 : Go Bytes)
    = .ok b!"passed{component=\"filter\",host=\"h\",name=\"f\"} 12 1\ntriggered{component=\"filter\",host=\"h\",name=\"f\",rule=\"s\"} 7 1\n" := by
  decide +kernel

/-- Test: a writer's page. -/
example :
    (do let set ← monitorRun insertionSorter [] (received plainOrder
          (writerStats insertionSorter plainOrder (writerLabels b!"w" b!"h" b!"db" 8086 b!"x") [(b!"received", 3)]
            [(b!"a", some 2), (b!"b", none)] 1000000))
        let r ← scrape insertionSorter plainOrder set
        return r.1 : Go Bytes)
    = .ok b!"nats_dropped{component=\"writer\",host=\"h\",influxdb_address=\"db\",influxdb_dbname=\"x\",influxdb_port=\"8086\",name=\"w\",subject=\"a\"} 2 1\nreceived{component=\"writer\",host=\"h\",influxdb_address=\"db\",influxdb_dbname=\"x\",influxdb_port=\"8086\",name=\"w\"} 3 1\n" := by
  decide +kernel

/-- The counters of a filter are good. -/
example : GoodCounters [(b!"passed", 1), (b!"processed", 2), (b!"rejected", 3), (b!"invalid_time", 4),
    (b!"failed_nats_publish", 5), (b!"nats_dropped", 6)] := by
  unfold GoodCounters NameOK
  decide +kernel

end Spout.Prom
