import Verif.Props.Prometheus
import Verif.Lemmas.Lines

set_option linter.unusedSimpArgs false

/-! # Properties of the monitor (C54, C55, C57, C72)

A history is a list of received messages and scrapes, in the order in which
they obtained the monitor's lock; each carries the map iteration order that Go
happened to use. -/

namespace Spout.Prom

open Spout.Spec

/-! ## The specification determines the text -/

theorem sameSeries_symm {a b : VMetric} (h : SameSeries a b) : SameSeries b a := ⟨h.1.symm, h.2.symm⟩
theorem sameSeries_trans {a b c : VMetric} (h : SameSeries a b) (h' : SameSeries b c) : SameSeries a c :=
  ⟨h.1.trans h'.1, h.2.trans h'.2⟩

theorem latest_unique {R : List VMetric} {v w : VMetric} (hv : Latest R v) (hw : Latest R w) (h : SameSeries v w) :
    v = w := by
  obtain ⟨p1, q1, e1, n1⟩ := hv
  obtain ⟨p2, q2, e2, n2⟩ := hw
  rw [e1] at e2
  rcases List.append_eq_append_iff.1 e2 with ⟨t, h1, h2⟩ | ⟨t, h1, h2⟩
  · cases t with
    | nil => injection h2
    | cons x t =>
      injection h2 with h3 h4
      exact absurd (sameSeries_symm h) (n1 w (by rw [h4]; simp))
  · cases t with
    | nil => injection h2 with h3 _; exact h3.symm
    | cons x t =>
      injection h2 with h3 h4
      exact absurd h (n2 v (by rw [h4]; simp))

theorem nodup_of_map {α β : Type} (f : α → β) {l : List α} (h : (l.map f).Nodup) : l.Nodup := by
  rw [List.Nodup, List.pairwise_map] at h
  exact h.imp (fun hab e => hab (by rw [e]))

/-- The text is determined by the received metrics. -/
theorem C54_text_determined {t1 t2 : Bytes} {R : List VMetric} (h1 : Shows t1 R) (h2 : Shows t2 R) : t1 = t2 := by
  have key : ∀ {rows1 rows2 : List VMetric},
      (∀ row ∈ rows1, Ascending row.labels ∧
        ∃ v, Latest R v ∧ SameSeries row v ∧ row.value = v.value ∧ row.millis = v.millis) →
      (∀ row ∈ rows2, Ascending row.labels ∧
        ∃ v, Latest R v ∧ SameSeries row v ∧ row.value = v.value ∧ row.millis = v.millis) →
      (∀ v ∈ R, ∃ row ∈ rows2, SameSeries row v) → ∀ row ∈ rows1, row ∈ rows2 := by
    intro rows1 rows2 a1 a2 c2 row hrow
    obtain ⟨ha, v, k1, k2, k3, k4⟩ := a1 row hrow
    obtain ⟨row', hr', hs'⟩ := c2 v (latest_mem k1)
    obtain ⟨ha', w, j1, j2, j3, j4⟩ := a2 row' hr'
    have hvw : v = w := latest_unique k1 j1 (sameSeries_trans (sameSeries_symm hs') j2)
    subst hvw
    have hsame : SameSeries row row' := sameSeries_trans k2 (sameSeries_symm j2)
    have : row = row' := by
      have e := strict_perm_eq Label.name hsame.2 ha ha'
      have e1 := hsame.1
      cases row; cases row'
      simp_all
    rw [this]
    exact hr'
  obtain ⟨rows1, e1, p1, a1, c1⟩ := h1
  obtain ⟨rows2, e2, p2, a2, c2⟩ := h2
  have n1 : rows1.Nodup := by
    have := strict_nodup seriesText rows1 p1
    exact nodup_of_map _ this
  have n2 : rows2.Nodup := by
    have := strict_nodup seriesText rows2 p2
    exact nodup_of_map _ this
  have hperm : rows1.Perm rows2 := by
    apply (List.perm_ext_iff_of_nodup n1 n2).2
    intro row
    exact ⟨key a1 a2 c2 row, key a2 a1 c1 row⟩
  rw [e1, e2, strict_perm_eq seriesText hperm p1 p2]

/-! ## C54 -/

/-- The claim of C54, for every history. -/
def MonitorServesLatest : Prop :=
  ∀ (S : Sorter) (evs : List MEv) (set : MetricSet) (ord : MapOrder) (R : List VMetric) (text : Bytes) (set' : MetricSet),
    monitorRun S [] evs = .ok set → Received evs R → scrape S ord set = .ok (text, set') → Shows text R

/-- **C54 (partial).** After any history in which label names are distinct
within a line and every line received before an earlier scrape listed its
labels in ascending order, a scrape answers with exactly the latest metric of
every series: one line each, in ascending order.  `Orderly` is void of ordering
conditions for a monitor that is scraped for the first time, and holds for what
the components send (`C72_component_lines_ordered`).  Missing: lines with
unsorted labels received before an earlier scrape, for which the claim is
false (`C54_not_for_unsorted_labels`). -/
theorem C54_serves_latest_partial (S : Sorter) (evs : List MEv) (ho : Orderly evs) (set : MetricSet)
    (h : monitorRun S [] evs = .ok set) (ord : MapOrder) :
    ∃ R text set', Received evs R ∧ scrape S ord set = .ok (text, set') ∧ Shows text R := by
  obtain ⟨R, h1, h2, h3⟩ := run_spec S evs ho (R0 := []) (by intro v hv; cases hv)
    (by intro _ v hv; cases hv) (MInv.empty S) h
  rw [List.nil_append] at h2 h3
  obtain ⟨text, set', h4, h5, -⟩ := scrape_spec S ord h2 h3
  exact ⟨R, text, set', h1, h4, h5⟩

/-- The received metrics are determined by the history, so C54 says what is served. -/
theorem C54_received_determined {evs : List MEv} {R R' : List VMetric} (h : Received evs R) (h' : Received evs R') :
    R = R' := received_unique h h'

/-- Map iteration that follows insertion. -/
def plainOrder : MapOrder := ⟨fun l => l, fun _ => List.Perm.refl _⟩

/-- Test: three messages, two scrapes. -/
def sampleEvs : List MEv :=
  [.recv b!"b{n=\"1\"} 5\na 1 10\n" plainOrder, .scrape plainOrder, .recv b!"a 2 20" plainOrder,
   .recv b!"a 3\nbad\n" plainOrder, .recv b!"b{n=\"2\",h=\"x\"} 7" plainOrder]

example : (do let set ← monitorRun insertionSorter [] sampleEvs
              let r ← scrape insertionSorter plainOrder set
              return r.1 : Go Bytes)
    = .ok b!"a 2 20\nb{h=\"x\",n=\"2\"} 7\nb{n=\"1\"} 5\n" := by decide +kernel

/-- The history of the test is orderly. -/
example : Orderly sampleEvs := by
  have one : ∀ (line : Bytes) (m : Metric), parseMetric line = .ok (.ok m) → LineOf line (view m) := fun _ _ h => parse_lineOf h
  have bad : ∀ (line : Bytes) (e : PErr), parseMetric line = .ok (.error e) → ∀ v, ¬ LineOf line v := by
    intro line e h v hv
    obtain ⟨m, hm, -⟩ := parse_of_lineOf hv
    rw [h] at hm; injection hm with hm; cases hm
  have get : ∀ (line : Bytes) (m : Metric), parseMetric line = .ok (.ok m) → ∀ v, LineOf line v → v = view m :=
    fun line m h v hv => lineOf_unique hv (parse_lineOf h)
  intro pre data ord post he line hl v hv
  have hcase : (data = b!"b{n=\"1\"} 5\na 1 10\n" ∨ data = b!"a 2 20" ∨ data = b!"a 3\nbad\n") ∨
      (data = b!"b{n=\"2\",h=\"x\"} 7" ∧ post = []) := by
    unfold sampleEvs at he
    match pre, he with
    | [], he => injection he with h1 _; injection h1 with h1 _; exact Or.inl (Or.inl h1.symm)
    | [_], he => injection he with _ he; injection he with h1 _; cases h1
    | [_, _], he =>
      injection he with _ he; injection he with _ he; injection he with h1 _; injection h1 with h1 _
      exact Or.inl (Or.inr (Or.inl h1.symm))
    | [_, _, _], he =>
      injection he with _ he; injection he with _ he; injection he with _ he; injection he with h1 _; injection h1 with h1 _
      exact Or.inl (Or.inr (Or.inr h1.symm))
    | [_, _, _, _], he =>
      injection he with _ he; injection he with _ he; injection he with _ he; injection he with _ he
      injection he with h1 h2; injection h1 with h1 _
      exact Or.inr ⟨h1.symm, h2.symm⟩
    | _ :: _ :: _ :: _ :: _ :: rest, he =>
      injection he with _ he; injection he with _ he; injection he with _ he; injection he with _ he
      injection he with _ he
      cases rest <;> cases he
  rcases hcase with (rfl | rfl | rfl) | ⟨rfl, rfl⟩
  · rw [show msgLines b!"b{n=\"1\"} 5\na 1 10\n" = [b!"b{n=\"1\"} 5", b!"a 1 10"] by decide +kernel] at hl
    simp only [List.mem_cons, List.not_mem_nil, or_false] at hl
    rcases hl with rfl | rfl
    · rw [get _ ⟨b!"b{n=\"1\"} 5", 1, [⟨2, 1, 5, 1⟩], 5, 0⟩ (by decide +kernel) v hv]
      exact ⟨by decide +kernel, fun _ => by unfold Ascending; decide +kernel⟩
    · rw [get _ ⟨b!"a 1 10", 1, [], 1, 10⟩ (by decide +kernel) v hv]
      exact ⟨by decide +kernel, fun _ => by unfold Ascending; decide +kernel⟩
  · rw [show msgLines b!"a 2 20" = [b!"a 2 20"] by decide +kernel] at hl
    simp only [List.mem_cons, List.not_mem_nil, or_false] at hl
    subst hl
    rw [get _ ⟨b!"a 2 20", 1, [], 2, 20⟩ (by decide +kernel) v hv]
    exact ⟨by decide +kernel, fun _ => by unfold Ascending; decide +kernel⟩
  · rw [show msgLines b!"a 3\nbad\n" = [b!"a 3", b!"bad"] by decide +kernel] at hl
    simp only [List.mem_cons, List.not_mem_nil, or_false] at hl
    rcases hl with rfl | rfl
    · rw [get _ ⟨b!"a 3", 1, [], 3, 0⟩ (by decide +kernel) v hv]
      exact ⟨by decide +kernel, fun _ => by unfold Ascending; decide +kernel⟩
    · exact absurd hv (bad _ .noValue (by decide +kernel) v)
  · rw [show msgLines b!"b{n=\"2\",h=\"x\"} 7" = [b!"b{n=\"2\",h=\"x\"} 7"] by decide +kernel] at hl
    simp only [List.mem_cons, List.not_mem_nil, or_false] at hl
    subst hl
    rw [get _ ⟨b!"b{n=\"2\",h=\"x\"} 7", 1, [⟨2, 1, 5, 1⟩, ⟨8, 1, 11, 1⟩], 7, 0⟩ (by decide +kernel) v hv]
    refine ⟨by decide +kernel, ?_⟩
    rintro ⟨o, ho⟩
    cases ho

/-- **C54 is false without that condition**: after a scrape, a line with
unsorted labels of different lengths is served damaged. -/
theorem C54_not_for_unsorted_labels : ¬ MonitorServesLatest := by
  intro h
  have hl : parseMetric b!"f{bb=\"1\",a=\"2\"} 5"
      = .ok (.ok ⟨b!"f{bb=\"1\",a=\"2\"} 5", 1, [⟨2, 2, 6, 1⟩, ⟨9, 1, 12, 1⟩], 5, 0⟩) := by decide +kernel
  have hlines : ∃ vs, LinesOf (msgLines b!"f{bb=\"1\",a=\"2\"} 5") vs := by
    rw [show msgLines b!"f{bb=\"1\",a=\"2\"} 5" = [b!"f{bb=\"1\",a=\"2\"} 5"] by decide +kernel]
    exact ⟨_, .cons (parse_lineOf hl) .nil⟩
  obtain ⟨vs, hvs⟩ := hlines
  have r1 : ∃ set set', monitorRun insertionSorter [] [.recv b!"f{bb=\"1\",a=\"2\"} 5" plainOrder] = .ok set ∧
      scrape insertionSorter plainOrder set = .ok (b!"f{a=\"2\",bb=\"1\"} 5\n", set') :=
    ⟨[(b!"f{a=\"2\",bb=\"1\"}", ⟨b!"f{bb=\"1\",a=\"2\"} 5", 1, [⟨9, 1, 12, 1⟩, ⟨2, 2, 6, 1⟩], 5, 0⟩)],
     [(b!"f{a=\"2\",bb=\"1\"}", ⟨b!"f{a=\"2\",bb=\"1\"} 5", 1, [⟨9, 1, 12, 1⟩, ⟨2, 2, 6, 1⟩], 5, 0⟩)],
     by decide +kernel, by decide +kernel⟩
  have r2 : ∃ set set', monitorRun insertionSorter []
        [.recv b!"f{bb=\"1\",a=\"2\"} 5" plainOrder, .scrape plainOrder] = .ok set ∧
      scrape insertionSorter plainOrder set = .ok (b!"f{a==\"\"\",b=\"1\"} 5\n", set') :=
    ⟨[(b!"f{a=\"2\",bb=\"1\"}", ⟨b!"f{a=\"2\",bb=\"1\"} 5", 1, [⟨9, 1, 12, 1⟩, ⟨2, 2, 6, 1⟩], 5, 0⟩)],
     [(b!"f{a=\"2\",bb=\"1\"}", ⟨b!"f{a==\"\"\",b=\"1\"} 5", 1, [⟨2, 2, 6, 1⟩, ⟨9, 1, 12, 1⟩], 5, 0⟩)],
     by decide +kernel, by decide +kernel⟩
  obtain ⟨s1, s1', e1, e2⟩ := r1
  obtain ⟨s2, s2', e3, e4⟩ := r2
  have t1 := h insertionSorter _ s1 plainOrder (vs ++ []) _ s1' e1 (.valid hvs .nil) e2
  have t2 := h insertionSorter _ s2 plainOrder (vs ++ []) _ s2' e3 (.valid hvs (.scrape .nil)) e4
  exact absurd (C54_text_determined t1 t2) (by decide +kernel)

/-! ## C55 -/

/-- The claim of C55. -/
def MalformedMessageIgnored : Prop :=
  ∀ (S : Sorter) (ord : MapOrder) (set : MetricSet) (data : Bytes),
    (∃ line ∈ msgLines data, ¬ ∃ v, LineOf line v) → receiveMetrics S ord set data = .ok set

/-- **C55 is false** because a malformed line may crash the monitor (C56). -/
theorem C55_malformed_message_may_crash : ¬ MalformedMessageIgnored := by
  intro h
  have h1 := h insertionSorter plainOrder [] b!"foo{a=\"b\"}" ⟨b!"foo{a=\"b\"}", by decide +kernel, by
    rintro ⟨v, hv⟩
    obtain ⟨m, hm, -⟩ := parse_of_lineOf hv
    rw [show parseMetric b!"foo{a=\"b\"}" = .panic by decide +kernel] at hm
    cases hm⟩
  rw [C56_monitor_can_crash] at h1
  cases h1

/-- **C55 (partial).** A message with an invalid line changes nothing, unless
it crashes the monitor.  Missing: the messages that do (a line of
`C56_panics_exactly` before every other invalid line,
`C55_ignored_or_crash_exactly`). -/
theorem C55_malformed_message_ignored_partial (S : Sorter) (ord : MapOrder) (set : MetricSet) (data : Bytes)
    (line : Bytes) (hl : line ∈ msgLines data) (hbad : ¬ ∃ v, LineOf line v) :
    receiveMetrics S ord set data = .ok set ∨ receiveMetrics S ord set data = .panic := by
  cases h : receiveMetrics S ord set data with
  | panic => exact Or.inr rfl
  | ok set' =>
    left
    rcases receive_cases S ord h with ⟨vs, h1, -⟩ | ⟨-, h2⟩
    · exact absurd (linesOf_all h1 line hl) hbad
    · rw [h2]

theorem parseLines_split (S : Sorter) (set : MetricSet) (good : List Bytes) (line : Bytes) (rest : List Bytes)
    (hg : ∀ l ∈ good, ∃ v, LineOf l v) (hne : ∀ l ∈ good, l ≠ []) (hl : line ≠ []) (hbad : ¬ ∃ v, LineOf line v) :
    (parseLines S set (good ++ line :: rest) = .panic ∧ parseMetric line = .panic) ∨
    ((∃ e, parseLines S set (good ++ line :: rest) = .ok (.error e)) ∧ parseMetric line ≠ .panic) := by
  induction good generalizing set with
  | nil =>
    rw [List.nil_append, parseLines_cons S set line rest hl]
    cases hp : parseMetric line with
    | panic => exact Or.inl ⟨rfl, rfl⟩
    | ok x =>
      cases x with
      | error e => exact Or.inr ⟨⟨e, rfl⟩, by intro h; cases h⟩
      | ok m => exact absurd ⟨_, parse_lineOf hp⟩ hbad
  | cons g good ih =>
    rw [List.cons_append, parseLines_cons S set g _ (hne g (by simp))]
    obtain ⟨v, hv⟩ := hg g (by simp)
    obtain ⟨m, hm, -⟩ := parse_of_lineOf hv
    rw [hm]
    exact ih _ (fun l h => hg l (List.mem_cons_of_mem _ h)) (fun l h => hne l (List.mem_cons_of_mem _ h))

/-- **C55 (exact).** Let `line` be the first invalid line of a message.  If it
is one of the crashing lines the monitor crashes, otherwise the message is
ignored. -/
theorem C55_ignored_or_crash_exactly (S : Sorter) (ord : MapOrder) (set : MetricSet) (data : Bytes)
    (good : List Bytes) (line : Bytes) (rest : List Bytes) (hd : msgLines data = good ++ line :: rest)
    (hg : ∀ l ∈ good, ∃ v, LineOf l v) (hbad : ¬ ∃ v, LineOf line v) :
    receiveMetrics S ord set data = if parseMetric line = .panic then .panic else .ok set := by
  have hne := msgLines_ne data
  rw [hd] at hne
  unfold receiveMetrics parseMetrics
  rw [parseLines_filter, show (splitNL data).filter (fun l => l ≠ []) = msgLines data from rfl, hd]
  rcases parseLines_split S [] good line rest hg (fun l h => hne l (by simp [h])) (hne line (by simp)) hbad with
    ⟨h1, h2⟩ | ⟨⟨e, h1⟩, h2⟩
  · rw [h1, if_pos h2]; rfl
  · rw [h1, if_neg h2]; rfl

/-- Test: a good line does not help. -/
example : (do let set ← monitorRun insertionSorter [] [.recv b!"a 1" plainOrder, .recv b!"a 2\nb 1\nnovalue" plainOrder]
              let r ← scrape insertionSorter plainOrder set
              return r.1 : Go Bytes) = .ok b!"a 1\n" := by decide +kernel

/-! ## C57 -/

/-- The claim of C57. -/
def ScrapesRepeat : Prop :=
  ∀ (S : Sorter) (evs : List MEv) (set : MetricSet) (o1 o2 : MapOrder) (t1 t2 : Bytes) (s1 s2 : MetricSet),
    monitorRun S [] evs = .ok set → scrape S o1 set = .ok (t1, s1) → scrape S o2 s1 = .ok (t2, s2) → t1 = t2

/-- **C57 is false**: rendering a metric overwrites the memory its labels live in. -/
theorem C57_scraping_can_change_what_is_served : ¬ ScrapesRepeat := by
  intro h
  have := h insertionSorter [.recv b!"f{bb=\"1\",a=\"2\"} 5" plainOrder]
    [(b!"f{a=\"2\",bb=\"1\"}", ⟨b!"f{bb=\"1\",a=\"2\"} 5", 1, [⟨9, 1, 12, 1⟩, ⟨2, 2, 6, 1⟩], 5, 0⟩)]
    plainOrder plainOrder b!"f{a=\"2\",bb=\"1\"} 5\n" b!"f{a==\"\"\",b=\"1\"} 5\n"
    [(b!"f{a=\"2\",bb=\"1\"}", ⟨b!"f{a=\"2\",bb=\"1\"} 5", 1, [⟨9, 1, 12, 1⟩, ⟨2, 2, 6, 1⟩], 5, 0⟩)]
    [(b!"f{a=\"2\",bb=\"1\"}", ⟨b!"f{a==\"\"\",b=\"1\"} 5", 1, [⟨2, 2, 6, 1⟩, ⟨9, 1, 12, 1⟩], 5, 0⟩)]
    (by decide +kernel) (by decide +kernel) (by decide +kernel)
  exact absurd this (by decide +kernel)

theorem received_scrape {evs : List MEv} {R : List VMetric} (h : Received evs R) (o : MapOrder) :
    Received (evs ++ [.scrape o]) R := by
  induction h with
  | nil => exact .scrape .nil
  | scrape _ ih => exact .scrape ih
  | valid h1 _ ih => exact .valid h1 ih
  | invalid l h1 h2 _ ih => exact .invalid l h1 h2 ih

theorem monitorRun_append (S : Sorter) (a b : List MEv) (set : MetricSet) :
    monitorRun S set (a ++ b) = (monitorRun S set a >>= fun s => monitorRun S s b) := by
  induction a generalizing set with
  | nil => rfl
  | cons e a ih =>
    rw [List.cons_append]
    show (monitorStep S set e >>= fun s => monitorRun S s (a ++ b))
      = ((monitorStep S set e >>= fun s => monitorRun S s a) >>= fun s => monitorRun S s b)
    cases monitorStep S set e with
    | panic => rfl
    | ok s => exact ih s

/-- **C57 (partial).** If every line received so far lists its labels in
ascending order of name, scrapes repeat: any two consecutive scrapes return the
same text.  Missing: lines with unsorted labels. -/
theorem C57_scrapes_repeat_partial (S : Sorter) (evs : List MEv) (o1 o2 : MapOrder)
    (ho : Orderly (evs ++ [.scrape o1])) (set : MetricSet) (t1 t2 : Bytes) (s1 s2 : MetricSet)
    (h : monitorRun S [] evs = .ok set) (h1 : scrape S o1 set = .ok (t1, s1)) (h2 : scrape S o2 s1 = .ok (t2, s2)) :
    t1 = t2 := by
  have ho' : Orderly evs := by
    intro pre data ord post he line hl v hv
    obtain ⟨k1, k2⟩ := ho pre data ord (post ++ [.scrape o1]) (by rw [he]; simp) line hl v hv
    exact ⟨k1, fun _ => k2 ⟨o1, by simp⟩⟩
  obtain ⟨R, text, set', r1, r2, r3⟩ := C54_serves_latest_partial S evs ho' set h o1
  rw [h1] at r2
  injection r2 with r2; injection r2 with r2 r4
  subst r2
  have hrun : monitorRun S [] (evs ++ [.scrape o1]) = .ok s1 := by
    rw [monitorRun_append, h]
    simp only [Go.ok_bind]
    unfold monitorRun monitorStep
    dsimp only
    rw [h1]
    rfl
  obtain ⟨R2, text2, set2, q1, q2, q3⟩ := C54_serves_latest_partial S _ ho s1 hrun o2
  rw [h2] at q2
  injection q2 with q2; injection q2 with q2 q4
  subst q2
  rw [received_unique q1 (received_scrape r1 o1)] at q3
  exact C54_text_determined r3 q3

/-! ## C72: what the components send -/

theorem splitNL_line (l b : Bytes) (h : NL ∉ l) : splitNL (l ++ NL :: b) = l :: splitNL b := by
  induction l with
  | nil => simp [splitNL]
  | cons c l ih =>
    have h1 : c ≠ NL := fun e => h (by simp [e])
    rw [List.cons_append]
    conv => lhs; unfold splitNL
    rw [if_neg h1, ih (fun e => h (List.mem_cons_of_mem _ e))]

theorem splitNL_noNL (l : Bytes) (h : NL ∉ l) : splitNL l = [l] := by
  induction l with
  | nil => rfl
  | cons c l ih =>
    have h1 : c ≠ NL := fun e => h (by simp [e])
    unfold splitNL
    rw [if_neg h1, ih (fun e => h (List.mem_cons_of_mem _ e))]

theorem msgLines_lines (ls : List Bytes) (h : ∀ l ∈ ls, NL ∉ l ∧ l ≠ []) :
    msgLines ((ls.map (· ++ [NL])).flatten) = ls := by
  have hs : splitNL ((ls.map (· ++ [NL])).flatten) = ls ++ [[]] := by
    induction ls with
    | nil => rfl
    | cons l ls ih =>
      rw [List.map_cons, List.flatten_cons]
      rw [show l ++ [NL] ++ (ls.map (· ++ [NL])).flatten = l ++ NL :: (ls.map (· ++ [NL])).flatten by simp,
        splitNL_line l _ (h l (by simp)).1, ih (fun x hx => h x (List.mem_cons_of_mem _ hx))]
      rfl
  unfold msgLines
  rw [hs, List.filter_append]
  simp
  intro l hl
  exact (h l hl).2

theorem nl_not_mem_itoa (n : Int) : NL ∉ itoa n := by
  obtain ⟨ds, -, hd, h⟩ := itoa_decimal n
  have hds : NL ∉ ds := by intro hm; exact absurd (hd _ hm) (by decide)
  intro hm
  rcases h with ⟨h, -⟩ | ⟨h, -⟩
  · rw [h] at hm; exact hds hm
  · rw [h] at hm
    rcases List.mem_cons.1 hm with e | e
    · exact absurd e (by decide)
    · exact hds e

theorem nl_not_mem_labelsLoop (ls : List Label) (h : ∀ l ∈ ls, NL ∉ l.name ∧ NL ∉ l.value) : NL ∉ labelsLoop ls := by
  have ht : ∀ l : Label, NL ∉ l.name → NL ∉ l.value → NL ∉ labelText l := by
    intro l h1 h2
    unfold labelText
    simp only [List.mem_append, not_or]
    exact ⟨⟨⟨h1, by decide⟩, h2⟩, by decide⟩
  induction ls with
  | nil => simp [labelsLoop]
  | cons l ls ih =>
    have hl := ht l (h l (by simp)).1 (h l (by simp)).2
    cases ls with
    | nil => rw [labelsLoop_one]; exact hl
    | cons k ls =>
      rw [labelsLoop_cons2]
      intro hm
      rcases List.mem_append.1 hm with e | e
      · exact hl e
      · rcases List.mem_cons.1 e with e | e
        · exact absurd e (by decide)
        · exact ih (fun x hx => h x (List.mem_cons_of_mem _ hx)) e

theorem metricLine_noNL (m : VMetric) (hn : NL ∉ m.name) (hl : ∀ l ∈ m.labels, NL ∉ l.name ∧ NL ∉ l.value) :
    NL ∉ metricLine m ∧ metricLine m ≠ [] := by
  have hL : NL ∉ labelList m.labels := by rw [← labelsLoop_eq]; exact nl_not_mem_labelsLoop _ hl
  constructor
  · unfold metricLine
    simp only [List.mem_append, not_or]
    refine ⟨⟨⟨⟨hn, ?_⟩, by decide⟩, nl_not_mem_itoa _⟩, ?_⟩
    · by_cases h : m.labels = []
      · simp [h]
      · rw [if_neg h]
        simp only [List.mem_append, not_or]
        exact ⟨⟨by decide, hL⟩, by decide⟩
    · by_cases h : m.millis > 0
      · rw [if_pos h]
        simp only [List.mem_append, not_or]
        exact ⟨by decide, nl_not_mem_itoa _⟩
      · rw [if_neg h]; simp
  · unfold metricLine
    simp

theorem inInt64_millis {now : Int} (h : InInt64 now) : InInt64 (timeToMillis now) := by
  unfold InInt64 at *
  unfold timeToMillis
  obtain ⟨h1, h2⟩ := h
  have hab : (now.tdiv 1000000).natAbs ≤ now.natAbs := by
    rw [Int.natAbs_tdiv]
    exact Nat.div_le_self _ _
  by_cases hs : 0 ≤ now
  · have h0 : 0 ≤ now.tdiv 1000000 := Int.tdiv_nonneg hs (by decide)
    omega
  · have h0 : now.tdiv 1000000 ≤ 0 := by
      have := Int.tdiv_nonneg (a := -now) (b := 1000000) (by omega) (by decide)
      rw [Int.neg_tdiv] at this
      omega
    omega

/-- One metric of a component on the wire. -/
theorem sent_line (S : Sorter) {name : Bytes} {labels : List Label} (h : Sendable name labels) (value now : Int)
    (hv : InInt64 value) (hn : InInt64 now) :
    LineOf (vToBytes S ⟨name, labels, value, timeToMillis now⟩)
        ⟨name, S.sort Label.name labels, value, max 0 (now.tdiv 1000000)⟩ ∧
      NL ∉ vToBytes S ⟨name, labels, value, timeToMillis now⟩ ∧ vToBytes S ⟨name, labels, value, timeToMillis now⟩ ≠ [] := by
  have hp := S.perm Label.name labels
  rw [vToBytes_eq]
  dsimp only
  obtain ⟨n1, n2⟩ := metricLine_noNL ⟨name, S.sort Label.name labels, value, timeToMillis now⟩ h.nameNL
    (fun l hl => (h.labelsOK l (hp.subset hl)).2.2)
  refine ⟨?_, n1, n2⟩
  exact lineOf_metricLine ⟨name, S.sort Label.name labels, value, timeToMillis now⟩ h.nameOK h.nonempty
    (fun l hl => (h.labelsOK l (hp.subset hl)).1) (fun l hl => (h.labelsOK l (hp.subset hl)).2.1) hv (inInt64_millis hn)

theorem sent_sorted (S : Sorter) {labels ls : List Label} (hd : (labels.map (·.name)).Nodup) (hp : ls.Perm labels)
    (ha : Ascending ls) : S.sort Label.name labels = ls :=
  strict_perm_eq Label.name ((S.perm _ _).trans hp.symm) (sort_strict S Label.name labels hd) ha

theorem counter_message (S : Sorter) {name : Bytes} {labels ls : List Label} (h : Sendable name labels) (value now : Int)
    (hv : InInt64 value) (hn : InInt64 now) (hp : ls.Perm labels) (ha : Ascending ls) :
    LinesOf (msgLines (counterToPrometheus S name value now labels)) [⟨name, ls, value, max 0 (now.tdiv 1000000)⟩] := by
  obtain ⟨h1, h2, h3⟩ := sent_line S h value now hv hn
  have e : msgLines (counterToPrometheus S name value now labels) = [counterToPrometheus S name value now labels] := by
    unfold msgLines counterToPrometheus
    rw [splitNL_noNL _ h2]
    simp [h3]
  rw [e]
  rw [sent_sorted S h.distinct hp ha] at h1
  exact .cons h1 .nil

theorem linesOf_map {α : Type} (l : List α) (f : α → Bytes) (g : α → VMetric) (h : ∀ x ∈ l, LineOf (f x) (g x)) :
    LinesOf (l.map f) (l.map g) := by
  induction l with
  | nil => exact .nil
  | cons x l ih => exact .cons (h x (by simp)) (ih (fun y hy => h y (List.mem_cons_of_mem _ hy)))

theorem mset_fresh {α : Type} (m : List (Bytes × α)) (k : Bytes) (v : α) (h : k ∉ m.map (·.1)) : mset m k v = m ++ [(k, v)] := by
  unfold mset
  have : ¬ (m.any fun e => e.1 == k) = true := by
    intro ha
    rw [List.any_eq_true] at ha
    obtain ⟨e, he, hk⟩ := ha
    exact h (List.mem_map.2 ⟨e, he, by simpa using hk⟩)
  rw [if_neg this]

theorem snapshot_set (f : Bytes × Nat → Bytes × VMetric) (snap : List (Bytes × Nat)) (acc : List (Bytes × VMetric))
    (h : (acc.map (·.1) ++ snap.map (fun c => (f c).1)).Nodup) :
    snap.foldl (fun set c => mset set (f c).1 (f c).2) acc = acc ++ snap.map f := by
  induction snap generalizing acc with
  | nil => simp
  | cons c snap ih =>
    rw [List.foldl_cons]
    rw [List.map_cons] at h
    have hc : (f c).1 ∉ acc.map (·.1) := by
      intro hm
      rw [List.nodup_append] at h
      exact h.2.2 _ hm _ (by simp) rfl
    rw [mset_fresh _ _ _ hc, ih]
    · simp
    · simpa using h

theorem snapshot_message (S : Sorter) (ord : MapOrder) {snap : List (Bytes × Nat)} {labels ls : List Label} (now : Int)
    (hn : InInt64 now) (hd : (snap.map (·.1)).Nodup) (hs : ∀ c ∈ snap, Sendable c.1 labels)
    (hp : ls.Perm labels) (ha : Ascending ls) :
    ∃ vs, LinesOf (msgLines (snapshotToPrometheus S ord snap now labels)) vs ∧
      vs.Perm (snap.map fun c => ⟨c.1, ls, wrap64 c.2, max 0 (now.tdiv 1000000)⟩) := by
  let f : Bytes × Nat → Bytes × VMetric := fun c =>
    (vKey S ⟨c.1, labels, wrap64 c.2, timeToMillis now⟩, ⟨c.1, labels, wrap64 c.2, timeToMillis now⟩)
  have hvok : ∀ c ∈ snap, VOK (f c).2 := fun c hc =>
    ⟨(hs c hc).nameOK, fun l hl => ((hs c hc).labelsOK l hl).1, (hs c hc).distinct⟩
  have hkeys : (snap.map (fun c => (f c).1)).Nodup := by
    rw [List.Nodup, List.pairwise_map] at hd ⊢
    refine List.Pairwise.imp_of_mem ?_ hd
    intro a b hma hmb hab e
    exact hab (vKey_inj S (hvok a hma) (hvok b hmb) e).1
  have hset : snap.foldl (fun set c => mset set (f c).1 (f c).2) [] = snap.map f := by
    rw [snapshot_set f snap [] (by simpa using hkeys)]
    rfl
  let set := snap.map f
  have hsetkeys : set.map (·.1) = snap.map (fun c => (f c).1) := by simp [set]
  have hkn : (set.map (·.1)).Nodup := by rw [hsetkeys]; exact hkeys
  let ks := S.sort id ((ord.order set).map (·.1))
  have hksP : ks.Perm (set.map (·.1)) := (S.perm id _).trans ((ord.perm set).map (·.1))
  have htext : snapshotToPrometheus S ord snap now labels =
      (ks.map fun k => (match mget set k with
        | some m => vToBytes S m ++ [NL]
        | none => [])).flatten := by
    show ((S.sort id ((ord.order (snap.foldl (fun set c => mset set (f c).1 (f c).2) [])).map (·.1))).map fun k =>
      (match mget (snap.foldl (fun set c => mset set (f c).1 (f c).2) []) k with
        | some m => vToBytes S m ++ [NL]
        | none => [])).flatten = _
    rw [hset]
  have hfind : ∀ k ∈ ks, ∃ c ∈ snap, k = (f c).1 ∧ mget set k = some (f c).2 := by
    intro k hk
    have := hksP.subset hk
    rw [hsetkeys] at this
    obtain ⟨c, hc, rfl⟩ := List.mem_map.1 this
    exact ⟨c, hc, rfl, mget_of_mem hkn (List.mem_map.2 ⟨c, hc, rfl⟩)⟩
  let line : Bytes → Bytes := fun k => match mget set k with
    | some m => vToBytes S m
    | none => []
  let val : Bytes → VMetric := fun k => match mget set k with
    | some m => ⟨m.name, ls, m.value, max 0 m.millis⟩
    | none => ⟨[], [], 0, 0⟩
  have htext2 : snapshotToPrometheus S ord snap now labels = ((ks.map line).map (· ++ [NL])).flatten := by
    rw [htext, List.map_map]
    congr 1
    apply List.map_congr_left
    intro k hk
    obtain ⟨c, hc, -, hm⟩ := hfind k hk
    show _ = line k ++ [NL]
    show _ = (match mget set k with
      | some m => vToBytes S m
      | none => []) ++ [NL]
    rw [hm]
  have hlines : ∀ k ∈ ks, LineOf (line k) (val k) ∧ NL ∉ line k ∧ line k ≠ [] := by
    intro k hk
    obtain ⟨c, hc, -, hm⟩ := hfind k hk
    have h1 := sent_line S (hs c hc) (wrap64 c.2) now (inInt64_wrap64 _) hn
    rw [sent_sorted S (hs c hc).distinct hp ha] at h1
    have e1 : line k = vToBytes S (f c).2 := by
      show (match mget set k with
        | some m => vToBytes S m
        | none => []) = _
      rw [hm]
    have e2 : val k = ⟨c.1, ls, wrap64 c.2, max 0 (now.tdiv 1000000)⟩ := by
      show (match mget set k with
        | some m => (⟨m.name, ls, m.value, max 0 m.millis⟩ : VMetric)
        | none => ⟨[], [], 0, 0⟩) = _
      rw [hm]
      rfl
    rw [e1, e2]
    exact h1
  refine ⟨ks.map val, ?_, ?_⟩
  · rw [htext2, msgLines_lines]
    · exact linesOf_map ks line val (fun k hk => (hlines k hk).1)
    · intro l hl
      obtain ⟨k, hk, rfl⟩ := List.mem_map.1 hl
      exact (hlines k hk).2
  · have h1 : (ks.map val).Perm ((set.map (·.1)).map val) := hksP.map val
    rw [hsetkeys, List.map_map] at h1
    refine h1.trans (List.Perm.of_eq ?_)
    apply List.map_congr_left
    intro c hc
    show val (f c).1 = _
    show (match mget set (f c).1 with
      | some m => (⟨m.name, ls, m.value, max 0 m.millis⟩ : VMetric)
      | none => ⟨[], [], 0, 0⟩) = _
    rw [mget_of_mem hkn (List.mem_map.2 ⟨c, hc, rfl⟩ : ((f c).1, (f c).2) ∈ set)]
    rfl

theorem receive_valid (S : Sorter) (ord : MapOrder) (set : MetricSet) {data : Bytes} {vs : List VMetric}
    (h : LinesOf (msgLines data) vs) : (receiveMetrics S ord set data).Safe := by
  apply C56_no_crash_partial
  intro line hl hp
  obtain ⟨v, hv⟩ := linesOf_all h line hl
  obtain ⟨m, hm, -⟩ := parse_of_lineOf hv
  rw [hp] at hm
  cases hm

/-- Permutations with the same latest metrics. -/
def SameLatest (R R' : List VMetric) : Prop := R.Perm R' ∧ ∀ v, Latest R v ↔ Latest R' v

theorem latest_append_iff {A B : List VMetric} {v : VMetric} :
    Latest (A ++ B) v ↔ Latest B v ∨ (Latest A v ∧ ∀ x ∈ B, ¬ SameSeries x v) := by
  constructor
  · rintro ⟨pre, post, e, h⟩
    rcases List.append_eq_append_iff.1 e with ⟨t, h1, h2⟩ | ⟨t, h1, h2⟩
    · exact Or.inl ⟨t, post, h2, h⟩
    · cases t with
      | nil => exact Or.inl ⟨[], post, h2.symm, h⟩
      | cons x t =>
        injection h2 with h3 h4
        subst h3
        refine Or.inr ⟨⟨pre, t, h1, ?_⟩, ?_⟩
        · intro y hy; exact h y (by rw [h4]; simp [hy])
        · intro y hy; exact h y (by rw [h4]; simp [hy])
  · rintro (⟨pre, post, e, h⟩ | ⟨⟨pre, post, e, h⟩, h'⟩)
    · exact ⟨A ++ pre, post, by rw [e]; simp, h⟩
    · refine ⟨pre, post ++ B, by rw [e]; simp, ?_⟩
      intro x hx
      rcases List.mem_append.1 hx with hx | hx
      · exact h x hx
      · exact h' x hx

theorem latest_distinct {A : List VMetric} (hd : (A.map (·.name)).Nodup) {v : VMetric} : Latest A v ↔ v ∈ A := by
  constructor
  · exact latest_mem
  · intro h
    obtain ⟨pre, post, e⟩ := List.append_of_mem h
    refine ⟨pre, post, e, ?_⟩
    intro x hx hs
    rw [e, List.map_append, List.map_cons, List.nodup_append] at hd
    have := hd.2.1
    rw [List.nodup_cons] at this
    exact this.1 (List.mem_map.2 ⟨x, hx, hs.1⟩)

theorem sameLatest_append {A A' B B' : List VMetric} (hA : A.Perm A') (hd : (A'.map (·.name)).Nodup)
    (h : SameLatest B B') : SameLatest (A ++ B) (A' ++ B') := by
  refine ⟨hA.append h.1, ?_⟩
  intro v
  rw [latest_append_iff, latest_append_iff, latest_distinct hd, latest_distinct ((hA.map (·.name)).nodup_iff.2 hd), h.2 v,
    hA.mem_iff]
  have : (∀ x ∈ B, ¬ SameSeries x v) ↔ (∀ x ∈ B', ¬ SameSeries x v) :=
    ⟨fun k x hx => k x (h.1.mem_iff.2 hx), fun k x hx => k x (h.1.mem_iff.1 hx)⟩
  rw [this]

theorem shows_sameLatest {text : Bytes} {R R' : List VMetric} (h : SameLatest R R') (hs : Shows text R) : Shows text R' := by
  obtain ⟨rows, h1, h2, h3, h4⟩ := hs
  refine ⟨rows, h1, h2, ?_, fun v hv => h4 v (h.1.mem_iff.2 hv)⟩
  intro row hr
  obtain ⟨k1, v, k2, k3⟩ := h3 row hr
  exact ⟨k1, v, (h.2 v).1 k2, k3⟩

theorem components_spec (S : Sorter) {evs : List MEv} {R : List VMetric} (h : FromComponents S evs R) :
    ∃ R', SameLatest R' R ∧ Received evs R' ∧
      ∀ pre data ord post, evs = pre ++ .recv data ord :: post →
        (∃ vs, LinesOf (msgLines data) vs ∧ ∀ v ∈ vs, Ascending v.labels) := by
  induction h with
  | nil => exact ⟨[], ⟨List.Perm.refl _, fun _ => Iff.rfl⟩, .nil, by intro pre data ord post he; cases pre <;> cases he⟩
  | @scrape ord evs R _ ih =>
    obtain ⟨R', h1, h2, h3⟩ := ih
    refine ⟨R', h1, .scrape h2, ?_⟩
    intro pre data ord' post he
    cases pre with
    | nil => injection he with he _; cases he
    | cons e pre => injection he with _ he; exact h3 pre data ord' post he
  | @snapshot ord evs R ord' snap now labels ls vs k1 k2 k3 k4 k5 k6 _ ih =>
    obtain ⟨R', h1, h2, h3⟩ := ih
    obtain ⟨ws, w1, w2⟩ := snapshot_message S ord' now k1 k2 k3 k4 k5
    have hnd : (vs.map (·.name)).Nodup := by
      rw [(k6.map (·.name)).nodup_iff, List.map_map]
      exact k2
    refine ⟨ws ++ R', sameLatest_append (w2.trans k6.symm) hnd h1, .valid w1 h2, ?_⟩
    intro pre data ord' post he
    cases pre with
    | nil =>
      injection he with he _
      injection he with he _
      subst he
      refine ⟨ws, w1, ?_⟩
      intro v hv
      obtain ⟨c, -, rfl⟩ := List.mem_map.1 (w2.subset hv)
      exact k5
    | cons e pre => injection he with _ he; exact h3 pre data ord' post he
  | @counter ord evs R name value now labels ls k1 k2 k3 k4 k5 _ ih =>
    obtain ⟨R', h1, h2, h3⟩ := ih
    have w1 := counter_message S k3 value now k2 k1 k4 k5
    refine ⟨_, sameLatest_append (A := [_]) (A' := [_]) (List.Perm.refl _) (by simp) h1, .valid w1 h2, ?_⟩
    intro pre data ord' post he
    cases pre with
    | nil =>
      injection he with he _
      injection he with he _
      subst he
      refine ⟨_, w1, ?_⟩
      intro v hv
      simp at hv
      rw [hv]
      exact k5
    | cons e pre => injection he with _ he; exact h3 pre data ord' post he

theorem linesOf_line {lines : List Bytes} {vs : List VMetric} (h : LinesOf lines vs) {line : Bytes} (hl : line ∈ lines)
    {v : VMetric} (hv : LineOf line v) : v ∈ vs := by
  induction h with
  | nil => cases hl
  | cons k1 _ ih =>
    rcases List.mem_cons.1 hl with rfl | hl
    · rw [lineOf_unique hv k1]; simp
    · exact List.mem_cons_of_mem _ (ih hl)

/-- **C72 (part).** Histories made of component messages satisfy the condition of C54 and C57. -/
theorem C72_component_lines_ordered (S : Sorter) {evs : List MEv} {R : List VMetric} (h : FromComponents S evs R) :
    Orderly evs := by
  obtain ⟨R', -, -, h3⟩ := components_spec S h
  intro pre data ord post he line hl v hv
  obtain ⟨vs, w1, w2⟩ := h3 pre data ord post he
  have ha := w2 v (linesOf_line w1 hl hv)
  exact ⟨strict_nodup Label.name _ ha, fun _ => ha⟩

/-- **C72 (part).** No message of a component crashes the monitor, whatever was received before. -/
theorem C72_components_never_crash_the_monitor (S : Sorter) {evs : List MEv} {R : List VMetric}
    (h : FromComponents S evs R) : ∃ set, monitorRun S [] evs = .ok set := by
  obtain ⟨R', -, -, h3⟩ := components_spec S h
  have ho := C72_component_lines_ordered S h
  have gen : ∀ (evs : List MEv), Orderly evs → (∀ pre data ord post, evs = pre ++ .recv data ord :: post →
        (∃ vs, LinesOf (msgLines data) vs ∧ ∀ v ∈ vs, Ascending v.labels)) →
      ∀ (set : MetricSet) (R0 : List VMetric), (∀ v ∈ R0, VOK v ∧ Ascending v.labels) → MInv S set R0 →
      ∃ set', monitorRun S set evs = .ok set' := by
    intro evs
    induction evs with
    | nil => intro _ _ set R0 _ _; exact ⟨set, rfl⟩
    | cons e evs ih =>
      intro ho h3 set R0 hR hi
      have ih' := ih (orderly_tail ho) (fun pre data ord post he => h3 (e :: pre) data ord post (by rw [he]; rfl))
      cases e with
      | recv data ord =>
        obtain ⟨vs, w1, w2⟩ := h3 [] data ord evs rfl
        obtain ⟨set1, hs1⟩ := receive_valid S ord set w1
        rcases receive_cases S ord hs1 with ⟨ws, k1, k2⟩ | ⟨⟨l, k1, k2⟩, -⟩
        · have : ws = vs := linesOf_unique k1 w1
          subst this
          have hn : ∀ v ∈ ws, (v.labels.map (·.name)).Nodup := fun v hv => strict_nodup Label.name _ (w2 v hv)
          obtain ⟨set', hs'⟩ := ih' set1 (R0 ++ ws) (by
            intro v hv
            rcases List.mem_append.1 hv with hv | hv
            · exact hR v hv
            · obtain ⟨l, -, hl⟩ := linesOf_mem k1 hv
              exact ⟨lineOf_vok hl (hn v hv), w2 v hv⟩) (k2 R0 (fun v hv => (hR v hv).1) hn hi)
          refine ⟨set', ?_⟩
          unfold monitorRun monitorStep
          dsimp only
          rw [hs1]
          exact hs'
        · exact absurd (linesOf_all w1 l k1) k2
      | scrape ord =>
        obtain ⟨text, set1, h1, -, h2⟩ := scrape_spec S ord (fun v hv => (hR v hv).1) hi
        obtain ⟨set', hs'⟩ := ih' set1 R0 hR (h2 (fun v hv => (hR v hv).2))
        refine ⟨set', ?_⟩
        unfold monitorRun monitorStep
        dsimp only
        rw [h1]
        exact hs'
  exact gen evs ho h3 [] [] (by intro v hv; cases hv) (MInv.empty S)

/-- **C72.** In every history of component messages and scrapes the monitor does
not crash, and what it serves is exactly the latest value of every counter that
was sent. -/
theorem C72_component_counters_are_served (S : Sorter) {evs : List MEv} {R : List VMetric} (h : FromComponents S evs R)
    (ord : MapOrder) :
    ∃ set text set', monitorRun S [] evs = .ok set ∧ scrape S ord set = .ok (text, set') ∧ Shows text R := by
  obtain ⟨R', h1, h2, -⟩ := components_spec S h
  obtain ⟨set, hs⟩ := C72_components_never_crash_the_monitor S h
  obtain ⟨R2, text, set', k1, k2, k3⟩ := C54_serves_latest_partial S evs (C72_component_lines_ordered S h) set hs ord
  rw [received_unique k1 h2] at k3
  exact ⟨set, text, set', hs, k2, shows_sameLatest h1 k3⟩

/-- The labels every component uses, with values free of quotes and newlines,
and any counter name without space, brace or newline, may be sent. -/
theorem C72_standard_labels_sendable (counter component name hostname : Bytes) (hc : counter ≠ [])
    (h1 : NameOK counter) (h2 : NL ∉ counter) (h3 : ∀ v ∈ [component, name, hostname], DQ ∉ v ∧ NL ∉ v) :
    Sendable counter (newLabels component name hostname) := by
  refine ⟨hc, h1, h2, ?_, by rw [show (newLabels component name hostname).map (·.name) = [b!"component", b!"name", b!"host"] from rfl]; decide⟩
  have ok : ∀ n ∈ [b!"component", b!"name", b!"host"], ¬ b!"=\"" <:+: n ∧ n.head? ≠ some RBRACE ∧ NL ∉ n := by decide
  intro l hl
  simp only [newLabels, List.mem_cons, List.not_mem_nil, or_false] at hl
  rcases hl with rfl | rfl | rfl
  · have a := ok b!"component" (by decide); have b := h3 component (by simp)
    exact ⟨⟨a.1, b.1⟩, a.2.1, a.2.2, b.2⟩
  · have a := ok b!"name" (by decide); have b := h3 name (by simp)
    exact ⟨⟨a.1, b.1⟩, a.2.1, a.2.2, b.2⟩
  · have a := ok b!"host" (by decide); have b := h3 hostname (by simp)
    exact ⟨⟨a.1, b.1⟩, a.2.1, a.2.2, b.2⟩

/-- Test: a snapshot message. -/
example : snapshotToPrometheus insertionSorter plainOrder [(b!"sent", 7), (b!"received", 12)] 1500000000
      (newLabels b!"filter" b!"f1" b!"h") =
    b!"received{component=\"filter\",host=\"h\",name=\"f1\"} 12 1500\nsent{component=\"filter\",host=\"h\",name=\"f1\"} 7 1500\n" := by
  decide +kernel

/-- A history of component messages: a filter's snapshot, a scrape, and a counter. -/
example : FromComponents insertionSorter
    [.recv (snapshotToPrometheus insertionSorter plainOrder [(b!"sent", 7), (b!"received", 12)] 1500000000
        (newLabels b!"filter" b!"f1" b!"h")) plainOrder,
     .scrape plainOrder,
     .recv (counterToPrometheus insertionSorter b!"sent" 9 2500000000 (newLabels b!"filter" b!"f1" b!"h")) plainOrder]
    [⟨b!"sent", [⟨b!"component", b!"filter"⟩, ⟨b!"host", b!"h"⟩, ⟨b!"name", b!"f1"⟩], 7, 1500⟩,
     ⟨b!"received", [⟨b!"component", b!"filter"⟩, ⟨b!"host", b!"h"⟩, ⟨b!"name", b!"f1"⟩], 12, 1500⟩,
     ⟨b!"sent", [⟨b!"component", b!"filter"⟩, ⟨b!"host", b!"h"⟩, ⟨b!"name", b!"f1"⟩], 9, 2500⟩] := by
  have hp : List.Perm [(⟨b!"component", b!"filter"⟩ : Label), ⟨b!"host", b!"h"⟩, ⟨b!"name", b!"f1"⟩]
      (newLabels b!"filter" b!"f1" b!"h") :=
    (List.Perm.swap (⟨b!"name", b!"f1"⟩ : Label) ⟨b!"host", b!"h"⟩ []).cons _
  have hs : ∀ c : Bytes, c ≠ [] → NameOK c → NL ∉ c → Sendable c (newLabels b!"filter" b!"f1" b!"h") :=
    fun c h1 h2 h3 => C72_standard_labels_sendable c _ _ _ h1 h2 h3 (by decide)
  refine .snapshot plainOrder [(b!"sent", 7), (b!"received", 12)] 1500000000 (newLabels b!"filter" b!"f1" b!"h") _
    [_, _] (by unfold InInt64; decide) (by decide) ?_ hp (by unfold Ascending; decide +kernel)
    (List.Perm.of_eq (by decide +kernel)) (.scrape (.counter b!"sent" 9 2500000000 _ _ (by unfold InInt64; decide)
      (by unfold InInt64; decide) (hs _ (by decide) (by unfold NameOK; decide) (by decide)) hp
      (by unfold Ascending; decide +kernel) .nil))
  intro c hc
  simp only [List.mem_cons, List.not_mem_nil, or_false] at hc
  rcases hc with rfl | rfl
  · exact hs _ (by decide) (by unfold NameOK; decide) (by decide)
  · exact hs _ (by decide) (by unfold NameOK; decide) (by decide)

end Spout.Prom
