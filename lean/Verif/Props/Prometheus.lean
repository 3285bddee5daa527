import Verif.Lemmas.Monitor

set_option linter.unusedSimpArgs false

/-! # Properties of package `prometheus`: rendering and parsing (C53, C56)

`view m` is the contents of a parsed metric `m`: its name, labels, value and
timestamp. -/

namespace Spout.Prom

open Spout.Spec

/-! ## C53 -/

/-- **C53 (what the parser accepts).** `ParseMetric` accepts exactly the lines
of the specification and reads from them exactly what they stand for. -/
theorem C53_parse_exact (line : Bytes) (v : VMetric) :
    (∃ m, parseMetric line = .ok (.ok m) ∧ view m = v) ↔ LineOf line v := by
  constructor
  · rintro ⟨m, h, rfl⟩
    exact parse_lineOf h
  · exact parse_of_lineOf

/-- A line stands for at most one metric. -/
theorem C53_line_unambiguous {line : Bytes} {v w : VMetric} (h1 : LineOf line v) (h2 : LineOf line w) : v = w :=
  lineOf_unique h1 h2

theorem digit_ne_space {d : Byte} (h : IsDigit d) : d ≠ SP := by
  intro e; subst e; exact absurd h (by decide)

theorem space_not_mem_itoa (n : Int) : SP ∉ itoa n := by
  obtain ⟨ds, -, hd, h⟩ := itoa_decimal n
  intro hm
  rcases h with ⟨h, -⟩ | ⟨h, -⟩
  · rw [h] at hm; exact digit_ne_space (hd _ hm) rfl
  · rw [h] at hm
    rcases List.mem_cons.1 hm with e | e
    · exact absurd e (by decide)
    · exact digit_ne_space (hd _ e) rfl

theorem itoa_ne_nil (n : Int) : itoa n ≠ [] := by
  obtain ⟨ds, h0, -, h⟩ := itoa_decimal n
  rcases h with ⟨h, -⟩ | ⟨h, -⟩
  · rw [h]; exact h0
  · rw [h]; simp

theorem labelList_head {ls : List Label} (h : ∀ l ∈ ls, l.name.head? ≠ some RBRACE) :
    (labelList ls).head? ≠ some RBRACE := by
  rw [← labelsLoop_eq]
  cases ls with
  | nil => simp [labelsLoop]
  | cons l ls =>
    have hl := h l (by simp)
    have ht : ∃ t, labelsLoop (l :: ls) = l.name ++ EQ :: t := by
      cases ls with
      | nil => exact ⟨_, by simp [labelsLoop]; rfl⟩
      | cons k ls => exact ⟨_, by simp [labelsLoop]; rfl⟩
    obtain ⟨t, ht⟩ := ht
    rw [ht]
    cases hn : l.name with
    | nil => simp; decide
    | cons c n => rw [hn] at hl; simpa using hl

/-- The line of a metric stands for that metric. -/
theorem lineOf_metricLine (m : VMetric) (hn : NameOK m.name) (hne : m.name ≠ []) (hl : ∀ l ∈ m.labels, LabelOK l)
    (hb : ∀ l ∈ m.labels, l.name.head? ≠ some RBRACE) (hv : InInt64 m.value) (ht : InInt64 m.millis) :
    LineOf (metricLine m) { m with millis := max 0 m.millis } := by
  have hlen : 3 ≤ (metricLine m).length := by
    have h1 : 1 ≤ m.name.length := by
      cases hh : m.name with
      | nil => exact absurd hh hne
      | cons a b => simp
    have h2 : 1 ≤ (itoa m.value).length := by
      cases hh : itoa m.value with
      | nil => exact absurd hh (itoa_ne_nil _)
      | cons a b => simp
    unfold metricLine
    simp only [List.length_append, List.length_cons, List.length_nil]
    omega
  refine ⟨hlen, hn, (if m.labels = [] then b!" " else b!"{" ++ labelList m.labels ++ b!"}" ++ [SP]), itoa m.value,
    (if m.millis > 0 then b!" " ++ itoa m.millis else []), ?_, ?_, space_not_mem_itoa _,
    toInt_complete (itoa_decimal _) hv, ?_⟩
  · unfold metricLine
    by_cases h : m.labels = []
    · simp [h]
    · simp [h]
  · by_cases h : m.labels = []
    · left; rw [if_pos h]; exact ⟨rfl, h⟩
    · right
      rw [if_neg h]
      exact ⟨SP, rfl, labelList_head hb, hl⟩
  · by_cases h : m.millis > 0
    · right
      rw [if_pos h]
      refine ⟨itoa m.millis, rfl, ?_⟩
      dsimp only
      rw [Int.max_eq_right (by omega)]
      exact toInt_complete (itoa_decimal _) ht
    · left
      rw [if_neg h]
      exact ⟨rfl, by dsimp only; omega⟩

theorem vToBytes_eq (S : Sorter) (m : VMetric) :
    vToBytes S m = metricLine { m with labels := S.sort Label.name m.labels } := by
  unfold vToBytes metricLine
  dsimp only
  rw [labelsText, labelsLoop_eq]
  have hp := S.perm Label.name m.labels
  by_cases he : m.labels = []
  · have : S.sort Label.name m.labels = [] := by rw [he] at hp ⊢; exact List.Perm.eq_nil hp
    simp [he, this]
    rw [he] at this
    simp [this]
  · have hl : m.labels.length > 0 := by
      cases hh : m.labels with
      | nil => exact absurd hh he
      | cons a b => simp
    have hs : S.sort Label.name m.labels ≠ [] := by
      intro e
      rw [e] at hp
      exact he (List.Perm.nil_eq hp).symm
    simp [hl, hs]

/-- **C53.** Parsing the rendering of a metric returns its name, its value, its
timestamp (0 if it was not positive, since then it is not rendered) and its
labels in sorted order.  The name must not be empty nor contain a space or
`{`, label names must not contain `="` nor start with `}`, label values must
not contain a quote. -/
theorem C53_render_parse (S : Sorter) (m : VMetric) (hn : NameOK m.name) (hne : m.name ≠ [])
    (hl : ∀ l ∈ m.labels, LabelOK l) (hb : ∀ l ∈ m.labels, l.name.head? ≠ some RBRACE)
    (hv : InInt64 m.value) (ht : InInt64 m.millis) :
    ∃ p ls, parseMetric (vToBytes S m) = .ok (.ok p) ∧
      view p = ⟨m.name, ls, m.value, if m.millis > 0 then m.millis else 0⟩ ∧
      ls.Perm m.labels ∧ ls.Pairwise (fun a b => bytesLt b.name a.name = false) := by
  have hp := S.perm Label.name m.labels
  have := lineOf_metricLine { m with labels := S.sort Label.name m.labels } hn hne
    (fun l h => hl l (hp.subset h)) (fun l h => hb l (hp.subset h)) hv ht
  rw [← vToBytes_eq] at this
  obtain ⟨p, h1, h2⟩ := parse_of_lineOf this
  refine ⟨p, S.sort Label.name m.labels, h1, ?_, hp, S.sorted Label.name m.labels⟩
  rw [h2]
  dsimp only
  congr 1
  by_cases h : m.millis > 0
  · rw [if_pos h]; omega
  · rw [if_neg h]; omega

/-- Test: a metric that satisfies the conditions of C53. -/
example : ∃ p, parseMetric (vToBytes insertionSorter ⟨b!"sent", [⟨b!"name", b!"n 1"⟩, ⟨b!"host", b!"a{b}"⟩], -7, 1500⟩) = .ok (.ok p) ∧
    view p = ⟨b!"sent", [⟨b!"host", b!"a{b}"⟩, ⟨b!"name", b!"n 1"⟩], -7, 1500⟩ := by
  refine ⟨⟨b!"sent{host=\"a{b}\",name=\"n 1\"} -7 1500", 4, [⟨5, 4, 11, 4⟩, ⟨17, 4, 23, 3⟩], -7, 1500⟩, ?_, ?_⟩ <;>
    decide +kernel
example : vToBytes insertionSorter ⟨b!"sent", [⟨b!"name", b!"n 1"⟩, ⟨b!"host", b!"a{b}"⟩], -7, 1500⟩ =
    b!"sent{host=\"a{b}\",name=\"n 1\"} -7 1500" := by decide +kernel
example : NameOK b!"sent" ∧ (∀ l ∈ [(⟨b!"host", b!"a{b}"⟩ : Label)], l.name.head? ≠ some RBRACE) := by
  refine ⟨by unfold NameOK; decide, by decide⟩
example : LabelOK ⟨b!"host", b!"a{b}"⟩ := by unfold LabelOK; decide

/-- Test: the conditions are needed.  An empty name can be parsed but its
rendering cannot; a label name starting with `}` reads differently. -/
example : parseMetric b!"{} 5" = .ok (.ok ⟨b!"{} 5", 0, [], 5, 0⟩) ∧ vToBytes insertionSorter ⟨b!"", [], 5, 0⟩ = b!" 5" ∧
    parseMetric b!" 5" = .ok (.error .invalidMetric) := by decide +kernel
example : parseMetric (vToBytes insertionSorter ⟨b!"foo", [⟨b!"}b", b!"2"⟩], 5, 0⟩) = .ok (.error .invalidValue) := by decide +kernel

/-! ## C56 -/

/-- The claim of C56. -/
def ParserNeverPanics : Prop := ∀ line, (parseMetric line).Safe

/-- **C56 is false**: three-byte input crashes the monitor. -/
theorem C56_parser_can_panic : ¬ ParserNeverPanics := by
  intro h
  have h1 := h b!"ab{"
  rw [show parseMetric b!"ab{" = .panic by decide +kernel] at h1
  exact Go.not_safe_panic h1

/-- The monitor itself crashes on such a message, in any state. -/
theorem C56_monitor_can_crash (S : Sorter) (ord : MapOrder) (set : MetricSet) :
    receiveMetrics S ord set b!"foo{a=\"b\"}" = .panic := by
  unfold receiveMetrics parseMetrics
  rw [show splitNL b!"foo{a=\"b\"}" = [b!"foo{a=\"b\"}"] by decide +kernel,
    parseLines_cons S [] _ [] (by decide),
    show parseMetric b!"foo{a=\"b\"}" = .panic by decide +kernel]
  rfl

/-- **C56 (exact).** The lines that crash the parser are those of at least
three bytes with a name followed by `{` and then nothing, or a non-empty list of
labels that the line ends with, or a list of labels closed by `}` as the last
byte of the line. -/
theorem C56_panics_exactly (line : Bytes) :
    parseMetric line = .panic ↔
      3 ≤ line.length ∧ ∃ name body, line = name ++ b!"{" ++ body ∧ NameOK name ∧
        (body = [] ∨ ∃ ls, (∀ l ∈ ls, LabelOK l) ∧ (labelList ls).head? ≠ some RBRACE ∧
          ((ls ≠ [] ∧ body = labelList ls) ∨ body = labelList ls ++ b!"}")) := by
  rw [parse_panic_iff]
  constructor
  · rintro ⟨h1, a, b, h2, h3, h4⟩
    refine ⟨h1, a, b, by rw [h2]; simp, h3, ?_⟩
    simpa only [labelsLoop_eq] using h4
  · rintro ⟨h1, a, b, h2, h3, h4⟩
    refine ⟨h1, a, b, by rw [h2]; simp, h3, ?_⟩
    simpa only [labelsLoop_eq] using h4

/-- **C56 (partial).** No message crashes the monitor if none of its lines is
one of those.  Missing: the lines of `C56_panics_exactly`. -/
theorem C56_no_crash_partial (S : Sorter) (ord : MapOrder) (set : MetricSet) (data : Bytes)
    (h : ∀ line ∈ msgLines data, parseMetric line ≠ .panic) : (receiveMetrics S ord set data).Safe := by
  have hl : ∀ (lines : List Bytes) (set : MetricSet), (∀ l ∈ lines, l ≠ []) → (∀ l ∈ lines, parseMetric l ≠ .panic) →
      (parseLines S set lines).Safe := by
    intro lines
    induction lines with
    | nil => intro set _ _; exact ⟨_, rfl⟩
    | cons l lines ih =>
      intro set hne hp
      rw [parseLines_cons S set l lines (hne l (by simp))]
      cases hm : parseMetric l with
      | panic => exact absurd hm (hp l (by simp))
      | ok x =>
        cases x with
        | error e => exact ⟨_, rfl⟩
        | ok m => exact ih _ (fun x hx => hne x (List.mem_cons_of_mem _ hx)) (fun x hx => hp x (List.mem_cons_of_mem _ hx))
  obtain ⟨x, hx⟩ := hl (msgLines data) [] (msgLines_ne data) h
  unfold receiveMetrics parseMetrics
  rw [parseLines_filter, show (splitNL data).filter (fun l => l ≠ []) = msgLines data from rfl, hx]
  cases x with
  | error e => exact ⟨_, rfl⟩
  | ok new => exact ⟨_, rfl⟩

/-- In particular no line without an opening brace, and no accepted line, crashes it. -/
theorem C56_no_brace_no_panic (line : Bytes) (h : LBRACE ∉ line) : parseMetric line ≠ .panic := by
  intro hp
  obtain ⟨-, name, body, h2, -⟩ := (C56_panics_exactly line).1 hp
  exact h (by rw [h2]; simp)

example : parseMetric b!"ab{" = .panic ∧ parseMetric b!"foo{a=\"b\"" = .panic ∧ parseMetric b!"foo{a=\"b\"}" = .panic ∧
    parseMetric b!"foo{}" = .panic := by decide +kernel
example : parseMetric b!"foo{a=\"b\",}" = .ok (.error .invalidLabel) ∧ parseMetric b!"foo{a=\"b" = .ok (.error .missingQuote) ∧
    parseMetric b!"foo{a=\"b\"} " = .ok (.error .invalidValue) := by decide +kernel

end Spout.Prom
