import Verif.Spec.Config
import Verif.Props.FilterRules
import Verif.Props.ListenerUDP

/-! # Properties of the configuration (C61, C62, C63) -/

set_option linter.unusedSimpArgs false

namespace Spout.Conf
open Spout.Conf.Spec

/-! ## C61 -/

theorem length_one {α : Type} (l : List α) : l.length = 1 ↔ ∃ s, l = [s] := by
  cases l with
  | nil => simp
  | cons a l => cases l <;> simp

theorem length_two {α : Type} (l : List α) : l.length = 2 ↔ ∃ a b, l = [a, b] := by
  cases l with
  | nil => simp
  | cons a l => cases l with
    | nil => simp
    | cons b l => cases l <;> simp

theorem validateListener_ok (c : Config) : validateListener c = .ok () ↔ ListenerOK c := by
  unfold validateListener ListenerOK IsPort
  rw [← length_one]
  have e : maxNATSMsgSize = 1048576 := rfl
  by_cases h1 : (c.port < 1 || c.port > 65535) = true
  · rw [if_pos h1]
    simp only [Bool.or_eq_true, decide_eq_true_eq] at h1
    constructor
    · intro h; cases h
    · rintro ⟨⟨a, b⟩, -⟩; omega
  · rw [if_neg h1]
    simp only [Bool.or_eq_true, decide_eq_true_eq] at h1
    by_cases h2 : c.natsSubject.length ≠ 1
    · rw [if_pos h2]
      constructor
      · intro h; cases h
      · rintro ⟨-, a, -⟩; exact absurd a h2
    · rw [if_neg h2]
      by_cases h3 : c.batchMaxSize > maxNATSMsgSize
      · rw [if_pos h3]
        constructor
        · intro h; cases h
        · rintro ⟨-, -, a⟩; omega
      · rw [if_neg h3]
        simp only [true_iff]
        exact ⟨by omega, by omega, by omega⟩

theorem validateTags_ok (ts : List (List Bytes)) : validateTags ts = .ok () ↔ ∀ t ∈ ts, ∃ k v, t = [k, v] := by
  induction ts with
  | nil => simp [validateTags]
  | cons t ts ih =>
    unfold validateTags
    by_cases h : t.length ≠ 2
    · rw [if_pos h]
      constructor
      · intro h; cases h
      · intro ha; exact absurd ((length_two t).2 (ha t (by simp))) h
    · rw [if_neg h, ih]
      have : t.length = 2 := by omega
      rw [length_two] at this
      simp [this]

theorem validateFilterRule_ok (r : RuleConf) : validateFilterRule r = .ok () ↔ FilterRuleOK r := by
  unfold validateFilterRule FilterRuleOK
  by_cases h1 : r.rtype = []
  · rw [if_pos h1]
    constructor
    · intro h; cases h
    · rintro ⟨-, ⟨a, -⟩ | ⟨-, a, -⟩⟩
      · rw [h1] at a; cases a
      · exact absurd h1 a
  rw [if_neg h1]
  by_cases h2 : r.subject = []
  · rw [if_pos h2]
    constructor
    · intro h; cases h
    · rintro ⟨a, -⟩; exact absurd h2 a
  rw [if_neg h2]
  by_cases h3 : r.rtype ≠ b!"tags" ∧ r.match_ = []
  · rw [if_pos h3]
    constructor
    · intro h; cases h
    · rintro ⟨-, ⟨a, -⟩ | ⟨-, -, a, -⟩⟩
      · exact absurd a h3.1
      · exact absurd h3.2 a
  rw [if_neg h3]
  by_cases h4 : r.rtype ≠ b!"tags" ∧ r.tags.length > 0
  · rw [if_pos h4]
    constructor
    · intro h; cases h
    · rintro ⟨-, ⟨a, -⟩ | ⟨-, -, -, a⟩⟩
      · exact absurd a h4.1
      · rw [a] at h4; exact absurd h4.2 (by simp)
  rw [if_neg h4]
  by_cases h5 : r.rtype = b!"tags"
  · rw [if_pos h5]
    by_cases h6 : r.match_ ≠ []
    · rw [if_pos h6]
      constructor
      · intro h; cases h
      · rintro ⟨-, ⟨-, a, -⟩ | ⟨a, -⟩⟩
        · exact absurd a h6
        · exact absurd h5 a
    rw [if_neg h6]
    by_cases h7 : r.tags.length = 0
    · rw [if_pos h7]
      constructor
      · intro h; cases h
      · rintro ⟨-, ⟨-, -, a, -⟩ | ⟨a, -⟩⟩
        · exact absurd (List.length_eq_zero_iff.1 h7) a
        · exact absurd h5 a
    rw [if_neg h7, validateTags_ok]
    constructor
    · intro h
      exact ⟨h2, Or.inl ⟨h5, Classical.byContradiction h6, fun e => h7 (by rw [e]; rfl), h⟩⟩
    · rintro ⟨-, ⟨-, -, -, a⟩ | ⟨a, -⟩⟩
      · exact a
      · exact absurd h5 a
  · rw [if_neg h5]
    simp only [true_iff]
    refine ⟨h2, Or.inr ⟨h5, h1, fun e => h3 ⟨h5, e⟩, ?_⟩⟩
    cases ht : r.tags with
    | nil => rfl
    | cons a l => exact absurd ⟨h5, by rw [ht]; simp⟩ h4

theorem validateFilterRules_ok (rs : List RuleConf) : validateFilterRules rs = .ok () ↔ ∀ r ∈ rs, FilterRuleOK r := by
  induction rs with
  | nil => simp [validateFilterRules]
  | cons r rs ih =>
    unfold validateFilterRules
    cases h : validateFilterRule r with
    | error e =>
      simp only
      constructor
      · intro h; cases h
      · intro ha
        rw [(validateFilterRule_ok r).2 (ha r (by simp))] at h
        cases h
    | ok u =>
      simp only
      rw [ih, List.forall_mem_cons]
      exact ⟨fun k => ⟨(validateFilterRule_ok r).1 h, k⟩, fun k => k.2⟩

theorem validateFilter_ok (c : Config) : validateFilter c = .ok () ↔ FilterOK c := by
  unfold validateFilter FilterOK
  rw [← length_one]
  by_cases h : c.natsSubject.length ≠ 1
  · rw [if_pos h]
    constructor
    · intro h; cases h
    · intro k; exact absurd k.1 h
  · rw [if_neg h, validateFilterRules_ok]
    exact ⟨fun k => ⟨by omega, k⟩, fun k => k.2⟩

theorem validateDownsampler_ok (c : Config) : validateDownsampler c = .ok () ↔ DownsamplerOK c := by
  unfold validateDownsampler DownsamplerOK
  by_cases h1 : c.downsamplePeriod = 0
  · rw [if_pos h1]
    exact ⟨fun h => (by cases h), fun h => absurd h1 h.1⟩
  · rw [if_neg h1]
    by_cases h2 : c.downsampleSuffix = []
    · rw [if_pos h2]
      exact ⟨fun h => (by cases h), fun h => absurd h2 h.2⟩
    · rw [if_neg h2]
      exact ⟨fun _ => ⟨h1, h2⟩, fun _ => rfl⟩

theorem validateWriterRules_ok (rs : List RuleConf) :
    validateWriterRules rs = .ok () ↔ ∀ r ∈ rs, r.rtype ≠ [] ∧ r.match_ ≠ [] ∧ r.subject = [] := by
  induction rs with
  | nil => simp [validateWriterRules]
  | cons r rs ih =>
    unfold validateWriterRules
    rw [List.forall_mem_cons]
    by_cases h1 : r.rtype = []
    · rw [if_pos h1]
      exact ⟨fun h => (by cases h), fun h => absurd h1 h.1.1⟩
    rw [if_neg h1]
    by_cases h2 : r.match_ = []
    · rw [if_pos h2]
      exact ⟨fun h => (by cases h), fun h => absurd h2 h.1.2.1⟩
    rw [if_neg h2]
    by_cases h3 : r.subject ≠ []
    · rw [if_pos h3]
      exact ⟨fun h => (by cases h), fun h => absurd h.1.2.2 h3⟩
    rw [if_neg h3, ih]
    exact ⟨fun k => ⟨⟨h1, h2, Classical.byContradiction h3⟩, k⟩, fun k => k.2⟩

theorem validateWriter_ok (c : Config) : validateWriter c = .ok () ↔ WriterOK c := by
  unfold validateWriter WriterOK IsPort
  by_cases h1 : c.natsSubject.length < 1
  · rw [if_pos h1]
    refine ⟨fun h => (by cases h), fun h => ?_⟩
    have : 0 < c.natsSubject.length := List.length_pos_iff.2 h.1
    omega
  rw [if_neg h1]
  have h1' : c.natsSubject ≠ [] := List.length_pos_iff.1 (by omega)
  by_cases h2 : (c.influxDBPort < 1 || c.influxDBPort > 65535) = true
  · rw [if_pos h2]
    simp only [Bool.or_eq_true, decide_eq_true_eq] at h2
    refine ⟨fun h => (by cases h), ?_⟩
    rintro ⟨-, ⟨a, b⟩, -⟩; omega
  rw [if_neg h2]
  simp only [Bool.or_eq_true, decide_eq_true_eq] at h2
  by_cases h3 : c.influxDBProtocol ≠ b!"http" ∧ c.influxDBProtocol ≠ b!"https"
  · rw [if_pos h3]
    refine ⟨fun h => (by cases h), ?_⟩
    rintro ⟨-, -, a | a, -⟩
    · exact absurd a h3.1
    · exact absurd a h3.2
  rw [if_neg h3]
  have h3' : c.influxDBProtocol = b!"http" ∨ c.influxDBProtocol = b!"https" := by
    apply Classical.byContradiction
    intro h
    exact h3 ⟨fun e => h (Or.inl e), fun e => h (Or.inr e)⟩
  by_cases h4 : c.influxDBUser ≠ [] ∧ c.influxDBPass = []
  · rw [if_pos h4]
    refine ⟨fun h => (by cases h), ?_⟩
    rintro ⟨-, -, -, a, -⟩
    exact absurd (a.2 h4.2) h4.1
  rw [if_neg h4]
  by_cases h5 : c.influxDBUser = [] ∧ c.influxDBPass ≠ []
  · rw [if_pos h5]
    refine ⟨fun h => (by cases h), ?_⟩
    rintro ⟨-, -, -, a, -⟩
    exact absurd (a.1 h5.1) h5.2
  rw [if_neg h5, validateWriterRules_ok]
  refine ⟨fun h => ⟨h1', by omega, h3', ?_, h⟩, fun h => h.2.2.2.2⟩
  constructor
  · intro e; exact Classical.byContradiction fun k => h5 ⟨e, k⟩
  · intro e; exact Classical.byContradiction fun k => h4 ⟨k, e⟩

/-- **C61.** `Validate` accepts exactly the configurations that have what their
component relies on. -/
theorem C61_validate_exactly (c : Config) : validate c = .ok () ↔ Acceptable c := by
  unfold validate
  by_cases h1 : (c.probePort < 0 || c.probePort > 65535) = true
  · rw [if_pos h1]
    simp only [Bool.or_eq_true, decide_eq_true_eq] at h1
    refine ⟨fun h => (by cases h), fun h => ?_⟩
    have := h.probe
    unfold PortOrNone at this
    omega
  rw [if_neg h1]
  simp only [Bool.or_eq_true, decide_eq_true_eq] at h1
  by_cases h2 : (c.pprofPort < 0 || c.pprofPort > 65535) = true
  · rw [if_pos h2]
    simp only [Bool.or_eq_true, decide_eq_true_eq] at h2
    refine ⟨fun h => (by cases h), fun h => ?_⟩
    have := h.pprof
    unfold PortOrNone at this
    omega
  rw [if_neg h2]
  simp only [Bool.or_eq_true, decide_eq_true_eq] at h2
  by_cases h3 : c.mode ≠ b!"downsampler" ∧ c.downsamplePeriod ≠ 0
  · rw [if_pos h3]
    exact ⟨fun h => (by cases h), fun h => absurd (h.period h3.2) h3.1⟩
  rw [if_neg h3]
  have mk : ModeOK c → Acceptable c := fun m => ⟨⟨by omega, by omega⟩, ⟨by omega, by omega⟩,
    fun h => Classical.byContradiction fun k => h3 ⟨k, h⟩, m⟩
  by_cases hl : c.mode = b!"listener" ∨ c.mode = b!"listener_http"
  · rw [if_pos hl, validateListener_ok]
    constructor
    · intro h
      rcases hl with e | e
      · exact mk (.listener e h)
      · exact mk (.listenerHttp e h)
    · intro h
      rcases h.mode with ⟨e, k⟩ | ⟨e, k⟩ | ⟨e, k⟩ | ⟨e, k⟩ | ⟨e, k⟩ | e
      · exact k
      · exact k
      all_goals rw [e] at hl; exact absurd hl (by decide)
  rw [if_neg hl]
  by_cases hf : c.mode = b!"filter"
  · rw [if_pos hf, validateFilter_ok]
    refine ⟨fun h => mk (.filter hf h), fun h => ?_⟩
    rcases h.mode with ⟨e, k⟩ | ⟨e, k⟩ | ⟨e, k⟩ | ⟨e, k⟩ | ⟨e, k⟩ | e
    · rw [e] at hf; cases hf
    · rw [e] at hf; cases hf
    · exact k
    all_goals rw [e] at hf; cases hf
  rw [if_neg hf]
  by_cases hd : c.mode = b!"downsampler"
  · rw [if_pos hd, validateDownsampler_ok]
    refine ⟨fun h => mk (.downsampler hd h), fun h => ?_⟩
    rcases h.mode with ⟨e, k⟩ | ⟨e, k⟩ | ⟨e, k⟩ | ⟨e, k⟩ | ⟨e, k⟩ | e
    · rw [e] at hd; cases hd
    · rw [e] at hd; cases hd
    · rw [e] at hd; cases hd
    · exact k
    all_goals rw [e] at hd; cases hd
  rw [if_neg hd]
  by_cases hw : c.mode = b!"writer"
  · rw [if_pos hw, validateWriter_ok]
    refine ⟨fun h => mk (.writer hw h), fun h => ?_⟩
    rcases h.mode with ⟨e, k⟩ | ⟨e, k⟩ | ⟨e, k⟩ | ⟨e, k⟩ | ⟨e, k⟩ | e
    · rw [e] at hw; cases hw
    · rw [e] at hw; cases hw
    · rw [e] at hw; cases hw
    · rw [e] at hw; cases hw
    · exact k
    · rw [e] at hw; cases hw
  rw [if_neg hw]
  by_cases hm : c.mode = b!"monitor"
  · rw [if_pos hm]
    exact ⟨fun _ => mk (.monitor hm), fun _ => rfl⟩
  rw [if_neg hm]
  refine ⟨fun h => (by cases h), fun h => ?_⟩
  rcases h.mode with ⟨e, k⟩ | ⟨e, k⟩ | ⟨e, k⟩ | ⟨e, k⟩ | ⟨e, k⟩ | e
  · exact absurd (Or.inl e) hl
  · exact absurd (Or.inr e) hl
  · exact absurd e hf
  · exact absurd e hd
  · exact absurd e hw
  · exact absurd e hm

/-- A filter configuration with a tags and a basic rule. -/
def exampleFilter : Config :=
  { newDefaultConfig with
    mode := b!"filter"
    rule := [⟨b!"tags", [], [[b!"h", b!"a"]], b!"s1"⟩, ⟨b!"basic", b!"cpu", [], b!"s2"⟩] }

example : Acceptable exampleFilter := (C61_validate_exactly _).1 (by decide +kernel)
example : ¬ Acceptable { exampleFilter with downsamplePeriod := 1 } :=
  fun h => absurd ((C61_validate_exactly _).2 h) (by decide +kernel)

/-- **C61 (limit).** The tags rules that the README documents for writers are
rejected. -/
theorem C61_writer_rejects_tags_rules (c : Config) (hm : c.mode = b!"writer") (r : RuleConf) (hr : r ∈ c.rule)
    (_ht : r.rtype = b!"tags") (he : r.match_ = []) : ∃ e, validate c = .error e := by
  have : ¬ Acceptable c := by
    intro h
    rcases h.mode with ⟨e, k⟩ | ⟨e, k⟩ | ⟨e, k⟩ | ⟨e, k⟩ | ⟨e, k⟩ | e
    · rw [hm] at e; cases e
    · rw [hm] at e; cases e
    · rw [hm] at e; cases e
    · rw [hm] at e; cases e
    · exact absurd he (k.2.2.2.2 r hr).2.1
    · rw [hm] at e; cases e
  rw [← C61_validate_exactly] at this
  cases h : validate c with
  | error e => exact ⟨e, rfl⟩
  | ok u => exact absurd h this

/-- **C61 (limit).** A negative downsampling period is accepted. -/
theorem C61_negative_period_accepted :
    validate { newDefaultConfig with mode := b!"downsampler", downsamplePeriod := -5 } = .ok () := by decide +kernel

/-- **C61, use.** With an accepted listener configuration, every message that
the UDP listener publishes is accepted by NATS. -/
theorem C61_listener_messages_fit (c : Config) (hv : validate c = .ok ()) (hm : c.mode = b!"listener") (t0 : Int)
    (es : List Listener.UDPEvent) (hd : ∀ e ∈ es, e.data.length ≤ 65507) :
    ∃ l, Listener.udpRun (Listener.new ⟨c.batchMaxCount, c.batchMaxAge, c.batchMaxSize⟩ t0) es = .ok l ∧
      ∀ p ∈ l.pubs, p.data.length ≤ 1024 * 1024 := by
  have ha := (C61_validate_exactly c).1 hv
  have hl : ListenerOK c := by
    rcases ha.mode with ⟨e, k⟩ | ⟨e, k⟩ | ⟨e, k⟩ | ⟨e, k⟩ | ⟨e, k⟩ | e
    · exact k
    · exact k
    all_goals rw [hm] at e; cases e
  obtain ⟨l, h1, -, h3⟩ := C49_udp_message_size ⟨c.batchMaxCount, c.batchMaxAge, c.batchMaxSize⟩ hl.2.2 t0 es hd
  exact ⟨l, h1, fun p hp => (h3 p hp).1⟩

/-! ## C62 -/

/-- The configured rule can be built: its tags are pairs and its pattern compiles. -/
def Buildable (compile : Bytes → Option (Bytes → Bool)) (r : RuleConf) : Prop :=
  (r.rtype = b!"tags" → ∀ t ∈ r.tags, 2 ≤ t.length) ∧
  (r.rtype = b!"regex" ∨ r.rtype = b!"negregex" → compile r.match_ ≠ none)

/-- The four types of rules. -/
def Supported (r : RuleConf) : Prop :=
  r.rtype = b!"basic" ∨ r.rtype = b!"tags" ∨ r.rtype = b!"regex" ∨ r.rtype = b!"negregex"

/-- The rule that a configured rule describes. -/
inductive Describes (compile : Bytes → Option (Bytes → Bool)) (r : RuleConf) : Rule → Prop where
  | basic (h : r.rtype = b!"basic") : Describes compile r ⟨.basic (fnv32 r.match_), r.subject⟩
  | tags (h : r.rtype = b!"tags") (ts : List Tag) (hk : ts.map (·.key) = r.tags.map (fun t => t.headD []))
      (hv : ts.map (·.value) = r.tags.map (fun t => t.tail.headD [])) : Describes compile r ⟨.tags ts, r.subject⟩
  | regex (h : r.rtype = b!"regex") (re : Bytes → Bool) (hc : compile r.match_ = some re) :
      Describes compile r ⟨.regex re, r.subject⟩
  | negregex (h : r.rtype = b!"negregex") (re : Bytes → Bool) (hc : compile r.match_ = some re) :
      Describes compile r ⟨.negregex re, r.subject⟩

/-- Two lists related elementwise. -/
inductive Pairwise2 {α β : Type} (R : α → β → Prop) : List α → List β → Prop where
  | nil : Pairwise2 R [] []
  | cons {a b as bs} (h : R a b) (t : Pairwise2 R as bs) : Pairwise2 R (a :: as) (b :: bs)

theorem convertTags_ok (ts : List (List Bytes)) (h : ∀ t ∈ ts, 2 ≤ t.length) :
    ∃ out, convertTags ts = .ok out ∧ out.map (·.key) = ts.map (fun t => t.headD []) ∧
      out.map (·.value) = ts.map (fun t => t.tail.headD []) := by
  induction ts with
  | nil => exact ⟨[], rfl, rfl, rfl⟩
  | cons t ts ih =>
    obtain ⟨out, h1, h2, h3⟩ := ih (fun t ht => h t (List.mem_cons_of_mem _ ht))
    have ht := h t (by simp)
    match t, ht with
    | k :: v :: rest, _ =>
      refine ⟨⟨k, v⟩ :: out, ?_, by simp [h2], by simp [h3]⟩
      unfold convertTags
      rw [h1]
      rfl

theorem convertTags_panic (ts : List (List Bytes)) (t : List Bytes) (ht : t ∈ ts) (hl : t.length < 2) :
    convertTags ts = .panic := by
  induction ts with
  | nil => cases ht
  | cons x ts ih =>
    unfold convertTags
    match x with
    | [] => rfl
    | [k] => rfl
    | k :: v :: rest =>
      have : t ∈ ts := by
        rcases List.mem_cons.1 ht with e | e
        · subst e; simp at hl; omega
        · exact e
      rw [ih this]
      rfl

/-- One configured rule. -/
theorem rule_first (compile : Bytes → Option (Bytes → Bool)) (r : RuleConf) (rs : List RuleConf) :
    (¬ Buildable compile r → ruleSetFromConfig compile (r :: rs) = .panic) ∧
    (Buildable compile r → ¬ Supported r → ruleSetFromConfig compile (r :: rs) = .ok none) ∧
    (Buildable compile r → Supported r → ∃ rule, Describes compile r rule ∧
      ruleSetFromConfig compile (r :: rs) = (do
        let rest ← ruleSetFromConfig compile rs
        return rest.map (rule :: ·))) := by
  conv => enter [1, 2, 1]; unfold ruleSetFromConfig
  conv => enter [2, 1, 2, 2, 1]; unfold ruleSetFromConfig
  by_cases hb : r.rtype = b!"basic"
  · have hB : Buildable compile r := by
      constructor
      · intro h; rw [hb] at h; cases h
      · intro h; rw [hb] at h; exact absurd h (by decide)
    refine ⟨fun h => absurd hB h, fun _ h => absurd (Or.inl hb) h, fun _ _ => ?_⟩
    refine ⟨_, .basic hb, ?_⟩
    conv => lhs; unfold ruleSetFromConfig
    rw [if_pos hb]
    rfl
  by_cases ht : r.rtype = b!"tags"
  · refine ⟨fun h => ?_, fun _ h => absurd (Or.inr (Or.inl ht)) h, fun h _ => ?_⟩
    · rw [if_neg hb, if_pos ht]
      have : ∃ t ∈ r.tags, t.length < 2 := by
        apply Classical.byContradiction
        intro hn
        apply h
        constructor
        · intro _ t htm
          exact Classical.byContradiction fun k => hn ⟨t, htm, by omega⟩
        · intro k; rw [ht] at k; exact absurd k (by decide)
      obtain ⟨t, h1, h2⟩ := this
      rw [convertTags_panic _ t h1 h2]
      rfl
    · obtain ⟨out, h1, h2, h3⟩ := convertTags_ok r.tags (h.1 ht)
      refine ⟨_, .tags ht out h2 h3, ?_⟩
      conv => lhs; unfold ruleSetFromConfig
      rw [if_neg hb, if_pos ht, h1]
      rfl
  by_cases hr : r.rtype = b!"regex"
  · cases hc : compile r.match_ with
    | none =>
      have hnB : ¬ Buildable compile r := fun h => h.2 (Or.inl hr) hc
      refine ⟨fun _ => ?_, fun h => absurd h hnB, fun h => absurd h hnB⟩
      rw [if_neg hb, if_neg ht, if_pos hr]
      unfold mustCompile
      rw [hc]
      rfl
    | some re =>
      have hB : Buildable compile r := ⟨fun h => absurd h ht, fun _ => by rw [hc]; simp⟩
      refine ⟨fun h => absurd hB h, fun _ h => absurd (Or.inr (Or.inr (Or.inl hr))) h, fun _ _ => ?_⟩
      refine ⟨_, .regex hr re hc, ?_⟩
      conv => lhs; unfold ruleSetFromConfig
      rw [if_neg hb, if_neg ht, if_pos hr]
      unfold mustCompile
      rw [hc]
      rfl
  by_cases hn : r.rtype = b!"negregex"
  · cases hc : compile r.match_ with
    | none =>
      have hnB : ¬ Buildable compile r := fun h => h.2 (Or.inr hn) hc
      refine ⟨fun _ => ?_, fun h => absurd h hnB, fun h => absurd h hnB⟩
      rw [if_neg hb, if_neg ht, if_neg hr, if_pos hn]
      unfold mustCompile
      rw [hc]
      rfl
    | some re =>
      have hB : Buildable compile r := ⟨fun h => absurd h ht, fun _ => by rw [hc]; simp⟩
      refine ⟨fun h => absurd hB h, fun _ h => absurd (Or.inr (Or.inr (Or.inr hn))) h, fun _ _ => ?_⟩
      refine ⟨_, .negregex hn re hc, ?_⟩
      conv => lhs; unfold ruleSetFromConfig
      rw [if_neg hb, if_neg ht, if_neg hr, if_pos hn]
      unfold mustCompile
      rw [hc]
      rfl
  · have hS : ¬ Supported r := by
      rintro (h | h | h | h)
      · exact hb h
      · exact ht h
      · exact hr h
      · exact hn h
    have hB : Buildable compile r := ⟨fun h => absurd h ht, fun h => by
      rcases h with h | h
      · exact absurd h hr
      · exact absurd h hn⟩
    refine ⟨fun h => absurd hB h, fun _ _ => ?_, fun _ h => absurd h hS⟩
    rw [if_neg hb, if_neg ht, if_neg hr, if_neg hn]
    rfl

/-- **C62 / C75.** Building succeeds exactly when all rules are buildable and
supported, and then gives, in order, the rules that the configuration describes. -/
theorem C75_rules_as_configured (compile : Bytes → Option (Bytes → Bool)) (rs : List RuleConf)
    (h : ∀ r ∈ rs, Buildable compile r ∧ Supported r) :
    ∃ rules, ruleSetFromConfig compile rs = .ok (some rules) ∧ Pairwise2 (Describes compile) rs rules := by
  induction rs with
  | nil => exact ⟨[], rfl, .nil⟩
  | cons r rs ih =>
    obtain ⟨rules, h1, h2⟩ := ih (fun r hr => h r (List.mem_cons_of_mem _ hr))
    obtain ⟨rule, h3, h4⟩ := (rule_first compile r rs).2.2 (h r (by simp)).1 (h r (by simp)).2
    refine ⟨rule :: rules, ?_, .cons h3 h2⟩
    rw [h4, h1]
    rfl

/-- **C75.** A rule of an unknown type is an error. -/
theorem C75_unknown_type_is_error (compile : Bytes → Option (Bytes → Bool)) (rs : List RuleConf)
    (hb : ∀ r ∈ rs, Buildable compile r) (hu : ∃ r ∈ rs, ¬ Supported r) :
    ruleSetFromConfig compile rs = .ok none := by
  induction rs with
  | nil => obtain ⟨r, hr, -⟩ := hu; cases hr
  | cons r rs ih =>
    by_cases hS : Supported r
    · obtain ⟨rule, -, h4⟩ := (rule_first compile r rs).2.2 (hb r (by simp)) hS
      have : ∃ r ∈ rs, ¬ Supported r := by
        obtain ⟨x, hx, hn⟩ := hu
        rcases List.mem_cons.1 hx with rfl | hx
        · exact absurd hS hn
        · exact ⟨x, hx, hn⟩
      rw [h4, ih (fun r hr => hb r (List.mem_cons_of_mem _ hr)) this]
      rfl
    · exact (rule_first compile r rs).2.1 (hb r (by simp)) hS

/-- **C62.** Building the rules panics exactly when some rule that follows only
supported ones has a tags item with fewer than two values or a pattern that
does not compile. -/
theorem C62_panics_exactly (compile : Bytes → Option (Bytes → Bool)) (rs : List RuleConf) :
    ruleSetFromConfig compile rs = .panic ↔
      ∃ before r after, rs = before ++ r :: after ∧ (∀ b ∈ before, Supported b) ∧ ¬ Buildable compile r := by
  induction rs with
  | nil =>
    constructor
    · intro h; cases h
    · rintro ⟨b, r, a, h, -⟩
      cases b <;> cases h
  | cons r rs ih =>
    by_cases hB : Buildable compile r
    · by_cases hS : Supported r
      · obtain ⟨rule, -, h4⟩ := (rule_first compile r rs).2.2 hB hS
        rw [h4]
        constructor
        · intro h
          cases hr : ruleSetFromConfig compile rs with
          | ok o => rw [hr] at h; cases h
          | panic =>
            obtain ⟨b, r', a, e, h5, h6⟩ := ih.1 hr
            refine ⟨r :: b, r', a, by rw [e]; rfl, ?_, h6⟩
            intro x hx
            rcases List.mem_cons.1 hx with rfl | hx
            · exact hS
            · exact h5 x hx
        · rintro ⟨b, r', a, e, h5, h6⟩
          cases b with
          | nil =>
            injection e with e1 e2
            subst e1
            exact absurd hB h6
          | cons x b =>
            injection e with e1 e2
            rw [ih.2 ⟨b, r', a, e2, fun y hy => h5 y (List.mem_cons_of_mem _ hy), h6⟩]
            rfl
      · rw [(rule_first compile r rs).2.1 hB hS]
        constructor
        · intro h; cases h
        · rintro ⟨b, r', a, e, h5, h6⟩
          cases b with
          | nil =>
            injection e with e1 e2
            subst e1
            exact absurd hB h6
          | cons x b =>
            injection e with e1 e2
            subst e1
            exact absurd (h5 r (by simp)) hS
    · rw [(rule_first compile r rs).1 hB]
      simp only [true_iff]
      exact ⟨[], r, rs, rfl, by simp, hB⟩

/-- **C62 (filter).** With a validated filter configuration, building the rules
can only panic because of a pattern that is not a regular expression. -/
theorem C62_validated_filter (compile : Bytes → Option (Bytes → Bool)) (c : Config) (hv : validate c = .ok ())
    (hm : c.mode = b!"filter")
    (hre : ∀ r ∈ c.rule, r.rtype = b!"regex" ∨ r.rtype = b!"negregex" → compile r.match_ ≠ none) :
    Go.Safe (ruleSetFromConfig compile c.rule) := by
  have hf : FilterOK c := by
    rcases ((C61_validate_exactly c).1 hv).mode with ⟨e, k⟩ | ⟨e, k⟩ | ⟨e, k⟩ | ⟨e, k⟩ | ⟨e, k⟩ | e
    · rw [hm] at e; cases e
    · rw [hm] at e; cases e
    · exact k
    · rw [hm] at e; cases e
    · rw [hm] at e; cases e
    · rw [hm] at e; cases e
  cases h : ruleSetFromConfig compile c.rule with
  | ok o => exact ⟨o, rfl⟩
  | panic =>
    obtain ⟨b, r, a, e, -, h6⟩ := (C62_panics_exactly compile c.rule).1 h
    have hr : r ∈ c.rule := by rw [e]; simp
    refine absurd ⟨?_, hre r hr⟩ h6
    intro ht t htm
    rcases (hf.2 r hr).2 with ⟨-, -, -, k⟩ | ⟨k, -⟩
    · obtain ⟨x, y, rfl⟩ := k t htm
      simp
    · exact absurd ht k

/-- **C62 is false for writers**: a validated writer configuration may make the
construction of its rules index out of range. -/
theorem C62_validated_writer_can_panic (compile : Bytes → Option (Bytes → Bool)) :
    ∃ c : Config, validate c = .ok () ∧ c.mode = b!"writer" ∧
      (∀ r ∈ c.rule, r.rtype = b!"tags") ∧ ruleSetFromConfig compile c.rule = .panic := by
  refine ⟨{ newDefaultConfig with mode := b!"writer", rule := [⟨b!"tags", b!"x", [[b!"host"]], []⟩] },
    by decide +kernel, rfl, by simp [newDefaultConfig], rfl⟩

/-- **C62 (writer, partial).** A validated writer configuration whose tags are
pairs and whose patterns compile does not panic.  Missing: the validation does
not check that tags are pairs. -/
theorem C62_validated_writer_partial (compile : Bytes → Option (Bytes → Bool)) (c : Config)
    (htags : ∀ r ∈ c.rule, r.rtype = b!"tags" → ∀ t ∈ r.tags, t.length = 2)
    (hre : ∀ r ∈ c.rule, r.rtype = b!"regex" ∨ r.rtype = b!"negregex" → compile r.match_ ≠ none) :
    Go.Safe (ruleSetFromConfig compile c.rule) := by
  cases h : ruleSetFromConfig compile c.rule with
  | ok o => exact ⟨o, rfl⟩
  | panic =>
    obtain ⟨b, r, a, e, -, h6⟩ := (C62_panics_exactly compile c.rule).1 h
    have hr : r ∈ c.rule := by rw [e]; simp
    refine absurd ⟨fun ht t htm => ?_, hre r hr⟩ h6
    have := htags r hr ht t htm
    omega

/-! ## C75 -/

/-- What a configured rule means for a line with parse `p` and text `u` without
escapes. -/
def ConfMatches (compile : Bytes → Option (Bytes → Bool)) (r : RuleConf) (p : Parsed) (u : Bytes) : Prop :=
  (r.rtype = b!"basic" ∧ fnv32 p.measurement = fnv32 r.match_) ∨
  (r.rtype = b!"tags" ∧ ∀ t ∈ r.tags, (⟨t.headD [], t.tail.headD []⟩ : Tag) ∈ p.tags) ∨
  (r.rtype = b!"regex" ∧ ∃ re, compile r.match_ = some re ∧ re u = true) ∨
  (r.rtype = b!"negregex" ∧ ∃ re, compile r.match_ = some re ∧ re u = false)

theorem tags_of_maps (ts : List Tag) (raw : List (List Bytes)) (hk : ts.map (·.key) = raw.map (fun t => t.headD []))
    (hv : ts.map (·.value) = raw.map (fun t => t.tail.headD [])) :
    ts = raw.map (fun t => ⟨t.headD [], t.tail.headD []⟩) := by
  induction ts generalizing raw with
  | nil =>
    cases raw with
    | nil => rfl
    | cons a l => cases hk
  | cons t ts ih =>
    cases raw with
    | nil => cases hk
    | cons a l =>
      simp only [List.map_cons, List.cons.injEq] at hk hv ⊢
      refine ⟨?_, ih l hk.2 hv.2⟩
      obtain ⟨k, v⟩ := t
      simp only at hk hv
      rw [hk.1, hv.1]

theorem describes_matches {compile : Bytes → Option (Bytes → Bool)} {r : RuleConf} {rule : Rule}
    (h : Describes compile r rule) (p : Parsed) (u : Bytes) :
    RuleMatches rule.matcher p u ↔ ConfMatches compile r p u := by
  unfold ConfMatches
  cases h with
  | basic h =>
    simp only [RuleMatches, h, true_and]
    constructor
    · exact Or.inl
    · rintro (k | ⟨k, -⟩ | ⟨k, -⟩ | ⟨k, -⟩)
      · exact k
      all_goals exact absurd k (by decide)
  | tags h ts hk hv =>
    have e := tags_of_maps ts r.tags hk hv
    simp only [RuleMatches, h, true_and]
    subst e
    constructor
    · intro k
      exact Or.inr (Or.inl fun t ht => k _ (List.mem_map.2 ⟨t, ht, rfl⟩))
    · rintro (⟨k, -⟩ | k | ⟨k, -⟩ | ⟨k, -⟩)
      · exact absurd k (by decide)
      · intro t ht
        obtain ⟨x, hx, rfl⟩ := List.mem_map.1 ht
        exact k x hx
      all_goals exact absurd k (by decide)
  | regex h re hc =>
    simp only [RuleMatches, h, true_and, hc, Option.some.injEq, exists_eq_left']
    constructor
    · exact fun k => Or.inr (Or.inr (Or.inl k))
    · rintro (⟨k, -⟩ | ⟨k, -⟩ | k | ⟨k, -⟩)
      · exact absurd k (by decide)
      · exact absurd k (by decide)
      · exact k
      · exact absurd k (by decide)
  | negregex h re hc =>
    simp only [RuleMatches, h, true_and, hc, Option.some.injEq, exists_eq_left']
    constructor
    · exact fun k => Or.inr (Or.inr (Or.inr k))
    · rintro (⟨k, -⟩ | ⟨k, -⟩ | ⟨k, -⟩ | k)
      · exact absurd k (by decide)
      · exact absurd k (by decide)
      · exact absurd k (by decide)
      · exact k

theorem Pairwise2.get {α β : Type} {R : α → β → Prop} {as : List α} {bs : List β} (h : Pairwise2 R as bs) (i : Nat) :
    (as[i]? = none ∧ bs[i]? = none) ∨ ∃ a b, as[i]? = some a ∧ bs[i]? = some b ∧ R a b := by
  induction h generalizing i with
  | nil => exact Or.inl ⟨by simp, by simp⟩
  | cons h t ih =>
    cases i with
    | zero => exact Or.inr ⟨_, _, rfl, rfl, h⟩
    | succ i => simpa using ih i

/-- **C75.** With rules built from the configuration, a line is given to the
`i`-th rule exactly when the `i`-th configured rule matches and no configured
rule before it does. -/
theorem C75_first_configured_match (compile : Bytes → Option (Bytes → Bool)) (rs : List RuleConf) (rules : List Rule)
    (hb : ruleSetFromConfig compile rs = .ok (some rules)) (line : Bytes) (i : Nat) :
    lookup rules line = .ok (some i) ↔
      ∃ p u r, parseTags line = .ok (some p) ∧ unescape line = .ok u ∧ rs[i]? = some r ∧
        ConfMatches compile r p u ∧ ∀ j < i, ∀ r', rs[j]? = some r' → ¬ ConfMatches compile r' p u := by
  have hall : ∀ r ∈ rs, Buildable compile r ∧ Supported r := by
    clear line i
    induction rs generalizing rules with
    | nil => simp
    | cons r rs ih =>
      by_cases hB : Buildable compile r
      · by_cases hS : Supported r
        · obtain ⟨rule, -, h4⟩ := (rule_first compile r rs).2.2 hB hS
          rw [h4] at hb
          cases hr : ruleSetFromConfig compile rs with
          | panic => rw [hr] at hb; cases hb
          | ok o =>
            cases o with
            | none => rw [hr] at hb; cases hb
            | some rl =>
              intro x hx
              rcases List.mem_cons.1 hx with rfl | hx
              · exact ⟨hB, hS⟩
              · exact ih rl hr x hx
        · rw [(rule_first compile r rs).2.1 hB hS] at hb; cases hb
      · rw [(rule_first compile r rs).1 hB] at hb; cases hb
  obtain ⟨rules', h1, h2⟩ := C75_rules_as_configured compile rs hall
  rw [hb] at h1
  injection h1 with h1
  injection h1 with h1
  subst h1
  rw [C15_first_match]
  constructor
  · rintro ⟨p, u, r, k1, k2, k3, k4, k5⟩
    rcases h2.get i with ⟨-, g⟩ | ⟨a, b, g1, g2, g3⟩
    · rw [k3] at g; cases g
    · rw [k3] at g2
      injection g2 with g2
      subst g2
      refine ⟨p, u, a, k1, k2, g1, (describes_matches g3 p u).1 k4, ?_⟩
      intro j hj r' hr'
      rcases h2.get j with ⟨q, -⟩ | ⟨a', b', q1, q2, q3⟩
      · rw [hr'] at q; cases q
      · rw [hr'] at q1
        injection q1 with q1
        subst q1
        intro hm
        exact k5 j hj b' q2 ((describes_matches q3 p u).2 hm)
  · rintro ⟨p, u, r, k1, k2, k3, k4, k5⟩
    rcases h2.get i with ⟨g, -⟩ | ⟨a, b, g1, g2, g3⟩
    · rw [k3] at g; cases g
    · rw [k3] at g1
      injection g1 with g1
      subst g1
      refine ⟨p, u, b, k1, k2, g2, (describes_matches g3 p u).2 k4, ?_⟩
      intro j hj r' hr'
      rcases h2.get j with ⟨-, q⟩ | ⟨a', b', q1, q2, q3⟩
      · rw [hr'] at q; cases q
      · rw [hr'] at q2
        injection q2 with q2
        subst q2
        intro hm
        exact k5 j hj a' q1 ((describes_matches q3 p u).1 hm)

/-- Test: a rule set from the example configuration. -/
example : ∃ rules, ruleSetFromConfig (fun _ => none) exampleFilter.rule = .ok (some rules) ∧
    lookup rules b!"cpu,h=a v=1" = .ok (some 0) ∧ lookup rules b!"cpu,h=b v=1" = .ok (some 1) ∧
    lookup rules b!"mem,h=b v=1" = .ok none :=
  ⟨_, rfl, by decide +kernel, by decide +kernel, by decide +kernel⟩

end Spout.Conf
