import Verif.Model.Setup
import Verif.Props.ConfigFile
import Verif.Props.DeploymentStore

/-! # From configuration files to databases (C112)

The properties of deployments (C88, C101, C111) for processes that are started from configuration files: all their hypotheses about
settings are about what the files say. -/

set_option linter.unusedSimpArgs false

namespace Spout.Deploy
open Spout Spout.Listener Spout.Pool Spout.Spec Spout.Delivery Spout.Conf Spout.Conf.Spec

universe u

/-! ## Specification -/

/-- The configuration was read from some file on some machine, and accepted. -/
def Loaded (c : Config) : Prop := ∃ fs env f, newConfigFromFile fs env f = some c

/-- All configurations were read and accepted, each by a process of its kind. -/
structure Confs.Loaded (cs : Confs) : Prop where
  listeners : ∀ c ∈ cs.listeners, Deploy.Loaded c ∧ (c.mode = b!"listener" ∨ c.mode = b!"listener_http")
  filter : Deploy.Loaded cs.filter ∧ cs.filter.mode = b!"filter"
  downsamplers : ∀ c ∈ cs.downsamplers, Deploy.Loaded c ∧ c.mode = b!"downsampler"
  writers : ∀ c ∈ cs.writers, Deploy.Loaded c ∧ c.mode = b!"writer"

/-- The listeners publish on the subject to which the filters subscribe. -/
def Confs.Connected (cs : Confs) : Prop := ∀ c ∈ cs.listeners, c.natsSubject = cs.filter.natsSubject

variable (compile : Bytes → Option (Bytes → Bool))

/-- A listener with the settings of a configuration. -/
inductive ListenerOf (c : Config) : LComp → Prop
  | udp (l : Listener) (got : List UDPEvent) (hm : c.mode = b!"listener") (hc : l.conf = listenerConf c) : ListenerOf c (.udp l got)
  | http (l : Listener) (reqs : List HReq) (wakeups order : List HTTPEvent) (hm : c.mode = b!"listener_http") (hc : l.conf = listenerConf c) :
      ListenerOf c (.http l reqs wakeups order)

/-- A subscription of a downsampler with a configuration. -/
structure DownOf {fo : FloatOps} (c : Config) (y : DComp fo) : Prop where
  subject : y.subject ∈ c.natsSubject
  out : y.out = y.subject ++ c.downsampleSuffix
  period : y.period = c.downsamplePeriod

/-- A writer (or a queue group of writers) with a configuration. -/
structure WriterOf (c : Config) (x : WComp) : Prop where
  subjects : x.subjects = c.natsSubject
  conf : writerConf compile c = .ok (some x.conf)

variable {d : Setup}

/-- Every process that is running or has crashed was started with one of the configurations, and the listeners publish on the subject of the filters. -/
structure Deployed (cs : Confs) (s : State d) : Prop where
  filter : ∃ f, filterConf compile cs.filter = .ok (some f) ∧ d = f.setup d.S d.fo
  listeners : ∀ y ∈ s.sources, ∃ c ∈ cs.listeners, ListenerOf c y ∧ c.natsSubject = [d.lsub]
  downs : ∀ y ∈ s.downs, ∃ c ∈ cs.downsamplers, DownOf c y
  writers : ∀ x ∈ s.writers, ∃ c ∈ cs.writers, WriterOf compile c x

/-- The subjects in the files do not get in the way of the lines for the writer with configuration `wc`: only the listeners publish to the filters, and only
the filters to the writer. -/
structure Confs.Separate (cs : Confs) (wc : Config) : Prop where
  rules : ∀ r ∈ cs.filter.rule, r.subject ∉ cs.filter.natsSubject
  junk : cs.filter.natsSubjectJunkyard ∉ cs.filter.natsSubject
  downs : ∀ c ∈ cs.downsamplers, ∀ sub ∈ c.natsSubject,
    sub ++ c.downsampleSuffix ∉ cs.filter.natsSubject ∧ sub ++ c.downsampleSuffix ∉ wc.natsSubject
  writer : ∀ sub ∈ wc.natsSubject, sub ∉ cs.filter.natsSubject
  nodup : wc.natsSubject.Nodup

/-- The subject that a filter with configuration `fc` should send a line to: that of the first configured rule that matches it (`ConfMatches`), the junk
subject if none does.  (A line whose tags cannot be parsed has no subject.) -/
inductive GoesTo (fc : Config) (line : Bytes) : Bytes → Prop
  | rule (p : Parsed) (u : Bytes) (i : Nat) (r : RuleConf) (hp : parseTags line = .ok (some p)) (hu : unescape line = .ok u) (hr : fc.rule[i]? = some r)
      (hm : ConfMatches compile r p u) (hn : ∀ j < i, ∀ r', fc.rule[j]? = some r' → ¬ ConfMatches compile r' p u) : GoesTo fc line r.subject
  | junk (p : Parsed) (u : Bytes) (hp : parseTags line = .ok (some p)) (hu : unescape line = .ok u)
      (hn : ∀ r ∈ fc.rule, ¬ ConfMatches compile r p u) : GoesTo fc line fc.natsSubjectJunkyard

/-- A writer with configuration `wc` should write a line that reaches it: it has no rules or one of them matches. -/
def Takes (wc : Config) (line : Bytes) : Prop :=
  wc.rule = [] ∨ ∃ p u, parseTags line = .ok (some p) ∧ unescape line = .ok u ∧ ∃ r ∈ wc.rule, ConfMatches compile r p u

/-- A line should be written by the writer. -/
def Wanted (fc wc : Config) (line : Bytes) : Prop := (∃ sub ∈ wc.natsSubject, GoesTo compile fc line sub) ∧ Takes compile wc line

/-- The tags of a line are in order, as InfluxDB recommends.  (What the filter does with others is in C20 and C21.) -/
def TagsInOrder (line : Bytes) : Prop := ∀ p, parseTags line = .ok (some p) → KeySorted p.tags

open Classical in
/-- The lines that the writer should write. -/
noncomputable def wanted (fc wc : Config) (lines : List Bytes) : List Bytes := lines.filter fun line => decide (Wanted compile fc wc line)

/-! ## Proofs -/

variable {compile} {cs : Confs} {s s0 : State d} {x : WComp}

theorem loaded_listener {c : Config} (h : Loaded c) (hm : c.mode = b!"listener" ∨ c.mode = b!"listener_http") : ListenerOK c := by
  obtain ⟨fs, env, f, h⟩ := h
  have ha := C63_loaded_acceptable fs env f c h
  rcases ha.mode with ⟨e, k⟩ | ⟨e, k⟩ | ⟨e, k⟩ | ⟨e, k⟩ | ⟨e, k⟩ | e
  · exact k
  · exact k
  all_goals rw [e] at hm; exact absurd hm (by decide)

theorem loaded_size {c : Config} (h : Loaded c) : 1 ≤ c.batchMaxSize := by
  obtain ⟨fs, env, f, h⟩ := h
  obtain ⟨k, l, -, -, D⟩ := C63_dynamic_settings fs env f c h
  rw [D.batchMaxSize]
  split
  · split <;> omega
  · omega

theorem writerConf_size {c : Config} {wc : WConf} (h : writerConf compile c = .ok (some wc)) : wc.batchMaxSize = c.batchMaxSize := by
  unfold writerConf at h
  cases hr : ruleSetFromConfig compile c.rule with
  | panic => rw [hr] at h; cases h
  | ok o =>
    rw [hr] at h
    cases o with
    | none => cases h
    | some rules =>
      have h : (Go.ok (some _) : Go (Option WConf)) = .ok (some wc) := h
      injection h with h; injection h with h
      rw [← h]

theorem writerConf_rules {c : Config} {wc : WConf} (h : writerConf compile c = .ok (some wc)) : ruleSetFromConfig compile c.rule = .ok (some wc.rules) := by
  unfold writerConf at h
  cases hr : ruleSetFromConfig compile c.rule with
  | panic => rw [hr] at h; cases h
  | ok o =>
    rw [hr] at h
    cases o with
    | none => cases h
    | some rules =>
      have h : (Go.ok (some _) : Go (Option WConf)) = .ok (some wc) := h
      injection h with h; injection h with h
      rw [← h]

theorem filterConf_eq {c : Config} {f : FConf} (h : filterConf compile c = .ok (some f)) :
    ruleSetFromConfig compile c.rule = .ok (some f.rules) ∧ c.natsSubject[0]? = some f.subject ∧ f.delta = c.maxTimeDelta ∧ f.junk = c.natsSubjectJunkyard := by
  unfold filterConf at h
  cases hr : ruleSetFromConfig compile c.rule with
  | panic => rw [hr] at h; cases h
  | ok o =>
    rw [hr] at h
    cases o with
    | none => cases h
    | some rules =>
      have h : (Conf.at' c.natsSubject 0).bind (fun subject => Go.ok (some (⟨subject, c.maxTimeDelta, rules, c.natsSubjectJunkyard⟩ : FConf))) = .ok (some f) := h
      unfold at' at h
      cases h0 : c.natsSubject[0]? with
      | none => rw [h0] at h; cases h
      | some b =>
        rw [h0] at h
        have h : (Go.ok (some (⟨b, c.maxTimeDelta, rules, c.natsSubjectJunkyard⟩ : FConf))) = .ok (some f) := h
        injection h with h; injection h with h
        rw [← h]
        exact ⟨rfl, rfl, rfl, rfl⟩

/-- **C112 (sizes).** Whatever the files say: the batches of listeners fit into messages of NATS, and those of writers are not empty. -/
theorem C112_sizes (L : cs.Loaded) (D : Deployed compile cs s) : SmallBatches s ∧ s.Sizes := by
  refine ⟨?_, ?_⟩
  · intro l got hl
    obtain ⟨c, hc, h, -⟩ := D.listeners _ hl
    cases h with
    | udp _ _ hm e =>
      rw [e]
      exact (loaded_listener (L.listeners c hc).1 (L.listeners c hc).2).2.2
  · intro x hx
    obtain ⟨c, hc, h⟩ := D.writers x hx
    rw [writerConf_size h.conf]
    exact loaded_size (L.writers c hc).1

/-- What the filter is configured with, in terms of its file. -/
theorem Deployed.setup (L : cs.Loaded) (D : Deployed compile cs s) :
    ruleSetFromConfig compile cs.filter.rule = .ok (some d.rules) ∧ cs.filter.natsSubject = [d.lsub] ∧ d.delta = cs.filter.maxTimeDelta ∧
      d.junk = cs.filter.natsSubjectJunkyard := by
  obtain ⟨f, hf, e⟩ := D.filter
  obtain ⟨h1, h2, h3, h4⟩ := filterConf_eq hf
  have e1 : d.rules = f.rules := by rw [e]; rfl
  have e2 : d.lsub = f.subject := by rw [e]; rfl
  have e3 : d.delta = f.delta := by rw [e]; rfl
  have e4 : d.junk = f.junk := by rw [e]; rfl
  rw [e1, e2, e3, e4]
  refine ⟨h1, ?_, h3, h4⟩
  obtain ⟨⟨fs, env, g, hl⟩, hm⟩ := L.filter
  have ha := C63_loaded_acceptable fs env g cs.filter hl
  have : ∃ t, cs.filter.natsSubject = [t] := by
    rcases ha.mode with ⟨e, k⟩ | ⟨e, k⟩ | ⟨e, k⟩ | ⟨e, k⟩ | ⟨e, k⟩ | e
    · rw [hm] at e; exact absurd e (by decide)
    · rw [hm] at e; exact absurd e (by decide)
    · exact k.1
    all_goals rw [hm] at e; exact absurd e (by decide)
  obtain ⟨t, ht⟩ := this
  rw [ht] at h2 ⊢
  simp only [List.getElem?_cons_zero, Option.some.injEq] at h2
  rw [h2]

theorem rules_described {rs : List RuleConf} {rules : List Rule} (hb : ruleSetFromConfig compile rs = .ok (some rules)) :
    Pairwise2 (Describes compile) rs rules := by
  have hall : ∀ r ∈ rs, Buildable compile r ∧ Supported r := by
    induction rs generalizing rules with
    | nil => simp
    | cons r rs ih =>
      by_cases hB : Buildable compile r
      · by_cases hS : Supported r
        · obtain ⟨rule, -, h4⟩ := (rule_first compile r rs).2.2 hB hS
          rw [h4] at hb
          cases hr : ruleSetFromConfig compile rs with
          | panic => rw [hr] at hb; cases hb
          | ok o =>
            cases o with
            | none => rw [hr] at hb; cases hb
            | some rl =>
              intro x hx
              rcases List.mem_cons.1 hx with rfl | hx
              · exact ⟨hB, hS⟩
              · exact ih hr x hx
        · rw [(rule_first compile r rs).2.1 hB hS] at hb; cases hb
      · rw [(rule_first compile r rs).1 hB] at hb; cases hb
  obtain ⟨rules', h1, h2⟩ := C75_rules_as_configured compile rs hall
  rw [hb] at h1
  injection h1 with h1
  injection h1 with h1
  subst h1
  exact h2

theorem described_left {α β : Type} {R : α → β → Prop} {as : List α} {bs : List β} (h : Pairwise2 R as bs) {b : β} (hb : b ∈ bs) : ∃ a ∈ as, R a b := by
  obtain ⟨i, hi⟩ := List.mem_iff_getElem?.1 hb
  rcases h.get i with ⟨-, g⟩ | ⟨a, b', g1, g2, g3⟩
  · rw [hi] at g; cases g
  · rw [hi] at g2; injection g2 with g2; subst g2
    exact ⟨a, List.mem_of_getElem? g1, g3⟩

theorem described_right {α β : Type} {R : α → β → Prop} {as : List α} {bs : List β} (h : Pairwise2 R as bs) {a : α} (ha : a ∈ as) : ∃ b ∈ bs, R a b := by
  obtain ⟨i, hi⟩ := List.mem_iff_getElem?.1 ha
  rcases h.get i with ⟨g, -⟩ | ⟨a', b, g1, g2, g3⟩
  · rw [hi] at g; cases g
  · rw [hi] at g1; injection g1 with g1; subst g1
    exact ⟨b, List.mem_of_getElem? g2, g3⟩

theorem describes_subject {r : RuleConf} {rule : Rule} (h : Describes compile r rule) : rule.subject = r.subject := by
  cases h <;> rfl

/-- The subjects of the running processes are those of the files. -/
theorem Deployed.separate (L : cs.Loaded) (D : Deployed compile cs s) {wc : Config} (hs : cs.Separate wc) (hw : WriterOf compile wc x) : Deploy.Separate s x := by
  obtain ⟨h1, h2, -, h4⟩ := D.setup L
  refine ⟨?_, ?_, ?_, ?_⟩
  · intro r hr e
    obtain ⟨r', hr', hd⟩ := described_left (rules_described h1) hr
    exact hs.rules r' hr' (by rw [← describes_subject hd, e, h2]; exact List.mem_singleton.2 rfl)
  · intro e
    exact hs.junk (by rw [← h4, e, h2]; exact List.mem_singleton.2 rfl)
  · intro y hy
    obtain ⟨c, hc, hd⟩ := D.downs y hy
    obtain ⟨a, b⟩ := hs.downs c hc y.subject hd.subject
    rw [← hd.out] at a b
    exact ⟨fun e => a (by rw [h2, e]; exact List.mem_singleton.2 rfl), by rw [hw.subjects]; exact b⟩
  · rw [hw.subjects]
    intro hm
    exact hs.writer _ hm (by rw [h2]; exact List.mem_singleton.2 rfl)

/-- What a downsampler with an accepted file publishes reaches only downsamplers with longer subjects. -/
theorem Deployed.longer (L : cs.Loaded) (D : Deployed compile cs s) {y z : DComp d.fo} (hy : y ∈ s.downs) (e : y.out = z.subject) : y.subject.length < z.subject.length := by
  obtain ⟨c, hc, hd⟩ := D.downs y hy
  obtain ⟨⟨fs, env, g, hl⟩, hm⟩ := L.downsamplers c hc
  have hne : c.downsampleSuffix ≠ [] := by
    rcases (C63_loaded_acceptable fs env g c hl).mode with ⟨e, k⟩ | ⟨e, k⟩ | ⟨e, k⟩ | ⟨e, k⟩ | ⟨e, k⟩ | e
    · rw [hm] at e; exact absurd e (by decide)
    · rw [hm] at e; exact absurd e (by decide)
    · rw [hm] at e; exact absurd e (by decide)
    · exact k.2
    all_goals rw [hm] at e; exact absurd e (by decide)
  have := List.length_pos_iff.2 hne
  rw [← e, hd.out, List.length_append]
  omega

theorem Deployed.acyclic (L : cs.Loaded) (D : Deployed compile cs s) {wc : Config} (hs : cs.Separate wc) : s.Acyclic := by
  obtain ⟨h1, h2, -, h4⟩ := D.setup L
  refine ⟨?_, ?_, ?_⟩
  · intro r hr e
    obtain ⟨r', hr', hd⟩ := described_left (rules_described h1) hr
    exact hs.rules r' hr' (by rw [← describes_subject hd, e, h2]; exact List.mem_singleton.2 rfl)
  · intro e
    exact hs.junk (by rw [← h4, e, h2]; exact List.mem_singleton.2 rfl)
  · intro y hy
    obtain ⟨c, hc, hd⟩ := D.downs y hy
    exact ⟨fun e => (hs.downs c hc y.subject hd.subject).1 (by rw [← hd.out, h2, e]; exact List.mem_singleton.2 rfl), fun z _ e => D.longer L hy e⟩

/-! ## What the files say about a line -/

/-- The filter sends a line with tags in order where its configuration says, as it is. -/
theorem subjectOf_inOrder {fc : Config} {rules : List Rule} (hb : ruleSetFromConfig compile fc.rule = .ok (some rules)) (S : Sorter) {line : Bytes}
    (ho : TagsInOrder line) (sub out : Bytes) :
    subjectOf S rules fc.natsSubjectJunkyard line = some (sub, out) ↔ GoesTo compile fc line sub ∧ out = line := by
  obtain ⟨o, hp⟩ := parseTags_safe line
  cases o with
  | none =>
    have e1 : emitted S line = .ok none := by
      unfold emitted; rw [newParsedLine_none hp]; rfl
    unfold subjectOf
    rw [e1]
    constructor
    · intro h; cases h
    · rintro ⟨g, -⟩
      cases g with
      | rule p u i r h => rw [hp] at h; cases h
      | junk p u h => rw [hp] at h; cases h
  | some p =>
    have hk := ho p hp
    have e1 : emitted S line = .ok (some line) := by rw [emitted_eq S line p hp, if_pos hk]
    have e2 : ∀ k, lookup rules line = .ok k → routeIdx S rules line = .ok (some k) := by
      intro k hl
      obtain ⟨pl, g1, g2, -, -, -, -, g7, -⟩ := newParsedLine_some hp
      have g : sortTags S pl = pl := by
        unfold sortTags
        rw [if_pos]
        rw [g2, g7, isSortedTags_iff]
        exact hk
      unfold lookup at hl
      unfold routeIdx
      rw [g1] at hl ⊢
      have hl : lookupParsed 0 rules pl = .ok k := hl
      show (lookupParsed 0 rules (sortTags S pl)).bind (fun o => Go.ok (some o)) = .ok (some k)
      rw [g, hl]
      rfl
    obtain ⟨k, hl⟩ := C15_lookup_total rules line
    unfold subjectOf
    rw [e1, e2 k hl]
    have hu := unescape_eq line
    have hd := rules_described hb
    cases k with
    | none =>
      rw [C15_no_match] at hl
      have hn : ∀ r ∈ fc.rule, ¬ ConfMatches compile r p (unescL line) := by
        rcases hl with hl | ⟨p', u, k1, k2, k3⟩
        · rw [hp] at hl; cases hl
        · rw [hp] at k1; injection k1 with k1; injection k1 with k1; subst k1
          rw [hu] at k2; injection k2 with k2; subst k2
          intro r hr hm
          obtain ⟨b, hbm, hdb⟩ := described_right hd hr
          exact k3 b hbm ((describes_matches hdb _ _).2 hm)
      show some (fc.natsSubjectJunkyard, line) = some (sub, out) ↔ _
      constructor
      · intro h
        injection h with h
        injection h with h1 h2
        rw [← h1, ← h2]
        exact ⟨.junk p _ hp hu hn, rfl⟩
      · rintro ⟨g, rfl⟩
        cases g with
        | rule p' u i r h1 h2 h3 h4 _ =>
          rw [hp] at h1; injection h1 with h1; injection h1 with h1; subst h1
          rw [hu] at h2; injection h2 with h2; subst h2
          exact absurd h4 (hn r (List.mem_of_getElem? h3))
        | junk => rfl
    | some i =>
      obtain ⟨p', u, r, k1, k2, k3, k4, k5⟩ := (C75_first_configured_match compile fc.rule rules hb line i).1 hl
      rw [hp] at k1; injection k1 with k1; injection k1 with k1; subst k1
      rw [hu] at k2; injection k2 with k2; subst k2
      have hr : ∃ rule, rules[i]? = some rule ∧ rule.subject = r.subject := by
        rcases hd.get i with ⟨g, -⟩ | ⟨a, b, q1, q2, q3⟩
        · rw [k3] at g; cases g
        · rw [k3] at q1; injection q1 with q1; subst q1
          exact ⟨b, q2, describes_subject q3⟩
      obtain ⟨rule, hr1, hr2⟩ := hr
      show (rules[i]?).map (fun r => (r.subject, line)) = some (sub, out) ↔ _
      rw [hr1]
      show some (rule.subject, line) = some (sub, out) ↔ _
      rw [hr2]
      constructor
      · intro h
        injection h with h
        injection h with h1 h2
        rw [← h1, ← h2]
        exact ⟨.rule p _ i r hp hu k3 k4 k5, rfl⟩
      · rintro ⟨g, rfl⟩
        cases g with
        | rule p' u j r' h1 h2 h3 h4 h5 =>
          rw [hp] at h1; injection h1 with h1; injection h1 with h1; subst h1
          rw [hu] at h2; injection h2 with h2; subst h2
          have : i = j := by
            rcases Nat.lt_trichotomy i j with h | h | h
            · exact absurd k4 (h5 i h r k3)
            · exact h
            · exact absurd h4 (k5 j h r' h3)
          subst this
          rw [k3] at h3; injection h3 with h3; subst h3
          rfl
        | junk p' u h1 h2 h3 =>
          rw [hp] at h1; injection h1 with h1; injection h1 with h1; subst h1
          rw [hu] at h2; injection h2 with h2; subst h2
          exact absurd k4 (h3 r (List.mem_of_getElem? k3))

/-- A line has at most one subject. -/
theorem GoesTo.unique {fc : Config} {line a b : Bytes} (h : GoesTo compile fc line a) (h' : GoesTo compile fc line b) : a = b := by
  cases h with
  | rule p u i r h1 h2 h3 h4 h5 =>
    cases h' with
    | rule p' u' j r' g1 g2 g3 g4 g5 =>
      rw [h1] at g1; injection g1 with g1; injection g1 with g1; subst g1
      rw [h2] at g2; injection g2 with g2; subst g2
      have : i = j := by
        rcases Nat.lt_trichotomy i j with h | h | h
        · exact absurd h4 (g5 i h r h3)
        · exact h
        · exact absurd g4 (h5 j h r' g3)
      subst this
      rw [h3] at g3; injection g3 with g3; rw [g3]
    | junk p' u' g1 g2 g3 =>
      rw [h1] at g1; injection g1 with g1; injection g1 with g1; subst g1
      rw [h2] at g2; injection g2 with g2; subst g2
      exact absurd h4 (g3 r (List.mem_of_getElem? h3))
  | junk p u h1 h2 h3 =>
    cases h' with
    | rule p' u' j r' g1 g2 g3 g4 g5 =>
      rw [h1] at g1; injection g1 with g1; injection g1 with g1; subst g1
      rw [h2] at g2; injection g2 with g2; subst g2
      exact absurd g4 (h3 r' (List.mem_of_getElem? g3))
    | junk => rfl

open Classical in
theorem textsTo_inOrder {fc : Config} {rules : List Rule} (hb : ruleSetFromConfig compile fc.rule = .ok (some rules)) (S : Sorter) {line : Bytes}
    (ho : TagsInOrder line) : ∀ {subs : List Bytes}, subs.Nodup →
    textsTo S rules fc.natsSubjectJunkyard subs line = if ∃ sub ∈ subs, GoesTo compile fc line sub then [line] else [] := by
  have key : ∀ sub, textTo S rules fc.natsSubjectJunkyard sub line = if GoesTo compile fc line sub then some line else none := by
    intro sub
    unfold textTo
    cases hs : subjectOf S rules fc.natsSubjectJunkyard line with
    | none =>
      rw [if_neg]
      intro g
      have := (subjectOf_inOrder hb S ho sub line).2 ⟨g, rfl⟩
      rw [hs] at this; cases this
    | some q =>
      obtain ⟨a, out⟩ := q
      obtain ⟨g, e⟩ := (subjectOf_inOrder hb S ho a out).1 hs
      show (if a = sub then some out else none) = _
      by_cases h : a = sub
      · rw [if_pos h, if_pos (by rw [← h]; exact g), e]
      · rw [if_neg h, if_neg fun g' => h (g.unique g')]
  intro subs
  unfold textsTo
  induction subs with
  | nil => intro _; simp
  | cons sub subs ih =>
    intro hn
    obtain ⟨n1, n2⟩ := List.nodup_cons.1 hn
    rw [List.filterMap_cons, key sub, ih n2]
    by_cases h : GoesTo compile fc line sub
    · have : ¬ ∃ t ∈ subs, GoesTo compile fc line t := by
        rintro ⟨t, ht, g⟩
        rw [← h.unique g] at ht
        exact n1 ht
      rw [if_pos h, if_neg this, if_pos ⟨sub, List.mem_cons_self, h⟩]
    · rw [if_neg h]
      by_cases h2 : ∃ t ∈ subs, GoesTo compile fc line t
      · obtain ⟨t, ht, g⟩ := h2
        rw [if_pos ⟨t, ht, g⟩, if_pos ⟨t, List.mem_cons_of_mem _ ht, g⟩]
      · rw [if_neg h2, if_neg]
        rintro ⟨t, ht, g⟩
        rcases List.mem_cons.1 ht with rfl | ht
        · exact h g
        · exact h2 ⟨t, ht, g⟩

theorem takes_iff {wc : Config} {rules : List Rule} (hb : ruleSetFromConfig compile wc.rule = .ok (some rules)) (line : Bytes) :
    Takes compile wc line ↔ rules = [] ∨ LineMatches rules line := by
  have hd := rules_described hb
  unfold Takes LineMatches
  have e : wc.rule = [] ↔ rules = [] := by
    generalize wc.rule = rs at hd
    cases hd with
    | nil => exact ⟨fun _ => rfl, fun _ => rfl⟩
    | cons => exact ⟨fun h => (by cases h), fun h => (by cases h)⟩
  refine or_congr e ?_
  constructor
  · rintro ⟨p, u, h1, h2, r, hr, hm⟩
    obtain ⟨b, hb, hdb⟩ := described_right hd hr
    exact ⟨p, u, h1, h2, b, hb, (describes_matches hdb p u).2 hm⟩
  · rintro ⟨p, u, h1, h2, b, hb, hm⟩
    obtain ⟨r, hr, hdb⟩ := described_left hd hb
    exact ⟨p, u, h1, h2, r, hr, (describes_matches hdb p u).1 hm⟩

open Classical in
/-- What reaches a writer and is kept by it is what the files say. -/
theorem kept_wanted (L : cs.Loaded) (D : Deployed compile cs s) {wc : Config} (hn : wc.natsSubject.Nodup) (hw : WriterOf compile wc x) {lines : List Bytes}
    (ho : ∀ line ∈ lines, TagsInOrder line) : kept x.conf.rules (textsFor d x lines) = wanted compile cs.filter wc lines := by
  obtain ⟨h1, -, -, h4⟩ := D.setup L
  have h5 := writerConf_rules hw.conf
  unfold wanted
  induction lines with
  | nil => exact kept_nil _
  | cons line lines ih =>
    have h6 : textsTo d.S d.rules d.junk x.subjects line = if ∃ sub ∈ wc.natsSubject, GoesTo compile cs.filter line sub then [line] else [] := by
      rw [h4, hw.subjects]
      exact textsTo_inOrder h1 d.S (ho line List.mem_cons_self) hn
    unfold textsFor at ih ⊢
    rw [List.flatMap_cons, kept_append, ih fun l hl => ho l (List.mem_cons_of_mem _ hl), h6, List.filter_cons]
    have ht := takes_iff h5 line
    by_cases hg : ∃ sub ∈ wc.natsSubject, GoesTo compile cs.filter line sub
    · rw [if_pos hg]
      by_cases hk : Takes compile wc line
      · have e : kept x.conf.rules [line] = [line] := by
          unfold kept
          split
          · rfl
          · rename_i hne
            rw [List.filter_cons, if_pos (decide_eq_true ((ht.1 hk).resolve_left hne)), List.filter_nil]
        have hW : Wanted compile cs.filter wc line := ⟨hg, hk⟩
        rw [e, if_pos (decide_eq_true hW)]; rfl
      · have e : kept x.conf.rules [line] = [] := by
          unfold kept
          split
          · rename_i he; exact absurd (ht.2 (Or.inl he)) hk
          · rw [List.filter_cons, if_neg, List.filter_nil]
            intro h
            exact hk (ht.2 (Or.inr (of_decide_eq_true h)))
        have hW : ¬ Wanted compile cs.filter wc line := fun h => hk h.2
        rw [e, if_neg (by simpa using hW)]; rfl
    · rw [if_neg hg, kept_nil]
      have hW : ¬ Wanted compile cs.filter wc line := fun h => hg h.1
      rw [if_neg (by simpa using hW)]; rfl

/-! ## The theorems -/

/-- Complete lines with their tags in order. -/
def Lines (lines : List Bytes) : Prop := ∀ line ∈ lines, IsLine line ∧ TagsInOrder line

theorem Lines.fine {lines : List Bytes} (h : Lines lines) (S : Sorter) (c : WConf) : RulesFine S c lines :=
  Or.inr fun line hl => C96_stays_one_line S line (h line hl).1 fun p hp => Or.inl ((h line hl).2 p hp)

/-- **C112 (nothing but the files).** A process keeps the settings of its file. -/
theorem C112_stays (D : Deployed compile cs s) {s' : State d} (h : Run d s s') : Deployed compile cs s' := by
  have key : SameSetup s s' := by
    induction h with
    | refl => exact .refl s
    | step _ h ih => exact ih.trans (step_same h)
  refine ⟨D.filter, ?_, ?_, ?_⟩
  · intro y hy
    rcases List.mem_append.1 hy with hy | hy
    · obtain ⟨y0, h0, e⟩ := mem_of_map key.listeners hy
      obtain ⟨c, hc, hl, hsub⟩ := D.listeners y0 (List.mem_append_left _ h0)
      refine ⟨c, hc, ?_, hsub⟩
      cases hl with
      | udp l got hm hcf =>
        cases y with
        | udp l' got' =>
          have e : l.conf = l'.conf := by simpa [LComp.kind] using e
          exact .udp l' got' hm (by rw [← e]; exact hcf)
        | http => simp [LComp.kind] at e
      | http l reqs wk order hm hcf =>
        cases y with
        | udp => simp [LComp.kind] at e
        | http l' reqs' wk' order' =>
          have e : l.conf = l'.conf := by simpa [LComp.kind] using e
          exact .http l' reqs' wk' order' hm (by rw [← e]; exact hcf)
    · rw [key.crashed] at hy
      exact D.listeners y (List.mem_append_right _ hy)
  · intro y hy
    obtain ⟨y0, h0, e⟩ := mem_of_map key.downs hy
    simp only [Prod.mk.injEq] at e
    obtain ⟨c, hc, h1, h2, h3⟩ := D.downs y0 h0
    exact ⟨c, hc, by rw [← e.1]; exact h1, by rw [← e.1, ← e.2.1]; exact h2, by rw [← e.2.2.1]; exact h3⟩
  · intro x hx
    obtain ⟨x0, h0, e⟩ := mem_of_map key.writers hx
    simp only [Prod.mk.injEq] at e
    obtain ⟨c, hc, h1, h2⟩ := D.writers x0 h0
    exact ⟨c, hc, by rw [← e.1]; exact h1, by rw [← e.2.1]; exact h2⟩

/-- **C112 (exactly once).** Processes started from accepted configuration files whose subjects are separate, in any schedule, with processes starting and
crashing: when nothing is under way to a writer, no publish has failed, nothing was dropped and all lines were timely, then what
the workers of the writer have sent to InfluxDB (first attempts) are exactly those lines sent to the listeners whose first matching rule in the filter's file names a subject in the
writer's file, or that match none if the junk subject is in it, and that match a rule of the writer's file if it has any. -/
theorem C112_exactly_once (L : cs.Loaded) (h0 : Start d s0) (h : Reach d s0 s) (D : Deployed compile cs s) (hx : x ∈ s.writers) {wc : Config}
    (hw : WriterOf compile wc x) (hsep : cs.Separate wc) (sent : List (List Bytes)) (hs : Each2 Sent s.sources sent) (hl : Lines sent.flatten)
    (hf : s.NoFailure) (ht : s.Timely) (hq : Quiet s x) :
    ∃ sentBy : List (List Bytes), sentBy.map List.flatten = x.inp.workers.map (fun k => firstData k.hist) ∧
      sentBy.flatten.Perm (wanted compile cs.filter wc sent.flatten) := by
  obtain ⟨sentBy, h1, h2⟩ := C88_deployment_exactly_once h0 h hx (D.separate L hsep hw) (C112_sizes L D).1 sent hs (hl.fine _ _) hf ht hq
  exact ⟨sentBy, h1, by rwa [kept_wanted L D hsep.nodup hw fun line hm => (hl line hm).2] at h2⟩

/-- **C112 (every line arrives).** In every fair schedule after the last input the deployment comes to rest, and then this is what every writer has sent for which nothing was lost. -/
theorem C112_every_line_arrives (L : cs.Loaded) (h0 : Start d s0) (h : Reach d s0 s) (D : Deployed compile cs s) {wc : Config}
    (hsep : cs.Separate wc) (hm : s.filters.members ≠ []) (sent : List (List Bytes)) (hs : Each2 Sent s.sources sent)
    (hl : Lines sent.flatten) {f : Nat → State d} (F : Schedule d s f) (hf : Fair f) :
    ∃ N, ∀ n, N ≤ n → (f n).Finished ∧ ((f n).NoFailure → (f n).Timely → ∀ x ∈ (f n).writers, x.inp.members ≠ [] → WriterOf compile wc x →
      NothingLost (f n) x → ∃ sentBy : List (List Bytes), sentBy.map List.flatten = x.inp.workers.map (fun k => firstData k.hist) ∧
        sentBy.flatten.Perm (wanted compile cs.filter wc sent.flatten)) := by
  obtain ⟨hb, B⟩ := C112_sizes L D
  obtain ⟨N, hN⟩ := C101_every_line_arrives h0 h (D.acyclic L hsep) B hb hm sent hs F hf
  refine ⟨N, fun n hn' => ⟨(hN n hn').1, fun a b x hx hxm hw hlost => ?_⟩⟩
  have D' : Deployed compile cs (f n) := C112_stays D (F.ok (inv_reach h0 h) (D.acyclic L hsep) B n).2.2.2
  obtain ⟨sentBy, h1, h2⟩ := (hN n hn').2 a b x hx hxm (hl.fine _ _) (D'.separate L hsep hw) hlost
  exact ⟨sentBy, h1, by rwa [kept_wanted L D' hsep.nodup hw fun line hm => (hl line hm).2] at h2⟩

/-- **C112 (the content of the database).** If all writes were in the end accepted and the lines fit in a write, carry timestamps and do not
contradict each other, then InfluxDB holds exactly what those lines say. -/
theorem C112_stored {K V : Type} [DecidableEq K] (L : cs.Loaded) (h0 : Start d s0) (h : Reach d s0 s) (D : Deployed compile cs s) (hx : x ∈ s.writers) {wc : Config}
    (hw : WriterOf compile wc x) (hsep : cs.Separate wc) (sent : List (List Bytes)) (hs : Each2 Sent s.sources sent) (hl : Lines sent.flatten)
    (hfit : ∀ line ∈ sent.flatten, line.length ≤ wc.batchMaxSize + 1)
    (hf : s.NoFailure) (ht : s.Timely) (hq : Quiet s x) (ha : AcceptedAll x) (sets : Int → Bytes → List (K × V))
    (hts : Timestamped sets (wanted compile cs.filter wc sent.flatten)) (hcons : Consistent sets (wanted compile cs.filter wc sent.flatten))
    (ws : List (Bytes × Int)) (hws : HandledAll x.inp.workers ws) (k : K) (v : V) :
    stored sets ws k = some v ↔ ∃ line ∈ wanted compile cs.filter wc sent.flatten, (k, v) ∈ sets 0 line := by
  have e := kept_wanted L D hsep.nodup hw fun line hm => (hl line hm).2
  rw [← e] at hts hcons ⊢
  refine C111_deployment h0 h hx (D.separate L hsep hw) (C112_sizes L D).1 sent hs hf ht hq ((C112_sizes L D).2 x hx) ha ?_ sets hts hcons ws hws k v
  intro txt htxt
  obtain ⟨line, hline, hm⟩ := List.mem_flatMap.1 htxt
  obtain ⟨h1, -, -, h4⟩ := D.setup L
  rw [h4, hw.subjects, textsTo_inOrder h1 d.S (hl line hline).2 hsep.nodup] at hm
  have : txt = line := by
    split at hm
    · exact List.mem_singleton.1 hm
    · cases hm
  rw [this, writerConf_size hw.conf]
  exact ⟨(hl line hline).1, hfit line hline⟩

/-- **C112 (by default).** Two processes on one machine whose files do not set `nats_subject` use the same subject. -/
theorem C112_same_subject (fs : Bytes → FileState) (env : Bytes → Bytes) (f g : Bytes) (c c' : Config) (h : newConfigFromFile fs env f = some c)
    (h' : newConfigFromFile fs env g = some c') (l l' : Layer) (hl : fs f = .decoded l) (hl' : fs g = .decoded l') (hn : l.natsSubject = none)
    (hn' : l'.natsSubject = none) : c.natsSubject = c'.natsSubject := by
  obtain ⟨k, l1, a1, a2, a3⟩ := C63_plain_settings fs env f c h
  obtain ⟨k', l2, b1, b2, b3⟩ := C63_plain_settings fs env g c' h'
  rw [hl] at a2; injection a2 with a2; subst a2
  rw [hl'] at b2; injection b2 with b2; subst b2
  have : k = k' := by
    rcases a1 with a1 | ⟨a1, rfl⟩ <;> rcases b1 with b1 | ⟨b1, rfl⟩ <;> rw [a1] at b1
    · injection b1
    · cases b1
    · cases b1
  rw [a3.natsSubject, b3.natsSubject, hn, hn', this]

/-- **C112 (the start).** Processes started from accepted files whose listeners publish on the subject of the filter are such a deployment. -/
theorem C112_starts (L : cs.Loaded) (hc : cs.Connected) {S : Sorter} {fo : FloatOps} {f : FConf} (hf : filterConf compile cs.filter = .ok (some f))
    (procs pages n : Nat) (now : Int) :
    Start (f.setup S fo) (startAll compile procs pages n now (f.setup S fo) cs) ∧ Deployed compile cs (startAll compile procs pages n now (f.setup S fo) cs) := by
  have hsub : cs.filter.natsSubject = [f.subject] := by
    let z : State (f.setup S fo) := ⟨[], [], ⟨[], [], []⟩, [], []⟩
    have D : Deployed compile cs z := ⟨⟨f, hf, rfl⟩, (fun y hy => by cases hy), (fun y hy => by cases hy), (fun y hy => by cases hy)⟩
    exact (D.setup L).2.1
  refine ⟨⟨?_, rfl, ⟨⟨rfl, ?_, rfl⟩, ?_⟩, ?_, ?_⟩, ⟨⟨f, hf, rfl⟩, ?_, ?_, ?_⟩⟩
  · intro y hy
    obtain ⟨c, -, h⟩ := List.mem_filterMap.1 hy
    unfold startListener at h
    split at h
    · injection h with h; exact ⟨_, _, Or.inl h.symm⟩
    · split at h
      · injection h with h; exact ⟨_, _, Or.inr h.symm⟩
      · cases h
  · intro y hy
    rw [(List.mem_replicate.1 hy).2]; rfl
  · intro y hy k hk
    rw [(List.mem_replicate.1 hy).2] at hk
    exact (List.mem_replicate.1 hk).2
  · intro y hy
    obtain ⟨c, -, h⟩ := List.mem_flatMap.1 hy
    obtain ⟨sub, -, rfl⟩ := List.mem_map.1 h
    refine ⟨⟨rfl, ?_, rfl⟩, _, rfl⟩
    intro z hz
    rw [List.mem_singleton.1 hz]; rfl
  · intro y hy
    obtain ⟨c, -, h⟩ := List.mem_filterMap.1 hy
    unfold startWriter at h
    split at h
    · cases h
    · split at h
      · injection h with h
        subst h
        refine ⟨⟨rfl, ?_, rfl⟩, ?_⟩
        · intro z hz
          rw [List.mem_singleton.1 hz]
          show Pool.start _ _ = Pool.start _ (List.length (List.replicate _ _))
          rw [List.length_replicate]
        · intro z hz k hk
          rw [List.mem_singleton.1 hz] at hk
          exact ⟨pages, now, (List.mem_replicate.1 hk).2⟩
      · cases h
  · intro y hy
    have hy : y ∈ cs.listeners.filterMap (startListener now) := by simpa [State.sources, startAll] using hy
    obtain ⟨c, hcm, h⟩ := List.mem_filterMap.1 hy
    refine ⟨c, hcm, ?_, (hc c hcm).trans hsub⟩
    unfold startListener at h
    split at h
    · rename_i hm
      injection h with h; subst h
      exact .udp _ _ hm rfl
    · split at h
      · rename_i hm
        injection h with h; subst h
        exact .http _ _ _ _ hm rfl
      · cases h
  · intro y hy
    obtain ⟨c, hcm, h⟩ := List.mem_flatMap.1 hy
    obtain ⟨sub, hs, rfl⟩ := List.mem_map.1 h
    exact ⟨c, hcm, hs, rfl, rfl⟩
  · intro y hy
    obtain ⟨c, hcm, h⟩ := List.mem_filterMap.1 hy
    unfold startWriter at h
    split at h
    · cases h
    · split at h
      · rename_i wc hwc
        injection h with h
        subst h
        exact ⟨c, hcm, rfl, hwc⟩
      · cases h

/-- **C112 (everything starts).** Every listener whose file was accepted starts, with its settings; as many filters as are started, each with the number of workers in its file; for every writer whose rules compile and whose number of workers is not
negative, a process that subscribes to the subjects in its file, with that number of workers (twice the number of processors for 0); and for every subject in the file of a downsampler, a downsampler that reads it. -/
theorem C112_everything_starts (L : cs.Loaded) {S : Sorter} {fo : FloatOps} {f : FConf} (procs pages n : Nat) (now : Int) :
    Each2 ListenerOf cs.listeners (startAll compile procs pages n now (f.setup S fo) cs).listeners ∧
    (startAll compile procs pages n now (f.setup S fo) cs).filters.members.length = n ∧
    (∀ y ∈ (startAll compile procs pages n now (f.setup S fo) cs).filters.members, y.workers.length = cs.filter.workers.toNat) ∧
    (∀ c ∈ cs.writers, ∀ wc, writerConf compile c = .ok (some wc) → 0 ≤ c.workers → ∃ x ∈ (startAll compile procs pages n now (f.setup S fo) cs).writers,
      WriterOf compile c x ∧ x.inp.members.length = 1 ∧ x.inp.workers.length = if c.workers = 0 then 2 * procs else c.workers.toNat) ∧
    (∀ c ∈ cs.downsamplers, ∀ sub ∈ c.natsSubject, ∃ y ∈ (startAll compile procs pages n now (f.setup S fo) cs).downs,
      DownOf c y ∧ y.subject = sub ∧ y.now0 = now ∧ y.inp.members.length = 1) := by
  refine ⟨?_, ?_, ?_, ?_, ?_⟩
  · show Each2 ListenerOf cs.listeners (cs.listeners.filterMap (startListener now))
    have h := L.listeners
    generalize cs.listeners = l at h
    induction l with
    | nil => exact .nil
    | cons c l ih =>
      have ih := ih fun c hc => h c (List.mem_cons_of_mem _ hc)
      rcases (h c List.mem_cons_self).2 with hm | hm
      · have e : startListener now c = some (.udp (Listener.new (listenerConf c) now) []) := by unfold startListener; rw [if_pos hm]
        rw [List.filterMap_cons, e]
        exact .cons (.udp _ _ hm rfl) ih
      · have e : startListener now c = some (.http (Listener.new (listenerConf c) now) [] [] []) := by
          unfold startListener; rw [if_neg (by rw [hm]; decide), if_pos hm]
        rw [List.filterMap_cons, e]
        exact .cons (.http _ _ _ _ hm rfl) ih
  · exact List.length_replicate
  · intro y hy
    rw [(List.mem_replicate.1 hy).2]
    exact List.length_replicate
  · intro c hc wc hwc hn
    have e : startWriter compile procs pages now c = some ⟨c.natsSubject, wc, ⟨c.natsSubject.map fun subject => ⟨subject, [], []⟩,
      [⟨Pool.start c.natsSubject.length (writerWorkers procs c), List.replicate (writerWorkers procs c) (WSys.start wc pages now)⟩], []⟩⟩ := by
      unfold startWriter
      rw [if_neg (by omega), hwc]
    refine ⟨_, List.mem_filterMap.2 ⟨c, hc, e⟩, ⟨rfl, hwc⟩, rfl, ?_⟩
    simp only [Group.workers, Group.all, List.append_nil, List.flatMap_cons, List.flatMap_nil, List.length_replicate]
    rfl
  · intro c hc sub hs
    exact ⟨_, List.mem_flatMap.2 ⟨c, hc, List.mem_map_of_mem hs⟩, ⟨hs, rfl, rfl⟩, rfl, rfl, rfl⟩

/-! ## A case: the deployment of `Props/DeploymentStore`, from files -/

def fileListener : Layer := { mode := some b!"listener", batchMaxCount := some 1, batchMaxAge := some 1000 }

def fileFilter : Layer :=
  { mode := some b!"filter", maxTimeDelta := some 1000, natsSubjectJunkyard := some b!"junk",
    rule := some [{ rtype := some b!"basic", match_ := some b!"cpu", subject := some b!"cpu-subject" },
      { rtype := some b!"tags", tags := some [[b!"h", b!"1"]], subject := some b!"tag-subject" }] }

def fileWriter : Layer :=
  { mode := some b!"writer", natsSubject := some [b!"cpu-subject"], batchMaxCount := some 1, batchMaxSize := some 1000, batchMaxAge := some 10,
    writerRetryBatches := some 1, writerRetryInterval := some 5, writerRetryTimeout := some 1000 }

/-- A machine with these files. -/
def fileSystem : Bytes → FileState := fun n =>
  if n = b!"listener.toml" then .decoded fileListener else if n = b!"filter.toml" then .decoded fileFilter
  else if n = b!"writer.toml" then .decoded fileWriter else .notExist

def fileConf (n : Bytes) : Config := (newConfigFromFile fileSystem (fun _ => []) n).getD {}

def fileConfs : Confs := ⟨[fileConf b!"listener.toml"], fileConf b!"filter.toml", [], [fileConf b!"writer.toml"]⟩

theorem fileConf_loaded {n : Bytes} (h : (newConfigFromFile fileSystem (fun _ => []) n).isSome = true) : Loaded (fileConf n) := by
  refine ⟨fileSystem, fun _ => [], n, ?_⟩
  unfold fileConf
  cases hn : newConfigFromFile fileSystem (fun _ => []) n with
  | none => rw [hn] at h; cases h
  | some c => rfl

theorem fileConfs_loaded : fileConfs.Loaded := by
  refine ⟨?_, ⟨fileConf_loaded (n := b!"filter.toml") (by decide +kernel), by decide +kernel⟩, (fun c hc => by cases hc), ?_⟩
  · intro c hc
    rw [List.mem_singleton.1 hc]
    exact ⟨fileConf_loaded (by decide +kernel), by decide +kernel⟩
  · intro c hc
    rw [List.mem_singleton.1 hc]
    exact ⟨fileConf_loaded (by decide +kernel), by decide +kernel⟩

theorem fileConfs_connected : fileConfs.Connected := by unfold Confs.Connected; decide +kernel

theorem fileConfs_separate : fileConfs.Separate (fileConf b!"writer.toml") := by
  refine ⟨by decide +kernel, by decide +kernel, (fun c hc => by cases hc), by decide +kernel, by decide +kernel⟩

theorem fileFilter_conf : filterConf (fun _ => none) fileConfs.filter = .ok (some ⟨b!"influx-spout", 1000, exRules, b!"junk"⟩) := by
  have e : fileConfs.filter.rule = [⟨b!"basic", b!"cpu", [], b!"cpu-subject"⟩, ⟨b!"tags", [], [[b!"h", b!"1"]], b!"tag-subject"⟩] := by decide +kernel
  have e1 : fileConfs.filter.natsSubject = [b!"influx-spout"] := by decide +kernel
  have e2 : fileConfs.filter.maxTimeDelta = 1000 := by decide +kernel
  have e3 : fileConfs.filter.natsSubjectJunkyard = b!"junk" := by decide +kernel
  unfold filterConf
  rw [e, e1, e2, e3]
  rfl

theorem fileWriter_conf : writerConf (fun _ => none) (fileConf b!"writer.toml") = .ok (some exStoreConf) := by
  have e : (fileConf b!"writer.toml").rule = [] := by decide +kernel
  have e1 : (fileConf b!"writer.toml").batchMaxCount = 1 ∧ (fileConf b!"writer.toml").batchMaxSize = 1000 ∧ (fileConf b!"writer.toml").batchMaxAge = 10 ∧
    (fileConf b!"writer.toml").writerRetryBatches = 1 ∧ (fileConf b!"writer.toml").writerRetryInterval = 5 ∧
    (fileConf b!"writer.toml").writerRetryTimeout = 1000 := by decide +kernel
  unfold writerConf
  rw [e, e1.1, e1.2.1, e1.2.2.1, e1.2.2.2.1, e1.2.2.2.2.1, e1.2.2.2.2.2]
  rfl

theorem stBusy_deployed : Deployed (fun _ => none) fileConfs stBusy := by
  refine ⟨⟨_, fileFilter_conf, rfl⟩, ?_, (fun y hy => by cases hy), ?_⟩
  · intro y hy
    rw [show y = .udp stL [stEvent] from List.mem_singleton.1 hy]
    refine ⟨_, List.mem_singleton.2 rfl, .udp _ _ (by decide +kernel) ?_, by decide +kernel⟩
    decide +kernel
  · intro y hy
    rw [List.mem_singleton.1 hy]
    refine ⟨_, List.mem_singleton.2 rfl, ?_, fileWriter_conf⟩
    show [b!"cpu-subject"] = _
    decide +kernel

/-- The hypotheses of C112 are met, at the end of a fair schedule; the line about `cpu` is wanted, the one about `mem` is not. -/
example : ∃ (f : Nat → State exSetup) (N : Nat) (s : State exSetup) (x : WComp) (ws : List (Bytes × Int)), fileConfs.Loaded ∧ fileConfs.Connected ∧
    Start exSetup stStart ∧ Reach exSetup stStart stBusy ∧ Deployed (fun _ => none) fileConfs stBusy ∧
    fileConfs.Separate (fileConf b!"writer.toml") ∧ stBusy.filters.members ≠ [] ∧ Lines [stLine, b!"mem,h=1 f=2 9900\n"] ∧
    Schedule exSetup stBusy f ∧ Fair f ∧ (∀ n, N ≤ n → f n = s) ∧ Reach exSetup stStart s ∧ Deployed (fun _ => none) fileConfs s ∧
    x ∈ s.writers ∧ x.inp.members ≠ [] ∧ WriterOf (fun _ => none) (fileConf b!"writer.toml") x ∧ NothingLost s x ∧
    Each2 Sent s.sources [[stLine, b!"mem,h=1 f=2 9900\n"]] ∧ s.NoFailure ∧ s.Timely ∧ Quiet s x ∧ AcceptedAll x ∧
    wanted (fun _ => none) fileConfs.filter (fileConf b!"writer.toml") [stLine, b!"mem,h=1 f=2 9900\n"] = [stLine] ∧ HandledAll x.inp.workers ws ∧
    stored exSets ws (.inr (b!"cpu", b!"f", b!"9900")) = some b!"1" := by
  obtain ⟨f, N, s, x, ws, h1, h2, h3, h4, h5, h6, h7, h8, h9, h10, h11, -, -, h14, h15, h16, h17, -, h19, h20, -, -, -, h24, -, h26⟩ := st_case
  have hrun : Run exSetup stBusy s := by
    have := (h5.ok (inv_reach h1 h2) h3 h4 N).2.2.2
    rwa [h7 N (Nat.le_refl N)] at this
  have D := C112_stays stBusy_deployed hrun
  have hw : WriterOf (fun _ => none) (fileConf b!"writer.toml") x := by
    obtain ⟨c, hc, hw⟩ := D.writers x h9
    rwa [List.mem_singleton.1 hc] at hw
  have hk : ∀ line ∈ [stLine, b!"mem,h=1 f=2 9900\n"], ∃ p ∈ [(⟨b!"cpu", [], b!"f=1 9900\n"⟩ : Parsed), ⟨b!"mem", [⟨b!"h", b!"1"⟩], b!"f=2 9900\n"⟩],
      parseTags line = .ok (some p) := by decide +kernel
  have hl : Lines [stLine, b!"mem,h=1 f=2 9900\n"] := by
    intro line hline
    refine ⟨?_, ?_⟩
    · rcases List.mem_cons.1 hline with rfl | hline
      · exact ⟨b!"cpu f=1 9900", by decide, rfl⟩
      · rw [List.mem_singleton.1 hline]
        exact ⟨b!"mem,h=1 f=2 9900", by decide, rfl⟩
    · intro p hp
      obtain ⟨p', hp', e⟩ := hk line hline
      rw [e] at hp
      injection hp with hp; injection hp with hp
      subst hp
      rw [← isSortedTags_iff]
      rcases List.mem_cons.1 hp' with rfl | hp'
      · decide
      · rw [List.mem_singleton.1 hp']; decide
  refine ⟨f, N, s, x, ws, fileConfs_loaded, fileConfs_connected, h1, h2, stBusy_deployed, fileConfs_separate, (fun h => by cases h), hl,
    h5, h6, h7, h8, D, h9, h10, hw, h11, h14, h15, h16, h17, h19, ?_, h24, h26⟩
  rw [← h20]
  exact (kept_wanted fileConfs_loaded D fileConfs_separate.nodup hw fun line hm => (hl line hm).2).symm

end Spout.Deploy
