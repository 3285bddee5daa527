import Verif.Lemmas.FilterSort
import Verif.Lemmas.Subset
import Verif.Props.Influx

/-! # Properties of the filter's rules and tag sorting (C15, C18, C20, C21, C23) -/

namespace Spout

/-! ## Specification of matching

`RuleMatches r p line`: rule `r` matches a line whose parse is `p`; written
without caches, slices or views. -/

/-- What each kind of rule means for a line with parse result `p`.  `unescaped`
is the line with escapes removed. -/
def RuleMatches (m : Matcher) (p : Parsed) (unescaped : Bytes) : Prop :=
  match m with
  | .basic h => fnv32 p.measurement = h
  | .regex re => re unescaped = true
  | .negregex re => re unescaped = false
  | .tags ts => ∀ t ∈ ts, t ∈ p.tags

theorem subsetOf_iff (t other : List Tag) : subsetOf t other = true ↔ ∀ x ∈ t, x ∈ other := by
  unfold subsetOf
  by_cases ht : t = []
  · simp [ht]
  · rw [if_neg (by simpa [List.length_eq_zero_iff] using ht)]
    have hpos : 0 < t.length := List.length_pos_iff.2 ht
    have := subsetOuter_spec t other [] 0
      (by rw [eq_comm, List.countP_eq_zero]; simp) hpos
    simpa using this

theorem holds_iff (m : Matcher) (p : Parsed) (line : Bytes) :
    m.holds p.measurement p.tags line = true ↔ RuleMatches m p (unescL line) := by
  cases m with
  | basic h => simp only [Matcher.holds, RuleMatches, beq_iff_eq]; exact eq_comm
  | regex re => simp [Matcher.holds, RuleMatches]
  | negregex re => simp [Matcher.holds, RuleMatches]
  | tags ts => simp only [Matcher.holds, RuleMatches]; exact subsetOf_iff _ _

theorem lookup_eq (rules : List Rule) (line : Bytes) (p : Parsed)
    (hp : parseTags line = .ok (some p)) :
    lookup rules line =
      .ok (firstIdx (fun r => r.matcher.holds p.measurement p.tags line) 0 rules) := by
  obtain ⟨pl, h1, h2, h3, h4, h5, h6, h7, h8⟩ := newParsedLine_some hp
  unfold lookup
  rw [h1]
  simp only [Go.ok_bind]
  rw [lookupParsed_eq 0 rules pl ⟨by rw [h4]; simp, by rw [h5]; simp⟩]
  simp only [PLine.val, h2, h3, h6, h7]

/-! ## C15 -/

/-- **C15.** `Lookup` returns index `i` exactly when the line's tags parse,
rule `i` matches and no earlier rule does. -/
theorem C15_first_match (rules : List Rule) (line : Bytes) (i : Nat) :
    lookup rules line = .ok (some i) ↔
      ∃ p u r, parseTags line = .ok (some p) ∧ unescape line = .ok u ∧ rules[i]? = some r ∧
        RuleMatches r.matcher p u ∧
        ∀ j < i, ∀ r', rules[j]? = some r' → ¬ RuleMatches r'.matcher p u := by
  obtain ⟨o, ho⟩ := parseTags_safe line
  cases o with
  | none =>
    constructor
    · intro h; unfold lookup at h; rw [newParsedLine_none ho] at h; simp at h
    · rintro ⟨p, u, r, h, -⟩; rw [ho] at h; simp at h
  | some p =>
    rw [lookup_eq rules line p ho, Go.ok.injEq, firstIdx_some]
    constructor
    · rintro ⟨j, r, rfl, h1, h2, h3⟩
      rw [Nat.zero_add]
      refine ⟨p, unescL line, r, ho, unescape_eq line, h1, (holds_iff _ _ _).1 h2, ?_⟩
      intro j' hj' r' hr' hm
      have := h3 j' hj' r' hr'
      rw [(holds_iff _ _ _).2 hm] at this; cases this
    · rintro ⟨p', u, r, h0, hu, h1, h2, h3⟩
      rw [ho] at h0; simp only [Go.ok.injEq, Option.some.injEq] at h0; subst h0
      rw [unescape_eq] at hu; simp only [Go.ok.injEq] at hu; subst hu
      refine ⟨i, r, by omega, h1, (holds_iff _ _ _).2 h2, ?_⟩
      intro j' hj' r' hr'
      have := h3 j' hj' r' hr'
      rw [← holds_iff] at this
      simpa using this

/-- **C15.** `Lookup` reports no match exactly when no rule matches or the
line's tags do not parse. -/
theorem C15_no_match (rules : List Rule) (line : Bytes) :
    lookup rules line = .ok none ↔
      parseTags line = .ok none ∨
      ∃ p u, parseTags line = .ok (some p) ∧ unescape line = .ok u ∧
        ∀ r ∈ rules, ¬ RuleMatches r.matcher p u := by
  obtain ⟨o, ho⟩ := parseTags_safe line
  cases o with
  | none =>
    constructor
    · intro _; exact Or.inl ho
    · intro _; unfold lookup; rw [newParsedLine_none ho]; rfl
  | some p =>
    rw [lookup_eq rules line p ho, Go.ok.injEq, firstIdx_none]
    constructor
    · intro h
      right
      refine ⟨p, unescL line, ho, unescape_eq line, ?_⟩
      intro r hr hm
      have := h r hr
      rw [(holds_iff _ _ _).2 hm] at this; cases this
    · rintro (h | ⟨p', u, h0, hu, h⟩)
      · rw [ho] at h; simp at h
      · rw [ho] at h0; simp only [Go.ok.injEq, Option.some.injEq] at h0; subst h0
        rw [unescape_eq] at hu; simp only [Go.ok.injEq] at hu; subst hu
        intro r hr
        have := h r hr
        rw [← holds_iff] at this
        simpa using this

/-- `Lookup` always answers (never panics). -/
theorem C15_lookup_total (rules : List Rule) (line : Bytes) : Go.Safe (lookup rules line) := by
  obtain ⟨o, ho⟩ := parseTags_safe line
  cases o with
  | none => exact ⟨none, (C15_no_match rules line).2 (Or.inl ho)⟩
  | some p => exact ⟨_, lookup_eq rules line p ho⟩

example : lookup [createBasicRule b!"cpu" b!"s1", createTagRule [⟨b!"h", b!"a"⟩] b!"s2",
    createTagRule [] b!"s3"] b!"mem,h=a v=1" = .ok (some 1) := by decide

/-! ## C18 -/

/-- The documented meaning of a basic rule. -/
def BasicRuleAsDocumented : Prop :=
  ∀ (name subject line : Bytes) (p : Parsed), parseTags line = .ok (some p) →
    (lookup [createBasicRule name subject] line = .ok (some 0) ↔ p.measurement = name)

/-- **C18 is false of the code**: the measurement is compared by its 32 bit
FNV-1 hash, and "creamwove" and "quists" collide. -/
theorem C18_basic_rule_collision : ¬ BasicRuleAsDocumented := by
  intro h
  have h1 : parseTags b!"quists f=1" = .ok (some ⟨b!"quists", [], b!"f=1"⟩) := by decide
  have h2 : lookup [createBasicRule b!"creamwove" b!"s"] b!"quists f=1" = .ok (some 0) := by decide
  exact absurd ((h b!"creamwove" b!"s" b!"quists f=1" _ h1).1 h2) (by decide)

/-- **C18 (partial).** A basic rule matches exactly the lines whose measurement
has the same hash as the configured name.  Missing: equality of names, which
fails for hash collisions (`C18_basic_rule_collision`). -/
theorem C18_basic_rule_exact_partial (name subject line : Bytes) (p : Parsed)
    (hp : parseTags line = .ok (some p)) :
    lookup [createBasicRule name subject] line = .ok (some 0) ↔ fnv32 p.measurement = fnv32 name := by
  rw [lookup_eq _ _ _ hp]
  simp only [firstIdx, createBasicRule, Matcher.holds, beq_iff_eq]
  by_cases h : fnv32 name = fnv32 p.measurement
  · simp [h]
  · have h' : ¬ fnv32 p.measurement = fnv32 name := fun e => h e.symm
    simp [h, h']

/-- **C18, completeness.** Lines with exactly the configured measurement always match. -/
theorem C18_basic_rule_complete (name subject line : Bytes) (p : Parsed)
    (hp : parseTags line = .ok (some p)) (h : p.measurement = name) :
    lookup [createBasicRule name subject] line = .ok (some 0) :=
  (C18_basic_rule_exact_partial name subject line p hp).2 (by rw [h])

/-- **C18, soundness away from collisions.** Among any set of measurement names on
which the hash is injective, the rule is exact. -/
theorem C18_basic_rule_sound_without_collision (names : List Bytes)
    (hinj : ∀ a ∈ names, ∀ b ∈ names, fnv32 a = fnv32 b → a = b)
    (name subject line : Bytes) (p : Parsed) (hp : parseTags line = .ok (some p))
    (h1 : name ∈ names) (h2 : p.measurement ∈ names) :
    lookup [createBasicRule name subject] line = .ok (some 0) ↔ p.measurement = name := by
  rw [C18_basic_rule_exact_partial name subject line p hp]
  exact ⟨hinj _ h2 _ h1, fun h => by rw [h]⟩

example : ∀ a ∈ [b!"cpu", b!"mem", b!"disk"], ∀ b ∈ [b!"cpu", b!"mem", b!"disk"],
    fnv32 a = fnv32 b → a = b := by decide
/-- Two strings differing only in the last byte never collide (the hash is a
bijection in the last byte): a family on which the rule is exact. -/
theorem C18_no_collision_last_byte (a : Bytes) (x y : Byte) (h : fnv32 (a ++ [x]) = fnv32 (a ++ [y])) :
    x = y := by
  simp only [fnv32, List.foldl_append, List.foldl_cons, List.foldl_nil] at h
  generalize List.foldl (fun (h : UInt32) (c : UInt8) => (h * 16777619) ^^^ c.toUInt32) 2166136261 a * 16777619 = k at h
  have h2 : x.toUInt32 = y.toUInt32 := by
    have := congrArg (fun z => k ^^^ z) h
    simpa [← UInt32.xor_assoc] using this
  have := congrArg UInt32.toUInt8 h2
  simpa using this

/-! ## C19, for the rule -/

/-- **C19, the rule.** A tags rule matches a line whose tags parse exactly when every
configured pair is among the parsed tags, and otherwise it does not match. -/
theorem C19_rule_exact (ts : List Tag) (subject line : Bytes) (p : Parsed)
    (hp : parseTags line = .ok (some p)) :
    (lookup [createTagRule ts subject] line = .ok (some 0) ↔ ∀ t ∈ ts, t ∈ p.tags) ∧
    (lookup [createTagRule ts subject] line = .ok none ↔ ∃ t ∈ ts, t ∉ p.tags) := by
  have hs := C19_subset_exact ts p.tags
  have e : lookup [createTagRule ts subject] line = .ok (if subsetOf ts p.tags = true then some 0 else none) := by
    rw [lookup_eq _ _ _ hp]; rfl
  rw [e]
  by_cases h : subsetOf ts p.tags = true
  · have h' := hs.1 h
    rw [if_pos h]
    exact ⟨⟨fun _ => h', fun _ => rfl⟩, fun e => by simp at e, fun ⟨t, h1, h2⟩ => absurd (h' t h1) h2⟩
  · have h' : ¬ ∀ t ∈ ts, t ∈ p.tags := fun e => h (hs.2 e)
    rw [if_neg h]
    refine ⟨⟨fun e => by simp at e, fun e => absurd e h'⟩, fun _ => ?_, fun _ => rfl⟩
    apply Classical.byContradiction
    intro hn
    exact h' (fun t ht => Classical.byContradiction fun hm => hn ⟨t, ht, hm⟩)

/-- **C19, from the text.** For a line written from a measurement and tags (in the escaped form
that clients write), a tags rule matches exactly when every configured pair was written. -/
theorem C19_written_line (ts tags : List Tag) (subject m rest : Bytes) (hm : MeasOK m)
    (ht : ∀ t ∈ tags, PartOK t.key ∧ PartOK t.value) :
    lookup [createTagRule ts subject] (header m tags ++ SP :: rest) = .ok (some 0) ↔
      ∀ t ∈ ts, t ∈ tags :=
  (C19_rule_exact ts subject _ _ (parseTags_header m tags _ hm ht (Or.inr ⟨_, rfl⟩))).1

example : lookup [createTagRule [⟨b!"host", b!"db 1"⟩, ⟨b!"dc", b!"nyc"⟩] b!"s"]
    b!"cpu,dc=nyc,x=y,host=db\\ 1 f=1" = .ok (some 0) ∧
    lookup [createTagRule [⟨b!"host", b!"db 1"⟩, ⟨b!"dc", b!"nyc"⟩] b!"s"]
    b!"cpu,dc=ny,x=y,host=db\\ 1 f=1" = .ok none := by decide

/-! ## C23 -/

/-- **C23.** For every regular expression and every line whose tags parse,
exactly one of a `regex` and a `negregex` rule with that expression matches, and
which one is decided by the whole line with escapes removed. -/
theorem C23_regex_complement (re : Bytes → Bool) (s1 s2 line u : Bytes) (p : Parsed)
    (hp : parseTags line = .ok (some p)) (hu : unescape line = .ok u) :
    (lookup [createRegexRule re s1] line = .ok (some 0) ↔ re u = true) ∧
    (lookup [createNegRegexRule re s2] line = .ok (some 0) ↔ re u = false) ∧
    (lookup [createRegexRule re s1] line = .ok none ↔ re u = false) ∧
    (lookup [createNegRegexRule re s2] line = .ok none ↔ re u = true) := by
  rw [unescape_eq] at hu; simp only [Go.ok.injEq] at hu; subst hu
  rw [lookup_eq _ _ _ hp, lookup_eq _ _ _ hp]
  cases h : re (unescL line) <;>
    simp [firstIdx, createRegexRule, createNegRegexRule, Matcher.holds, h]

/-- A rule pair `regex r`/`negregex r` therefore catches every parseable line. -/
theorem C23_pair_total (re : Bytes → Bool) (s1 s2 line : Bytes) (p : Parsed)
    (hp : parseTags line = .ok (some p)) :
    lookup [createRegexRule re s1, createNegRegexRule re s2] line ≠ .ok none := by
  rw [lookup_eq _ _ _ hp]
  cases h : re (unescL line) <;>
    simp [firstIdx, createRegexRule, createNegRegexRule, Matcher.holds, h]

example : lookup [createRegexRule (fun b => b.contains SP && b.contains 120) b!"s"] b!"a\\ x,k=v" =
    .ok (some 0) ∧ lookup [createNegRegexRule (fun b => b.contains BS) b!"s"] b!"a\\ x,k=v" =
    .ok (some 0) := by decide

/-! ## C21 -/

/-- The line the filter emits for a raw line: the text after tag sorting. -/
def emitted (S : Sorter) (line : Bytes) : Go (Option Bytes) := do
  match ← newParsedLine line with
  | none => return none
  | some pl => return some (sortTags S pl).escaped

theorem emitted_eq (S : Sorter) (line : Bytes) (p : Parsed) (hp : parseTags line = .ok (some p)) :
    emitted S line = .ok (some (if KeySorted p.tags then line
      else canonLine p.measurement (S.sort (fun t => t.key) p.tags) p.rest)) := by
  obtain ⟨pl, h1, -⟩ := newParsedLine_some hp
  unfold emitted
  rw [h1]
  simp only [Go.ok_bind, Go.pure_eq]
  rw [sortTags_escaped S line p pl hp h1]

/-- C21 as a user states it: a line is emitted as one line (a trailing newline
stays where it is) with the same meaning. -/
def SortingAsDocumented : Prop :=
  ∀ (S : Sorter) (line out : Bytes) (p : Parsed), parseTags line = .ok (some p) →
    emitted S line = .ok (some out) →
    (line.getLast? = some NL → out.getLast? = some NL) ∧
    ∃ p', parseTags out = .ok (some p') ∧ p'.measurement = p.measurement ∧
      p'.tags.Perm p.tags ∧ KeySorted p'.tags ∧ p'.rest = p.rest

/-- **C21 is false of the code (1)**: a line without fields loses its trailing
newline to the middle of the line. -/
theorem C21_sorting_moves_newline : ¬ SortingAsDocumented := by
  intro h
  have h1 : parseTags b!"foo,b=1,a=2\n" = .ok (some ⟨b!"foo", [⟨b!"b", b!"1"⟩, ⟨b!"a", b!"2\n"⟩], []⟩) := by
    decide
  have h2 : emitted insertionSorter b!"foo,b=1,a=2\n" = .ok (some b!"foo,a=2\n,b=1") := by decide
  exact absurd ((h insertionSorter _ _ _ h1 h2).1 (by decide)) (by decide)

/-- **C21 is false of the code (2)**: a tag value containing backslash-backslash-quote
changes its value when the tags are reordered. -/
theorem C21_sorting_changes_value : ¬ SortingAsDocumented := by
  intro h
  have h1 : parseTags b!"m,b=x\\\\\"y,a=1 f=1" =
      .ok (some ⟨b!"m", [⟨b!"b", b!"x\\\"y"⟩, ⟨b!"a", b!"1"⟩], b!"f=1"⟩) := by decide
  have h2 : emitted insertionSorter b!"m,b=x\\\\\"y,a=1 f=1" = .ok (some b!"m,a=1,b=x\\\"y f=1") := by
    decide
  obtain ⟨-, p', h3, h4, h5, -⟩ := h insertionSorter _ _ _ h1 h2
  have h6 : parseTags b!"m,a=1,b=x\\\"y f=1" =
      .ok (some ⟨b!"m", [⟨b!"a", b!"1"⟩, ⟨b!"b", b!"x\"y"⟩], b!"f=1"⟩) := by decide
  rw [h6] at h3
  simp only [Go.ok.injEq, Option.some.injEq] at h3
  subst h3
  have := h5.mem_iff (a := (⟨b!"b", b!"x\"y"⟩ : Tag))
  exact absurd (this.1 (by decide)) (by decide)

/-- **C21.** A line whose tags are already in key order is emitted byte for byte. -/
theorem C21_sorted_unchanged (S : Sorter) (line : Bytes) (p : Parsed)
    (hp : parseTags line = .ok (some p)) (hs : KeySorted p.tags) :
    emitted S line = .ok (some line) := by
  rw [emitted_eq S line p hp, if_pos hs]

/-- **C21, exact output.** Otherwise the emitted text is the serialisation of
the parsed parts with the tags in key order (ties in the sort routine's order),
followed by a space and the unchanged remainder when there is one. -/
theorem C21_unsorted_output (S : Sorter) (line : Bytes) (p : Parsed)
    (hp : parseTags line = .ok (some p)) (hs : ¬ KeySorted p.tags) :
    ∃ tags, tags.Perm p.tags ∧ KeySorted tags ∧
      emitted S line = .ok (some (escapeMeasurement p.measurement ++ COMMA :: tagBytes tags ++
        (if p.rest = [] then [] else SP :: p.rest))) := by
  refine ⟨S.sort (fun t => t.key) p.tags, S.perm _ _, S.sorted _ _, ?_⟩
  rw [emitted_eq S line p hp, if_neg hs]; rfl

/-- **C21 (partial).** For lines with fields whose parts are expressible in
escaped form, sorting preserves the meaning: same measurement, same tags (as a
multiset), in key order, same remainder.  Missing: lines without fields and
parts that are not expressible, for which it is false
(`C21_sorting_moves_newline`, `C21_sorting_changes_value`). -/
theorem C21_sorting_preserves_meaning_partial (S : Sorter) (line : Bytes) (p : Parsed)
    (hp : parseTags line = .ok (some p)) (hr : p.rest ≠ [])
    (hm : MeasOK p.measurement) (ht : ∀ t ∈ p.tags, PartOK t.key ∧ PartOK t.value) :
    ∃ out p', emitted S line = .ok (some out) ∧ parseTags out = .ok (some p') ∧
      p'.measurement = p.measurement ∧ p'.tags.Perm p.tags ∧ KeySorted p'.tags ∧
      p'.rest = p.rest ∧ ∃ hdr, out = hdr ++ SP :: p.rest := by
  by_cases hs : KeySorted p.tags
  · refine ⟨line, p, C21_sorted_unchanged S line p hp hs, hp, rfl, List.Perm.refl _, hs, rfl, ?_⟩
    rcases parseTags_rest line p hp with h | h
    · exact absurd h hr
    · exact h
  · have hne : S.sort (fun t : Tag => t.key) p.tags ≠ [] := by
      intro h
      have := (S.perm (fun t : Tag => t.key) p.tags).length_eq
      rw [h] at this
      have : p.tags = [] := List.length_eq_zero_iff.1 this.symm
      rw [this] at hs; exact hs List.Pairwise.nil
    have hfold : escapeMeasurement p.measurement ++ COMMA :: tagBytes (S.sort (fun t => t.key) p.tags)
        = header p.measurement (S.sort (fun t => t.key) p.tags) := by
      unfold header; rw [if_neg hne]
    have hc : canonLine p.measurement (S.sort (fun t => t.key) p.tags) p.rest
        = header p.measurement (S.sort (fun t => t.key) p.tags) ++ SP :: p.rest := by
      unfold canonLine; rw [if_neg hr, hfold]
    refine ⟨_, ⟨p.measurement, S.sort (fun t => t.key) p.tags, p.rest⟩, emitted_eq S line p hp, ?_,
      rfl, S.perm _ _, S.sorted _ _, rfl, ?_⟩
    · rw [if_neg hs, hc]
      exact parseTags_header _ _ _ hm
        (fun t h => ht t ((S.perm (fun t : Tag => t.key) p.tags).mem_iff.1 h)) (Or.inr ⟨_, rfl⟩)
    · rw [if_neg hs, hc]; exact ⟨_, rfl⟩

end Spout
