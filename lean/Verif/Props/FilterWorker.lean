import Verif.Props.FilterRouting
import Verif.Lemmas.Lines
import Verif.Lemmas.Timestamps

/-! # The filter's worker: C16, C17, C22 -/

set_option linter.unusedSimpArgs false

namespace Spout

/-! ## Specification -/

/-- What should happen to one line. -/
inductive Outcome where
  /-- its timestamp is outside the window -/
  | badTime
  /-- its tags cannot be parsed -/
  | unparsed
  /-- no rule matches: the text goes to the junk subject -/
  | junk (out : Bytes)
  /-- the text goes to the subject of rule `i` -/
  | routed (i : Nat) (out : Bytes)
  /-- the program crashes -/
  | crash
  deriving DecidableEq, Repr

/-- The outcome of a line: window test, then the tag-sorted text (`emitted`) and
the rule (`routeIdx`). -/
def outcome (S : Sorter) (rules : List Rule) (now minTs maxTs : Int) (line : Bytes) : Outcome :=
  match filterTimestamp line now with
  | .panic => .crash
  | .ok ts =>
    if minTs < ts ∧ ts < maxTs then
      match emitted S line, routeIdx S rules line with
      | .ok none, .ok none => .unparsed
      | .ok (some out), .ok (some none) => .junk out
      | .ok (some out), .ok (some (some i)) => .routed i out
      | _, _ => .crash
    else .badTime

/-- The outcomes of the lines of a message, in order. -/
def outcomes (S : Sorter) (rules : List Rule) (delta now : Int) (batch : Bytes) : List Outcome :=
  (linesOf batch).map (outcome S rules now (wrap64 (now - delta)) (wrap64 (now + delta)))

/-- The text destined for rule `i`, in line order. -/
def textFor (i : Nat) (os : List Outcome) : Bytes :=
  os.flatMap fun | .routed j out => if j = i then out else [] | _ => []

/-- The text destined for the junk subject, in line order. -/
def junkText (os : List Outcome) : Bytes :=
  os.flatMap fun | .junk out => out | _ => []

def Outcome.isRouted : Outcome → Bool | .routed _ _ => true | _ => false
def Outcome.isRoutedTo (i : Nat) : Outcome → Bool | .routed j _ => j == i | _ => false
def Outcome.isJunk : Outcome → Bool | .junk _ => true | _ => false
def Outcome.isBadTime : Outcome → Bool | .badTime => true | _ => false
def Outcome.isUnparsed : Outcome → Bool | .unparsed => true | _ => false

/-! ## Lemmas -/

theorem extractNanos_safe (line : Bytes) : Go.Safe (extractNanos line) := by
  by_cases h : ∃ pre ts v, 6 ≤ line.length ∧
      Spec.stripNL line = pre ++ SP :: ts ∧ ts.length ≤ 19 ∧ Spec.Decimal ts v ∧ InInt64 v ∧
      SP ∉ pre.drop (pre.length + ts.length - 19)
  · obtain ⟨pre, ts, w, h6, hb, hl, hd, hw, hn⟩ := h
    exact ⟨_, extractNanos_some h6 hb hl hd hw hn⟩
  · exact ⟨_, extractNanos_none h⟩

theorem filterTimestamp_safe (line : Bytes) (now : Int) : Go.Safe (filterTimestamp line now) := by
  unfold filterTimestamp
  split
  · simp
  · obtain ⟨⟨a, b⟩, h⟩ := extractNanos_safe line
    rw [h]
    simp only [Go.ok_bind]
    split <;> simp

theorem routeIdx_lt (S : Sorter) (rules : List Rule) (line : Bytes) (i : Nat)
    (h : routeIdx S rules line = .ok (some (some i))) : i < rules.length := by
  obtain ⟨o, ho⟩ := parseTags_safe line
  cases o with
  | none => unfold routeIdx at h; rw [newParsedLine_none ho] at h; simp at h
  | some p =>
    obtain ⟨pl, h1, -⟩ := newParsedLine_some ho
    rw [routeIdx_eq S rules line pl h1] at h
    simp only [Go.ok.injEq, Option.some.injEq] at h
    have := firstIdx_lt _ _ _ _ h
    omega

theorem outcome_routed_lt {S : Sorter} {rules : List Rule} {now a b : Int} {line : Bytes} {i : Nat}
    {out : Bytes} (h : outcome S rules now a b line = .routed i out) : i < rules.length := by
  unfold outcome at h
  split at h
  · cases h
  · split at h
    · split at h <;> try cases h
      rename_i hr' hr
      first | exact routeIdx_lt S rules line i hr | exact routeIdx_lt S rules line i hr'
    · cases h

/-- What the worker does with a line, by outcome. -/
def applyOutcome (w : FWorker) (st : FStats) : Outcome → FWorker × FStats
  | .badTime => (w, { st with invalidTime := st.invalidTime + 1 })
  | .unparsed => (w, st)
  | .junk out => ({ w with junkBatch := w.junkBatch ++ out }, { st with rejected := st.rejected + 1 })
  | .routed i out => ({ w with batches := w.batches.modify i (· ++ out) },
      { st with passed := st.passed + 1, triggered := st.triggered.modify i (· + 1) })
  | .crash => (w, st)

theorem processLines_cons (S : Sorter) (now a b : Int) (w : FWorker) (st : FStats) (line : Bytes)
    (lines : List Bytes) (hne : line ≠ []) (hb : w.batches.length = w.rules.length)
    (ht : st.triggered.length = w.rules.length) :
    outcome S w.rules now a b line ≠ .crash ∧
    FWorker.processLines S now a b w st (line :: lines) =
      FWorker.processLines S now a b
        (applyOutcome w { st with processed := st.processed + 1 } (outcome S w.rules now a b line)).1
        (applyOutcome w { st with processed := st.processed + 1 } (outcome S w.rules now a b line)).2
        lines := by
  obtain ⟨ts, hts⟩ := filterTimestamp_safe line now
  rw [FWorker.processLines]
  rw [if_neg (by rw [List.length_eq_zero_iff]; exact hne), hts]
  simp only [Go.ok_bind]
  unfold outcome
  rw [hts]
  simp only
  by_cases hw : a < ts ∧ ts < b
  · rw [if_pos hw, if_pos hw]
    obtain ⟨o, ho⟩ := parseTags_safe line
    cases o with
    | none =>
      have hn := newParsedLine_none ho
      unfold emitted routeIdx FWorker.processLine
      rw [hn]
      simp [applyOutcome]
    | some p =>
      obtain ⟨pl, h1, -⟩ := newParsedLine_some ho
      have hr := routeIdx_eq S w.rules line pl h1
      have hl := routeIdx_lt S w.rules line
      have hlk := lookupParsed_eq 0 w.rules _ (sortTags_cacheOK S line pl h1)
      unfold emitted FWorker.processLine
      rw [h1]
      simp only [Go.ok_bind, Go.pure_eq]
      rw [hlk, hr]
      rw [hr] at hl
      generalize firstIdx (fun r => r.matcher.holds (sortTags S pl).val.measurement
        (sortTags S pl).val.tags (sortTags S pl).val.escaped) 0 w.rules = o at hl ⊢
      cases o with
      | none => simp [applyOutcome]
      | some i =>
        have := hl i rfl
        simp only [Go.ok_bind, applyOutcome]
        rw [if_pos ⟨by omega, by omega⟩]
        simp
  · rw [if_neg hw, if_neg hw]
    simp [applyOutcome]

/-- The state after a list of outcomes. -/
def afterW (w : FWorker) (os : List Outcome) : FWorker :=
  { w with batches := w.batches.mapIdx (fun i b => b ++ textFor i os),
           junkBatch := w.junkBatch ++ junkText os }

def afterS (st : FStats) (os : List Outcome) : FStats :=
  { st with processed := st.processed + os.length
            passed := st.passed + os.countP Outcome.isRouted
            rejected := st.rejected + os.countP Outcome.isJunk
            invalidTime := st.invalidTime + os.countP Outcome.isBadTime
            triggered := st.triggered.mapIdx (fun i n => n + os.countP (Outcome.isRoutedTo i)) }

theorem mapIdx_id' (l : List α) (f : Nat → α → α) (h : ∀ i a, f i a = a) : l.mapIdx f = l := by
  apply List.ext_getElem?
  intro i
  rw [List.getElem?_mapIdx]
  cases l[i]? <;> simp [h]

theorem afterW_nil (w : FWorker) : afterW w [] = w := by
  unfold afterW
  rw [mapIdx_id' _ _ (by intro i a; simp [textFor])]
  simp [junkText]

theorem afterS_nil (st : FStats) : afterS st [] = st := by
  unfold afterS
  rw [mapIdx_id' _ _ (by intro i a; simp)]
  simp

theorem mapIdx_modify (l : List α) (i : Nat) (g : α → α) (f f' : Nat → α → α)
    (h1 : ∀ a, f i (g a) = f' i a) (h2 : ∀ j, j ≠ i → ∀ a, f j a = f' j a) :
    (l.modify i g).mapIdx f = l.mapIdx f' := by
  apply List.ext_getElem?
  intro j
  rw [List.getElem?_mapIdx, List.getElem?_mapIdx, List.getElem?_modify]
  cases l[j]? with
  | none => simp
  | some a =>
    by_cases hj : i = j
    · subst hj; simp [h1]
    · simp [hj, h2 j (fun e => hj e.symm)]

theorem mapIdx_congr' (l : List α) (f f' : Nat → α → β) (h : ∀ j a, f j a = f' j a) :
    l.mapIdx f = l.mapIdx f' := by
  have : f = f' := by funext j a; exact h j a
  rw [this]

theorem after_cons (w : FWorker) (st : FStats) (o : Outcome) (os : List Outcome) (hc : o ≠ .crash) :
    afterW (applyOutcome w { st with processed := st.processed + 1 } o).1 os = afterW w (o :: os) ∧
    afterS (applyOutcome w { st with processed := st.processed + 1 } o).2 os = afterS st (o :: os) := by
  cases o with
  | crash => exact absurd rfl hc
  | badTime =>
    simp [applyOutcome, afterW, afterS, textFor, junkText, Outcome.isRouted, Outcome.isJunk,
      Outcome.isBadTime, Outcome.isRoutedTo, List.countP_cons]; try omega
  | unparsed =>
    simp [applyOutcome, afterW, afterS, textFor, junkText, Outcome.isRouted, Outcome.isJunk,
      Outcome.isBadTime, Outcome.isRoutedTo, List.countP_cons]; try omega
  | junk out =>
    simp [applyOutcome, afterW, afterS, textFor, junkText, Outcome.isRouted, Outcome.isJunk,
      Outcome.isBadTime, Outcome.isRoutedTo, List.countP_cons]; try omega
  | routed i out =>
    simp only [applyOutcome, afterW, afterS]
    constructor
    · rw [mapIdx_modify w.batches i _ _ (fun j b => b ++ textFor j (.routed i out :: os))]
      · simp [junkText]
      · intro a; simp [textFor]
      · intro j hj a
        have : ¬ i = j := fun e => hj e.symm
        simp [textFor, this]
    · rw [mapIdx_modify st.triggered i _ _ (fun j n => n + List.countP (Outcome.isRoutedTo j) (.routed i out :: os))]
      · simp [Outcome.isRouted, Outcome.isJunk, Outcome.isBadTime, List.countP_cons]; omega
      · intro a; simp [Outcome.isRoutedTo, List.countP_cons]; try omega
      · intro j hj a
        have : ¬ i = j := fun e => hj e.symm
        simp [Outcome.isRoutedTo, this, List.countP_cons]

theorem processLines_eq (S : Sorter) (now a b : Int) (w : FWorker) (st : FStats) (lines : List Bytes)
    (hb : w.batches.length = w.rules.length) (ht : st.triggered.length = w.rules.length) :
    let os := (lines.filter (fun l => l ≠ [])).map (outcome S w.rules now a b)
    Outcome.crash ∉ os ∧
    FWorker.processLines S now a b w st lines = .ok (afterW w os, afterS st os) := by
  induction lines generalizing w st with
  | nil => simp [FWorker.processLines, afterW_nil, afterS_nil]
  | cons line lines ih =>
    by_cases hne : line = []
    · have hf : (line :: lines).filter (fun l => l ≠ []) = lines.filter (fun l => l ≠ []) := by
        rw [List.filter_cons_of_neg (by simp [hne])]
      rw [hf, FWorker.processLines, if_pos (by rw [hne]; rfl)]
      exact ih w st hb ht
    · have hf : (line :: lines).filter (fun l => l ≠ []) = line :: lines.filter (fun l => l ≠ []) := by
        rw [List.filter_cons_of_pos (by simp [hne])]
      rw [hf, List.map_cons]
      obtain ⟨hc, hp⟩ := processLines_cons S now a b w st line lines hne hb ht
      rw [hp]
      have hrules : (applyOutcome w { st with processed := st.processed + 1 }
          (outcome S w.rules now a b line)).1.rules = w.rules := by
        cases outcome S w.rules now a b line <;> rfl
      have hb' : (applyOutcome w { st with processed := st.processed + 1 }
          (outcome S w.rules now a b line)).1.batches.length = w.rules.length := by
        cases outcome S w.rules now a b line <;> simp [applyOutcome, hb]
      have ht' : (applyOutcome w { st with processed := st.processed + 1 }
          (outcome S w.rules now a b line)).2.triggered.length = w.rules.length := by
        cases outcome S w.rules now a b line <;> simp [applyOutcome, ht]
      obtain ⟨i1, i2⟩ := ih _ _ (by rw [hrules]; exact hb') (by rw [hrules]; exact ht')
      rw [hrules] at i1 i2
      refine ⟨?_, ?_⟩
      · intro hmem
        rw [List.mem_cons] at hmem
        rcases hmem with h | h
        · exact hc h.symm
        · exact i1 h
      · rw [i2]
        obtain ⟨e1, e2⟩ := after_cons w st (outcome S w.rules now a b line)
          ((lines.filter (fun l => l ≠ [])).map (outcome S w.rules now a b)) hc
        rw [e1, e2]

theorem replicate_mapIdx (n : Nat) (f : Nat → Bytes) :
    (List.replicate n ([] : Bytes)).mapIdx (fun i b => b ++ f i) = (List.range n).map f := by
  apply List.ext_getElem?
  intro i
  rw [List.getElem?_mapIdx, List.getElem?_map, List.getElem?_replicate]
  by_cases h : i < n
  · simp [h]
  · simp [h, List.getElem?_eq_none (show (List.range n).length ≤ i by simp; omega)]

theorem emitted_ne_nil (S : Sorter) (line out : Bytes) (h : emitted S line = .ok (some out))
    (hne : line ≠ []) : out ≠ [] := by
  obtain ⟨o, ho⟩ := parseTags_safe line
  cases o with
  | none => unfold emitted at h; rw [newParsedLine_none ho] at h; simp at h
  | some p =>
    rw [emitted_eq S line p ho] at h
    simp only [Go.ok.injEq, Option.some.injEq] at h
    subst h
    split
    · exact hne
    · unfold canonLine; simp

/-! ## C16 -/

/-- What a message should cause to be published: per rule at most one message,
in rule order, then the junk. -/
def expectedPubs (rules : List Rule) (junk : Bytes) (os : List Outcome) : List (Bytes × Bytes) :=
  (((rules.map (·.subject)).zip ((List.range rules.length).map (textFor · os))).filter
    fun p => p.2 ≠ []) ++
  (if junkText os = [] then [] else [(junk, junkText os)])

theorem processBatch_eq (S : Sorter) (delta : Int) (rules : List Rule) (junk : Bytes) (st : FStats)
    (now : Int) (fail : Nat → Bool) (batch : Bytes) (ht : st.triggered.length = rules.length) :
    let os := outcomes S rules delta now batch
    Outcome.crash ∉ os ∧
    ∃ pubs, FWorker.processBatch S (FWorker.new delta rules junk) st now fail batch =
      .ok (FWorker.new delta rules junk,
           { afterS st os with failedPublish := st.failedPublish + pubs.countP (·.failed) }, pubs) ∧
      pubs.map (fun p => (p.subject, p.data)) = expectedPubs rules junk os ∧
      pubs.map (·.failed) = (List.range pubs.length).map fail := by
  intro os
  have hp := processLines_eq S now (wrap64 (now - delta)) (wrap64 (now + delta))
    (FWorker.new delta rules junk) st (splitAfterNL batch) (by simp [FWorker.new]) (by simpa [FWorker.new] using ht)
  obtain ⟨h1, h2⟩ := hp
  refine ⟨h1, ?_⟩
  have hos : ((splitAfterNL batch).filter (fun l => l ≠ [])).map
      (outcome S (FWorker.new delta rules junk).rules now (wrap64 (now - delta)) (wrap64 (now + delta))) = os := rfl
  rw [hos] at h2
  unfold FWorker.processBatch
  have hd : (FWorker.new delta rules junk).maxTimeDelta = delta := rfl
  simp only [hd, h2, Go.ok_bind, Go.pure_eq, FWorker.sendOff]
  have hb : (afterW (FWorker.new delta rules junk) os).batches =
      (List.range rules.length).map (textFor · os) := by
    simp only [afterW, FWorker.new, replicate_mapIdx]
  have hj : (afterW (FWorker.new delta rules junk) os).junkBatch = junkText os := by
    simp [afterW, FWorker.new]
  have hitems : (((rules.map (·.subject)).zip ((List.range rules.length).map (textFor · os))).filter
        fun p => decide (p.2.length > 0)) ++
      (if (junkText os).length > 0 then [(junk, junkText os)] else []) = expectedPubs rules junk os := by
    unfold expectedPubs
    congr 1
    · congr 1
      funext p
      simp [List.length_pos_iff]
    · by_cases hj : junkText os = []
      · simp [hj]
      · simp [hj, List.length_pos_iff]
  refine ⟨(expectedPubs rules junk os).zipIdx.map fun x => (⟨x.1.1, x.1.2, fail x.2⟩ : Pub), ?_, ?_, ?_⟩
  · rw [hb, hj]
    have e1 : (afterW (FWorker.new delta rules junk) os).rules = rules := rfl
    have e2 : (afterW (FWorker.new delta rules junk) os).junkSubject = junk := rfl
    have e3 : (afterW (FWorker.new delta rules junk) os).maxTimeDelta = delta := rfl
    rw [e1, e2, e3, hitems]
    simp only [Go.ok.injEq, Prod.mk.injEq, and_true]
    refine ⟨?_, rfl⟩
    unfold FWorker.new
    congr 1
    apply List.ext_getElem <;> simp
  · rw [List.map_map]
    rw [show ((fun p : Pub => (p.subject, p.data)) ∘ fun (x : (Bytes × Bytes) × Nat) =>
      (⟨x.1.1, x.1.2, fail x.2⟩ : Pub)) = Prod.fst from rfl]
    rw [List.zipIdx_map_fst]
  · rw [List.map_map, List.length_map, List.length_zipIdx]
    rw [show ((fun p : Pub => p.failed) ∘ fun (x : (Bytes × Bytes) × Nat) =>
      (⟨x.1.1, x.1.2, fail x.2⟩ : Pub)) = fail ∘ Prod.snd from rfl]
    rw [← List.map_map, List.zipIdx_map_snd, List.range_eq_range']

/-- **C16, one message.** For any message, clock reading and publish failures, the
worker does not crash; what it publishes is exactly: for each rule in order the
concatenated (tag-sorted) text of the lines in the window that parse and first-match
that rule, in message order — one publish, none if there is no such text — then
likewise the junk; and afterwards the worker is as new, so nothing is carried over. -/
theorem C16_one_message (S : Sorter) (delta : Int) (rules : List Rule) (junk : Bytes) (st : FStats)
    (now : Int) (fail : Nat → Bool) (batch : Bytes) (ht : st.triggered.length = rules.length) :
    ∃ st' pubs, FWorker.processBatch S (FWorker.new delta rules junk) st now fail batch =
        .ok (FWorker.new delta rules junk, st', pubs) ∧
      pubs.map (fun p => (p.subject, p.data)) =
        expectedPubs rules junk (outcomes S rules delta now batch) := by
  obtain ⟨-, pubs, h1, h2, -⟩ := processBatch_eq S delta rules junk st now fail batch ht
  exact ⟨_, pubs, h1, h2⟩

/-- **C16.** The text published for rule `i` is empty only if no line was routed to it:
every routed line contributes at least one byte. -/
theorem C16_text_nonempty (S : Sorter) (rules : List Rule) (delta now : Int) (batch : Bytes) (i : Nat) :
    textFor i (outcomes S rules delta now batch) ≠ [] ↔
      ∃ line ∈ linesOf batch, ∃ out, outcome S rules now (wrap64 (now - delta)) (wrap64 (now + delta)) line
        = .routed i out := by
  unfold textFor outcomes
  rw [List.flatMap_map, ne_eq, List.flatMap_eq_nil_iff]
  constructor
  · intro h
    apply Classical.byContradiction
    intro hno
    apply h
    intro line hl
    cases ho : outcome S rules now (wrap64 (now - delta)) (wrap64 (now + delta)) line with
    | routed j out =>
      by_cases hj : j = i
      · subst hj; exact absurd ⟨line, hl, out, ho⟩ hno
      · simp [hj]
    | _ => rfl
  · rintro ⟨line, hl, out, ho⟩ h
    have := h line hl
    rw [ho] at this
    simp only [if_pos] at this
    have hne : line ≠ [] := by
      unfold linesOf at hl
      have := (List.mem_filter.1 hl).2
      simpa using this
    have he : emitted S line = .ok (some out) := by
      unfold outcome at ho
      split at ho
      · cases ho
      · split at ho
        · split at ho <;> first | (cases ho; done) | skip
          rename_i h1 h2
          cases ho
          assumption
        · cases ho
    exact emitted_ne_nil S line out he hne this

/-- **C16.** The lines considered are all of the message: concatenated they give it back. -/
theorem C16_no_line_missed (batch : Bytes) : (linesOf batch).flatten = batch := linesOf_flatten batch

/-- **C16.** Every piece ends with a newline or is the unterminated last piece, and
contains no other newline. -/
theorem C16_lines_are_lines (batch : Bytes) :
    ∀ l ∈ linesOf batch, ∃ body, NL ∉ body ∧ (l = body ++ [NL] ∨ (l = body ∧ ∃ pre, batch = pre ++ l)) :=
  linesOf_shape batch


theorem afterS_triggered_length (st : FStats) (os : List Outcome) :
    (afterS st os).triggered.length = st.triggered.length := by simp [afterS]

theorem filterRun_eq (S : Sorter) (delta : Int) (rules : List Rule) (junk : Bytes) (st : FStats)
    (ms : List FMsg) (ht : st.triggered.length = rules.length) :
    ∃ pubss, filterRun S (FWorker.new delta rules junk) st ms =
      .ok (FWorker.new delta rules junk,
        { afterS st (ms.flatMap fun m => outcomes S rules delta m.now m.data) with
          failedPublish := st.failedPublish + pubss.flatten.countP (·.failed) }, pubss) ∧
      pubss.map (fun pubs => pubs.map (fun p => (p.subject, p.data))) =
        ms.map (fun m => expectedPubs rules junk (outcomes S rules delta m.now m.data)) := by
  induction ms generalizing st with
  | nil =>
    refine ⟨[], ?_, rfl⟩
    simp [filterRun, afterS_nil]
  | cons m ms ih =>
    obtain ⟨-, pubs, h1, h2, -⟩ := processBatch_eq S delta rules junk st m.now m.fail m.data ht
    obtain ⟨pubss, h3, h4⟩ := ih
      { afterS st (outcomes S rules delta m.now m.data) with
        failedPublish := st.failedPublish + pubs.countP (·.failed) }
      (by simpa [afterS] using ht)
    refine ⟨pubs :: pubss, ?_, by simp [h2, h4]⟩
    simp only [filterRun, h1, Go.ok_bind, h3, Go.pure_eq, Go.ok.injEq, Prod.mk.injEq, true_and, and_true]
    simp only [afterS, List.flatMap_cons, List.countP_append, List.length_append, List.flatten_cons,
      List.mapIdx_mapIdx, FStats.mk.injEq]
    refine ⟨by omega, by omega, by omega, by omega, by omega, ?_⟩
    apply mapIdx_congr'
    intro j a
    simp only [Function.comp]
    omega

/-- **C16, histories.** Over any sequence of messages, the publishes are message by
message the expected ones, whether or not publishes fail. -/
theorem C16_history (S : Sorter) (delta : Int) (rules : List Rule) (junk : Bytes) (ms : List FMsg) :
    ∃ st pubss, filterRun S (FWorker.new delta rules junk) (FStats.init rules.length) ms =
        .ok (FWorker.new delta rules junk, st, pubss) ∧
      pubss.map (fun pubs => pubs.map (fun p => (p.subject, p.data))) =
        ms.map (fun m => expectedPubs rules junk (outcomes S rules delta m.now m.data)) := by
  obtain ⟨pubss, h1, h2⟩ := filterRun_eq S delta rules junk (FStats.init rules.length) ms (by simp [FStats.init])
  exact ⟨_, pubss, h1, h2⟩

example :
    FWorker.processBatch insertionSorter
      (FWorker.new 1000 [createBasicRule b!"cpu" b!"c", createTagRule [⟨b!"h", b!"1"⟩] b!"t"] b!"junk")
      (FStats.init 2) 50 (fun k => k == 1) b!"cpu,h=1 v=1\nmem,h=1,a=2 v=1\ndisk v=1\ncpu,x v=1\ncpu v=2" =
    .ok (FWorker.new 1000 [createBasicRule b!"cpu" b!"c", createTagRule [⟨b!"h", b!"1"⟩] b!"t"] b!"junk",
      ⟨5, 3, 1, 0, 1, [2, 1]⟩,
      [⟨b!"c", b!"cpu,h=1 v=1\ncpu v=2", false⟩, ⟨b!"t", b!"mem,a=2,h=1 v=1\n", true⟩,
       ⟨b!"junk", b!"disk v=1\n", false⟩]) := by
  rfl

/-! ## C22 -/

theorem sum_mapIdx_countP (n : Nat) (os : List Outcome)
    (h : ∀ i out, Outcome.routed i out ∈ os → i < n) :
    ((List.range n).map (fun i => os.countP (Outcome.isRoutedTo i))).sum = os.countP Outcome.isRouted := by
  induction os with
  | nil =>
    rw [List.countP_nil, List.sum_eq_zero_iff_forall_eq_nat]
    intro x hx
    obtain ⟨i, -, rfl⟩ := List.mem_map.1 hx
    rfl
  | cons o os ih =>
    have ih := ih (fun i out hm => h i out (by simp [hm]))
    have e : ((List.range n).map (fun i => (o :: os).countP (Outcome.isRoutedTo i))).sum =
        ((List.range n).map (fun i => os.countP (Outcome.isRoutedTo i))).sum +
        ((List.range n).map (fun i => if o.isRoutedTo i then 1 else 0)).sum := by
      generalize List.range n = l
      induction l with
      | nil => rfl
      | cons x xs ih2 =>
        rw [List.map_cons, List.sum_cons, ih2, List.map_cons, List.sum_cons, List.map_cons, List.sum_cons,
          List.countP_cons]
        omega
    rw [e, ih, List.countP_cons]
    congr 1
    cases o with
    | routed j out =>
      have hj := h j out (by simp)
      simp only [Outcome.isRoutedTo, Outcome.isRouted, beq_iff_eq, if_true]
      clear e ih h
      clear ih
      induction n with
      | zero => omega
      | succ n ih =>
        rw [List.range_succ, List.map_append, List.sum_append]
        by_cases hn : j < n
        · rw [ih hn]
          simp only [List.map_cons, List.map_nil, List.sum_cons, List.sum_nil]
          rw [if_neg (by omega)]
          rfl
        · have : j = n := by omega
          subst this
          have hz : ((List.range j).map (fun i => if j = i then 1 else 0)).sum = 0 := by
            rw [List.sum_eq_zero_iff_forall_eq_nat]
            intro x hx
            obtain ⟨i, hi, rfl⟩ := List.mem_map.1 hx
            rw [List.mem_range] at hi
            rw [if_neg (by omega)]
          rw [hz]; simp
    | _ =>
      simp only [Outcome.isRoutedTo, Outcome.isRouted, Bool.false_eq_true, if_false]
      rw [List.sum_eq_zero_iff_forall_eq_nat]
      intro x hx
      obtain ⟨i, hi, rfl⟩ := List.mem_map.1 hx
      rfl

/-- Every outcome is one of the five kinds. -/
theorem count_outcomes (os : List Outcome) (h : Outcome.crash ∉ os) :
    os.length = os.countP Outcome.isRouted + os.countP Outcome.isJunk +
      os.countP Outcome.isBadTime + os.countP Outcome.isUnparsed := by
  induction os with
  | nil => rfl
  | cons o os ih =>
    have := ih (fun hm => h (by simp [hm]))
    cases o <;> simp [List.countP_cons, Outcome.isRouted, Outcome.isJunk, Outcome.isBadTime,
      Outcome.isUnparsed] at this h ⊢ <;> omega

/-- **C22.** Over any history of messages, starting from fresh counters: `processed` is the
number of lines, and equals `passed` + `rejected` + `invalid_time` + the lines whose tags
do not parse (which no counter records); each counter counts exactly its outcome, the
per-rule `triggered` counters count the lines routed to their rule and sum to `passed`, and
`failed_nats_publish` is the number of failed publishes. -/
theorem C22_counters (S : Sorter) (delta : Int) (rules : List Rule) (junk : Bytes) (ms : List FMsg) :
    ∃ st pubss, filterRun S (FWorker.new delta rules junk) (FStats.init rules.length) ms =
        .ok (FWorker.new delta rules junk, st, pubss) ∧
      let os := ms.flatMap fun m => outcomes S rules delta m.now m.data
      st.processed = (ms.map fun m => (linesOf m.data).length).sum ∧
      st.processed = st.passed + st.rejected + st.invalidTime + os.countP Outcome.isUnparsed ∧
      st.passed = os.countP Outcome.isRouted ∧
      st.rejected = os.countP Outcome.isJunk ∧
      st.invalidTime = os.countP Outcome.isBadTime ∧
      st.triggered = (List.range rules.length).map (fun i => os.countP (Outcome.isRoutedTo i)) ∧
      st.passed = st.triggered.sum ∧
      st.failedPublish = pubss.flatten.countP (·.failed) := by
  obtain ⟨pubss, h1, -⟩ := filterRun_eq S delta rules junk (FStats.init rules.length) ms (by simp [FStats.init])
  refine ⟨_, pubss, h1, ?_⟩
  intro os
  have hcr : Outcome.crash ∉ os := by
    intro hm
    obtain ⟨m, -, hm⟩ := List.mem_flatMap.1 hm
    exact (processBatch_eq S delta rules junk (FStats.init rules.length) m.now m.fail m.data
      (by simp [FStats.init])).1 hm
  have hlt : ∀ i out, Outcome.routed i out ∈ os → i < rules.length := by
    intro i out hm
    obtain ⟨m, -, hm⟩ := List.mem_flatMap.1 hm
    obtain ⟨line, -, hl⟩ := List.mem_map.1 hm
    exact outcome_routed_lt hl
  have htr : (List.replicate rules.length 0).mapIdx (fun i n => n + os.countP (Outcome.isRoutedTo i)) =
      (List.range rules.length).map (fun i => os.countP (Outcome.isRoutedTo i)) := by
    apply List.ext_getElem <;> simp
  have hlen : os.length = (ms.map fun m => (linesOf m.data).length).sum := by
    simp only [os, List.length_flatMap, outcomes, List.length_map]
  simp only [afterS, FStats.init, Nat.zero_add]
  refine ⟨hlen, count_outcomes os hcr, rfl, rfl, rfl, htr, ?_, trivial⟩
  show _ = ((List.replicate rules.length 0).mapIdx (fun i n => n + os.countP (Outcome.isRoutedTo i))).sum
  rw [htr, sum_mapIdx_countP _ _ hlt]

/-! ## C17 -/

open Spec

/-- C17 as a user states it: a line with timestamp `v` is dropped as `invalid_time` iff
`v` is `delta` or more away from the clock. -/
def WindowAsDocumented : Prop :=
  ∀ (S : Sorter) (rules : List Rule) (now delta v off : Int) (line : Bytes),
    HasTs line v off → InInt64 (now - delta) → InInt64 (now + delta) →
    (outcome S rules now (wrap64 (now - delta)) (wrap64 (now + delta)) line = .badTime ↔
      (v ≤ now - delta ∨ now + delta ≤ v))

/-- **C17 is false of the code (1)**: lines of at most 24 bytes are never checked. -/
theorem C17_short_line_not_checked : ¬ WindowAsDocumented := by
  intro h
  have h1 : HasTs b!"m f=1 5" 5 6 := ⟨by decide, b!"m f=1", b!"5", by decide, by decide,
    ⟨b!"5", by decide, by decide, Or.inl (by decide)⟩, by decide, by decide⟩
  have := (h insertionSorter [] 1500000000000000000 1000000000 5 6 _ h1 (by decide) (by decide)).2
    (Or.inl (by decide))
  exact absurd this (by decide +kernel)

/-- **C17 is false of the code (2)**: the timestamp −1 is read as "no timestamp". -/
theorem C17_minus_one_accepted : ¬ WindowAsDocumented := by
  intro h
  have h1 : HasTs b!"measurement f=12345678901234567890 -1" (-1) 35 :=
    ⟨by decide, b!"measurement f=12345678901234567890", b!"-1", by decide, by decide,
    ⟨b!"1", by decide, by decide, Or.inr (by decide)⟩, by decide, by decide⟩
  have := (h insertionSorter [] 1500000000000000000 1000000000 (-1) 35 _ h1 (by decide) (by decide)).2
    (Or.inl (by decide))
  exact absurd this (by decide +kernel)

/-- **C17 is false of the code (3)**: in a long line, a short timestamp after a short
field is not found and so not checked. -/
theorem C17_short_timestamp_not_checked : ¬ WindowAsDocumented := by
  intro h
  have h1 : HasTs b!"long_measurement_name f=1 5" 5 26 :=
    ⟨by decide, b!"long_measurement_name f=1", b!"5", by decide, by decide,
    ⟨b!"5", by decide, by decide, Or.inl (by decide)⟩, by decide, by decide⟩
  have := (h insertionSorter [] 1500000000000000000 1000000000 5 26 _ h1 (by decide) (by decide)).2
    (Or.inl (by decide))
  exact absurd this (by decide +kernel)

theorem outcome_badTime_iff (S : Sorter) (rules : List Rule) (now a b ts : Int) (line : Bytes)
    (h : filterTimestamp line now = .ok ts) :
    outcome S rules now a b line = .badTime ↔ ¬ (a < ts ∧ ts < b) := by
  unfold outcome
  rw [h]
  simp only
  split
  · rename_i hw
    constructor
    · intro hx; split at hx <;> cases hx
    · intro hx; exact absurd hw hx
  · rename_i hw; exact ⟨fun _ => hw, fun _ => rfl⟩

/-- **C17, exact behaviour.** The timestamp a line is judged by is the value of its
trailing timestamp `ts` if the line has more than 24 bytes, the value is not −1, and
`ts` is the only thing after a space within the last 20 bytes; in all other cases it is
the current time. -/
theorem C17_judged_timestamp (line : Bytes) (now : Int) :
    (∃ pre ts v, 24 < line.length ∧ stripNL line = pre ++ SP :: ts ∧ ts.length ≤ 19 ∧ Decimal ts v ∧
      InInt64 v ∧ v ≠ -1 ∧ SP ∉ pre.drop (pre.length + 1 + ts.length - 20) ∧
      filterTimestamp line now = .ok v) ∨
    ((¬ ∃ pre ts v, 24 < line.length ∧ stripNL line = pre ++ SP :: ts ∧ ts.length ≤ 19 ∧ Decimal ts v ∧
      InInt64 v ∧ v ≠ -1 ∧ SP ∉ pre.drop (pre.length + 1 + ts.length - 20)) ∧
      filterTimestamp line now = .ok now) := by
  by_cases hex : ∃ pre ts v, 24 < line.length ∧ stripNL line = pre ++ SP :: ts ∧ ts.length ≤ 19 ∧
      Decimal ts v ∧ InInt64 v ∧ v ≠ -1 ∧ SP ∉ pre.drop (pre.length + 1 + ts.length - 20)
  · left
    obtain ⟨pre, ts, v, h1, h2, h3, h4, h5, h6, h7⟩ := hex
    refine ⟨pre, ts, v, h1, h2, h3, h4, h5, h6, h7, ?_⟩
    unfold filterTimestamp minTsLen
    rw [if_neg (by omega)]
    rw [extractNanos_some (by omega) h2 h3 h4 h5 (by
      rw [show pre.length + ts.length - 19 = pre.length + 1 + ts.length - 20 by omega]; exact h7)]
    simp only [Go.ok_bind, if_neg h6, Go.pure_eq]
  · right
    refine ⟨hex, ?_⟩
    unfold filterTimestamp minTsLen
    split
    · rfl
    · rename_i hl
      by_cases hx : ∃ pre ts v, 6 ≤ line.length ∧ stripNL line = pre ++ SP :: ts ∧ ts.length ≤ 19 ∧
          Decimal ts v ∧ InInt64 v ∧ SP ∉ pre.drop (pre.length + ts.length - 19)
      · obtain ⟨pre, ts, v, h1, h2, h3, h4, h5, h6⟩ := hx
        rw [extractNanos_some h1 h2 h3 h4 h5 h6]
        have : v = -1 := by
          apply Classical.byContradiction
          intro hv
          apply hex
          refine ⟨pre, ts, v, by omega, h2, h3, h4, h5, hv, ?_⟩
          rw [show pre.length + 1 + ts.length - 20 = pre.length + ts.length - 19 by omega]; exact h6
        simp [this]
      · rw [extractNanos_none hx]
        simp

/-- **C17 (partial).** Lines longer than 24 bytes that end in a full-length (19 character)
timestamp other than −1: dropped as `invalid_time` iff the timestamp is `delta` or more
away from the clock.  Missing: shorter lines, shorter timestamps and −1, for which it is
false (above); 19 digits covers every time from 2001 to 2262. -/
theorem C17_window_partial (S : Sorter) (rules : List Rule) (now delta v : Int) (line pre ts : Bytes)
    (hlen : 24 < line.length) (hb : stripNL line = pre ++ SP :: ts) (hl : ts.length = 19)
    (hd : Decimal ts v) (hv : InInt64 v) (hm : v ≠ -1)
    (h1 : InInt64 (now - delta)) (h2 : InInt64 (now + delta)) :
    outcome S rules now (wrap64 (now - delta)) (wrap64 (now + delta)) line = .badTime ↔
      (v ≤ now - delta ∨ now + delta ≤ v) := by
  have hts : filterTimestamp line now = .ok v := by
    unfold filterTimestamp minTsLen
    rw [if_neg (by omega), extractNanos_some (by omega) hb (by omega) hd hv (by rw [hl]; simp)]
    simp only [Go.ok_bind, if_neg hm, Go.pure_eq]
  rw [outcome_badTime_iff S rules now _ _ v line hts, wrap64_of_inInt64 h1, wrap64_of_inInt64 h2]
  omega

/-- **C17, lines without timestamp** are never dropped as `invalid_time` (for a positive delta). -/
theorem C17_no_timestamp_accepted (S : Sorter) (rules : List Rule) (now delta : Int) (line : Bytes)
    (h : ∀ v off, ¬ HasTs line v off) (hpos : 0 < delta)
    (h1 : InInt64 (now - delta)) (h2 : InInt64 (now + delta)) :
    outcome S rules now (wrap64 (now - delta)) (wrap64 (now + delta)) line ≠ .badTime := by
  have hts : filterTimestamp line now = .ok now := by
    rcases C17_judged_timestamp line now with ⟨pre, ts, v, a, b, c, d, e, -⟩ | ⟨-, h⟩
    · exact absurd ⟨by omega, pre, ts, b, c, d, e, rfl⟩ (h v _)
    · exact h
  rw [ne_eq, outcome_badTime_iff S rules now _ _ now line hts, wrap64_of_inInt64 h1, wrap64_of_inInt64 h2]
  omega

/-- **C17, nothing recent is lost.** A line within the window is never dropped as `invalid_time`,
whatever its length. -/
theorem C17_in_window_accepted (S : Sorter) (rules : List Rule) (now delta v off : Int) (line : Bytes)
    (h : HasTs line v off) (hw : now - delta < v ∧ v < now + delta)
    (h1 : InInt64 (now - delta)) (h2 : InInt64 (now + delta)) :
    outcome S rules now (wrap64 (now - delta)) (wrap64 (now + delta)) line ≠ .badTime := by
  have hpos : now - delta < now ∧ now < now + delta := by omega
  rcases C17_judged_timestamp line now with ⟨pre, ts, v', a, b, c, d, e, -, -, hts⟩ | ⟨-, hts⟩
  · have hh : HasTs line v' (pre.length + 1) := ⟨by omega, pre, ts, b, c, d, e, rfl⟩
    have e1 := extractTimestamp_some h
    rw [extractTimestamp_some hh] at e1
    simp only [Go.ok.injEq, Prod.mk.injEq] at e1
    rw [ne_eq, outcome_badTime_iff S rules now _ _ v' line hts, wrap64_of_inInt64 h1, wrap64_of_inInt64 h2,
      e1.1]
    omega
  · rw [ne_eq, outcome_badTime_iff S rules now _ _ now line hts, wrap64_of_inInt64 h1, wrap64_of_inInt64 h2]
    omega

example : outcome insertionSorter [] 1500000000000000000 (wrap64 (1500000000000000000 - 1000000000))
    (wrap64 (1500000000000000000 + 1000000000)) b!"cpu,host=a usage=1.5 1500000001000000000\n" = .badTime := by
  decide +kernel
example : outcome insertionSorter [] 1500000000000000000 (wrap64 (1500000000000000000 - 1000000000))
    (wrap64 (1500000000000000000 + 1000000000)) b!"cpu,host=a usage=1.5 1500000000999999999\n" =
    .junk b!"cpu,host=a usage=1.5 1500000000999999999\n" := by
  decide +kernel

/-! ### C17 at the level of what is published -/

/-- Only the entry of rule `i` is not empty. -/
theorem filter_zip_single (rules : List Rule) (i : Nat) (out : Bytes) (hi : i < rules.length) (h : out ≠ []) :
    ((rules.map (·.subject)).zip ((List.range rules.length).map (fun j => if i = j then out else []))).filter
      (fun p => p.2 ≠ []) = [(rules[i].subject, out)] := by
  have key : ∀ (rules : List Rule) (k : Nat) (hi : i - k < rules.length) (hk : k ≤ i),
      ((rules.map (·.subject)).zip ((List.range' k rules.length).map (fun j => if i = j then out else []))).filter
        (fun p => p.2 ≠ []) = [(rules[i - k].subject, out)] := by
    intro rules
    have none : ∀ (rules : List Rule) (k : Nat), i < k →
        ((rules.map (·.subject)).zip ((List.range' k rules.length).map (fun j => if i = j then out else []))).filter
        (fun p => p.2 ≠ []) = [] := by
      intro rules
      induction rules with
      | nil => intro k _; rfl
      | cons r rs ih =>
        intro k hk
        simp only [List.length_cons, List.range'_succ, List.map_cons, List.zip_cons_cons]
        rw [List.filter_cons_of_neg (by simp; omega)]
        exact ih (k + 1) (by omega)
    induction rules with
    | nil => intro k hi; simp at hi
    | cons r rs ih =>
      intro k hi hk
      simp only [List.length_cons, List.range'_succ, List.map_cons, List.zip_cons_cons]
      by_cases he : i = k
      · subst he
        rw [List.filter_cons_of_pos (by simp [h]), none rs (i + 1) (by omega)]
        simp
      · rw [List.filter_cons_of_neg (by simp [he])]
        rw [ih (k + 1) (by simp at hi; omega) (by omega)]
        have : i - k = (i - (k + 1)) + 1 := by omega
        simp only [this, List.getElem_cons_succ]
  have := key rules 0 (by omega) (by omega)
  simpa [List.range_eq_range'] using this

theorem outcomes_middle (S : Sorter) (rules : List Rule) (delta now : Int) (pre line post : Bytes)
    (hpre : pre = [] ∨ pre.getLast? = some NL)
    (hline : ∃ body, NL ∉ body ∧ (line = body ++ [NL] ∨ (line = body ∧ post = [] ∧ body ≠ []))) :
    outcomes S rules delta now (pre ++ line ++ post) =
      outcomes S rules delta now pre ++
      [outcome S rules now (wrap64 (now - delta)) (wrap64 (now + delta)) line] ++
      outcomes S rules delta now post := by
  unfold outcomes
  rw [List.append_assoc, linesOf_append pre _ hpre]
  obtain ⟨body, h1, rfl | ⟨rfl, rfl, h0⟩⟩ := hline
  · rw [List.append_assoc]
    rw [show [NL] ++ post = NL :: post from rfl, linesOf_line body post h1]
    simp
  · rw [List.append_nil, linesOf_rest _ h1 h0]
    simp [linesOf_nil]

theorem expectedPubs_badTime (rules : List Rule) (junk : Bytes) (a b : List Outcome) :
    expectedPubs rules junk (a ++ [.badTime] ++ b) = expectedPubs rules junk (a ++ b) := by
  have ht : ∀ i, textFor i (a ++ [.badTime] ++ b) = textFor i (a ++ b) := by
    intro i; simp [textFor]
  have hj : junkText (a ++ [.badTime] ++ b) = junkText (a ++ b) := by simp [junkText]
  unfold expectedPubs
  rw [hj]
  simp only [ht]

/-- **C17 (partial), effect.** A complete line (or the unterminated last line) of a message that is
longer than 24 bytes and ends in a 19-character timestamp at least `delta` away from the clock
makes no difference to what is published: the same is published for the message without it.
Missing: as in `C17_window_partial`. -/
theorem C17_old_line_not_forwarded_partial (S : Sorter) (delta : Int) (rules : List Rule) (junk : Bytes)
    (st : FStats) (now : Int) (fail : Nat → Bool) (pre line post : Bytes)
    (ht : st.triggered.length = rules.length)
    (hpre : pre = [] ∨ pre.getLast? = some NL)
    (hline : ∃ body, NL ∉ body ∧ (line = body ++ [NL] ∨ (line = body ∧ post = [] ∧ body ≠ [])))
    (v : Int) (p ts : Bytes) (hlen : 24 < line.length) (hb : stripNL line = p ++ SP :: ts) (hl : ts.length = 19)
    (hd : Decimal ts v) (hv : InInt64 v) (hm : v ≠ -1)
    (h1 : InInt64 (now - delta)) (h2 : InInt64 (now + delta))
    (hw : v ≤ now - delta ∨ now + delta ≤ v) :
    ∃ st1 st2 pubs1 pubs2,
      FWorker.processBatch S (FWorker.new delta rules junk) st now fail (pre ++ line ++ post) =
        .ok (FWorker.new delta rules junk, st1, pubs1) ∧
      FWorker.processBatch S (FWorker.new delta rules junk) st now fail (pre ++ post) =
        .ok (FWorker.new delta rules junk, st2, pubs2) ∧
      pubs1.map (fun p => (p.subject, p.data)) = pubs2.map (fun p => (p.subject, p.data)) := by
  obtain ⟨s1, p1, a1, a2⟩ := C16_one_message S delta rules junk st now fail (pre ++ line ++ post) ht
  obtain ⟨s2, p2, b1, b2⟩ := C16_one_message S delta rules junk st now fail (pre ++ post) ht
  refine ⟨s1, s2, p1, p2, a1, b1, ?_⟩
  have hbad := (C17_window_partial S rules now delta v line p ts hlen hb hl hd hv hm h1 h2).2 hw
  rw [a2, b2, outcomes_middle S rules delta now pre line post hpre hline, hbad, expectedPubs_badTime]
  congr 1
  unfold outcomes
  rw [linesOf_append pre post hpre, List.map_append]

/-- **C17, effect.** A message consisting of one line that is in the window or has no timestamp, and
whose tags parse, is published: exactly one message, with the line's (tag-sorted) text. -/
theorem C17_recent_line_forwarded (S : Sorter) (delta : Int) (rules : List Rule) (junk : Bytes)
    (st : FStats) (now : Int) (fail : Nat → Bool) (line out : Bytes)
    (ht : st.triggered.length = rules.length)
    (hline : ∃ body, NL ∉ body ∧ (line = body ++ [NL] ∨ (line = body ∧ body ≠ [])))
    (hout : emitted S line = .ok (some out)) (hpos : 0 < delta)
    (hw : (∃ v off, HasTs line v off ∧ now - delta < v ∧ v < now + delta) ∨ (∀ v off, ¬ HasTs line v off))
    (h1 : InInt64 (now - delta)) (h2 : InInt64 (now + delta)) :
    ∃ st' p, FWorker.processBatch S (FWorker.new delta rules junk) st now fail line =
        .ok (FWorker.new delta rules junk, st', [p]) ∧ p.data = out ∧
      (p.subject = junk ∨ ∃ r ∈ rules, p.subject = r.subject) := by
  obtain ⟨st', pubs, a1, a2⟩ := C16_one_message S delta rules junk st now fail line ht
  have hne : line ≠ [] := by
    obtain ⟨body, -, rfl | ⟨rfl, h⟩⟩ := hline
    · simp
    · exact h
  have hone : outcomes S rules delta now line =
      [outcome S rules now (wrap64 (now - delta)) (wrap64 (now + delta)) line] := by
    have := outcomes_middle S rules delta now [] line [] (Or.inl rfl) (by
      obtain ⟨body, hb, h | ⟨h, h0⟩⟩ := hline
      · exact ⟨body, hb, Or.inl h⟩
      · exact ⟨body, hb, Or.inr ⟨h, rfl, h0⟩⟩)
    simpa [outcomes, linesOf_nil] using this
  have hok : outcome S rules now (wrap64 (now - delta)) (wrap64 (now + delta)) line ≠ .badTime := by
    rcases hw with ⟨v, off, hh, hw⟩ | hh
    · exact C17_in_window_accepted S rules now delta v off line hh hw h1 h2
    · exact C17_no_timestamp_accepted S rules now delta line hh hpos h1 h2
  have hcrash := (processBatch_eq S delta rules junk st now fail line ht).1
  rw [hone] at hcrash a2
  have hout_ne : out ≠ [] := emitted_ne_nil S line out hout hne
  have hcase : (∃ i, i < rules.length ∧
      outcome S rules now (wrap64 (now - delta)) (wrap64 (now + delta)) line = .routed i out) ∨
      outcome S rules now (wrap64 (now - delta)) (wrap64 (now + delta)) line = .junk out := by
    have hlt := @outcome_routed_lt S rules now (wrap64 (now - delta)) (wrap64 (now + delta)) line
    obtain ⟨ts, hts⟩ := filterTimestamp_safe line now
    unfold outcome at hok hcrash hlt ⊢
    rw [hout, hts] at hok hcrash hlt ⊢
    simp only at hok hcrash hlt ⊢
    by_cases hwin : wrap64 (now - delta) < ts ∧ ts < wrap64 (now + delta)
    · simp only [if_pos hwin] at hok hcrash hlt ⊢
      cases hr : routeIdx S rules line with
      | panic => rw [hr] at hcrash; simp at hcrash
      | ok o =>
        rw [hr] at hcrash hlt
        match o with
        | none => simp at hcrash
        | some none => right; rfl
        | some (some i) => left; exact ⟨i, hlt rfl, rfl⟩
    · rw [if_neg hwin] at hok; exact absurd rfl hok
  have hlen : ∀ x : Bytes × Bytes, pubs.map (fun p => (p.subject, p.data)) = [x] →
      ∃ p, pubs = [p] ∧ p.subject = x.1 ∧ p.data = x.2 := by
    intro x hx
    match pubs, hx with
    | [p], hx =>
      simp only [List.map_cons, List.map_nil, List.cons.injEq, and_true] at hx
      exact ⟨p, rfl, by rw [← hx], by rw [← hx]⟩
  rcases hcase with ⟨i, hi, ho⟩ | ho
  · rw [ho] at a2
    have hexp : expectedPubs rules junk [.routed i out] = [(rules[i].subject, out)] := by
      unfold expectedPubs
      have hj : junkText [Outcome.routed i out] = [] := by simp [junkText]
      rw [hj, if_pos rfl, List.append_nil]
      have ht2 : ∀ j, textFor j [Outcome.routed i out] = if i = j then out else [] := by
        intro j; simp [textFor]
      simp only [ht2]
      exact filter_zip_single rules i out hi hout_ne
    rw [hexp] at a2
    obtain ⟨p, rfl, h3, h4⟩ := hlen _ a2
    exact ⟨st', p, a1, h4, Or.inr ⟨rules[i], List.getElem_mem hi, h3⟩⟩
  · rw [ho] at a2
    have hexp : expectedPubs rules junk [.junk out] = [(junk, out)] := by
      unfold expectedPubs
      have hj : junkText [Outcome.junk out] = out := by simp [junkText]
      rw [hj, if_neg hout_ne]
      have ht2 : ∀ j, textFor j [Outcome.junk out] = [] := by intro j; simp [textFor]
      simp only [ht2]
      rw [List.filter_eq_nil_iff.2]
      · rfl
      · intro x hx
        have := List.of_mem_zip hx
        obtain ⟨_, h⟩ := this
        obtain ⟨_, _, h⟩ := List.mem_map.1 h
        simp [← h]
    rw [hexp] at a2
    obtain ⟨p, rfl, h3, h4⟩ := hlen _ a2
    exact ⟨st', p, a1, h4, Or.inl h3⟩

end Spout
