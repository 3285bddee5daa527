import Verif.Props.WriterRetry
import Verif.Props.FilterRules
import Verif.Props.Splitter
import Verif.Lemmas.Batch
import Verif.Lemmas.Lines

set_option linter.unusedSimpArgs false

/-! # Batching in the writer (C34-C36, C69, C70) -/

namespace Spout
open Spec

/-! ## Specification -/

/-- A line matches one of the rules (`RuleMatches` says what each kind of rule means). -/
def LineMatches (rules : List Rule) (line : Bytes) : Prop :=
  ∃ p u, parseTags line = .ok (some p) ∧ unescape line = .ok u ∧ ∃ r ∈ rules, RuleMatches r.matcher p u

open Classical in
/-- What a message contributes to the batch: all of it without rules, otherwise its matching lines. -/
noncomputable def pieces (rules : List Rule) (data : Bytes) : List Bytes :=
  match rules with
  | [] => [data]
  | r :: rs => (linesOf data).filter fun l => decide (LineMatches (r :: rs) l)

/-- What is waiting to be sent after a history, with the times of arrival. -/
noncomputable def pending (rules : List Rule) (h : List WEv) : List (Bytes × Int) :=
  h.foldl (fun acc e => match e with
    | .recv d t => acc ++ (pieces rules d).map fun l => (l, t)
    | .flush _ _ => []
    | _ => acc) []

/-- Its bytes. -/
def dataOf (p : List (Bytes × Int)) : Bytes := (p.map (·.1)).flatten

/-- Its age at time `t`. -/
def ageOf (p : List (Bytes × Int)) (t : Int) : Int :=
  match p with
  | [] => 0
  | x :: _ => t - x.2

/-- One of the limits `batch_max_count`, `batch_max_size` and `batch_max_age` is reached. -/
def LimitReached (c : WConf) (p : List (Bytes × Int)) (t : Int) : Prop :=
  c.batchMaxCount ≤ (p.length : Int) ∨ c.batchMaxSize ≤ (dataOf p).length ∨ c.batchMaxAge ≤ ageOf p t

/-- Everything the worker accepted. -/
noncomputable def accepted (rules : List Rule) (h : List WEv) : Bytes :=
  ((received h).flatMap fun d => pieces rules d).flatten

/-! ## C36 -/

theorem lookup_some_iff (rules : List Rule) (line : Bytes) :
    (∃ i, lookup rules line = .ok (some i)) ↔ LineMatches rules line := by
  constructor
  · rintro ⟨i, h⟩
    obtain ⟨p, u, r, h1, h2, h3, h4, -⟩ := (C15_first_match rules line i).1 h
    exact ⟨p, u, h1, h2, r, List.mem_of_getElem? h3, h4⟩
  · rintro ⟨p, u, h1, h2, r, h3, h4⟩
    obtain ⟨o, ho⟩ := C15_lookup_total rules line
    cases o with
    | some i => exact ⟨i, ho⟩
    | none =>
      rcases (C15_no_match rules line).1 ho with h | ⟨p', u', h5, h6, h7⟩
      · rw [h1] at h; cases h
      · rw [h1] at h5; rw [h2] at h6
        simp only [Go.ok.injEq, Option.some.injEq] at h5 h6
        subst h5; subst h6
        exact absurd h4 (h7 r h3)

open Classical in
theorem appendMatching_spec (rules : List Rule) (now : Int) (lines : List Bytes) (b : Batch) (h : b.WF) :
    ∃ k, appendMatching rules now b lines = .ok
      ⟨b.buf ++ ((lines.filter (fun l => l ≠ [])).filter fun l => decide (LineMatches rules l)).flatten, k,
       b.writes + ((lines.filter (fun l => l ≠ [])).filter fun l => decide (LineMatches rules l)).length,
       if b.writes = 0 ∧ ((lines.filter (fun l => l ≠ [])).filter fun l => decide (LineMatches rules l)) ≠ [] then now
       else b.created⟩ ∧
      b.buf.length + ((lines.filter (fun l => l ≠ [])).filter fun l => decide (LineMatches rules l)).flatten.length ≤ k := by
  induction lines generalizing b with
  | nil =>
    refine ⟨b.cap, ?_, by unfold Batch.WF at h; simpa using h⟩
    simp [appendMatching]
  | cons line lines ih =>
    rw [appendMatching]
    by_cases hl : line.length = 0
    · rw [if_pos hl]
      have : line = [] := List.length_eq_zero_iff.1 hl
      subst this
      obtain ⟨k, h1, h2⟩ := ih b h
      exact ⟨k, by simpa using h1, by simpa using h2⟩
    · rw [if_neg hl]
      have hne : line ≠ [] := by intro h0; rw [h0] at hl; simp at hl
      obtain ⟨o, ho⟩ := C15_lookup_total rules line
      rw [ho, Go.ok_bind]
      have hm := lookup_some_iff rules line
      cases o with
      | none =>
        have hnm : ¬ LineMatches rules line := by
          intro hc
          obtain ⟨i, hi⟩ := hm.2 hc
          rw [ho] at hi; simp at hi
        obtain ⟨k, h1, h2⟩ := ih b h
        refine ⟨k, ?_, ?_⟩
        · simpa [List.filter_cons, hne, hnm] using h1
        · simpa [List.filter_cons, hne, hnm] using h2
      | some i =>
        have hmm : LineMatches rules line := hm.1 ⟨i, ho⟩
        obtain ⟨k0, h1, h2, h3⟩ := Batch.append_spec b h line now
        rw [h1, Go.ok_bind]
        obtain ⟨k, h4, h5⟩ := ih ⟨b.buf ++ line, k0, b.writes + 1, if b.writes = 0 then now else b.created⟩
          (by unfold Batch.WF; simpa using h3)
        refine ⟨k, ?_, ?_⟩
        · rw [h4]
          simp [List.filter_cons, hne, hmm, Nat.add_assoc, Nat.add_comm 1]
        · simpa [List.filter_cons, hne, hmm, Nat.add_assoc] using h5

/-- **C36.** A message adds to the batch exactly its pieces, in order: with rules, its lines that match at least one
rule; without rules, the message unchanged.  The count grows by the number of pieces and, if the batch was
empty, the time of its first piece is recorded.  Nothing panics. -/
theorem C36_rules_select_lines (rules : List Rule) (b : Batch) (hb : b.size ≤ b.cap) (data : Bytes) (now : Int) :
    ∃ b', batchAppend rules b data now = .ok b' ∧ b'.size ≤ b'.cap ∧
      b'.bytes = b.bytes ++ (pieces rules data).flatten ∧ b'.writes = b.writes + (pieces rules data).length ∧
      b'.created = (if b.writes = 0 ∧ pieces rules data ≠ [] then now else b.created) := by
  unfold batchAppend
  cases rules with
  | nil =>
    obtain ⟨k, h1, h2, h3⟩ := Batch.append_spec b hb data now
    refine ⟨_, by simpa using h1, ?_, ?_, ?_, ?_⟩
    · simpa [Batch.size] using h3
    · simp [Batch.bytes, pieces]
    · simp [pieces]
    · simp [pieces]
  | cons r rs =>
    obtain ⟨k, h1, h2⟩ := appendMatching_spec (r :: rs) now (splitAfterNL data) b hb
    rw [if_neg (by simp)]
    refine ⟨_, h1, ?_, ?_, ?_, ?_⟩
    · simpa [Batch.size] using h2
    · simp [Batch.bytes, pieces, linesOf]
    · simp [pieces, linesOf]
    · rfl

example : ∃ b', batchAppend [createBasicRule b!"cpu" []] (Batch.new 100 0) b!"cpu,h=a v=1 1\nmem v=2 2\n\ncpu v=3" 7 = .ok b' ∧
    b'.bytes = b!"cpu,h=a v=1 1\ncpu v=3" ∧ b'.writes = 2 ∧ b'.created = 7 := by
  refine ⟨⟨b!"cpu,h=a v=1 1\ncpu v=3", 100, 2, 7⟩, by decide +kernel, rfl, rfl, rfl⟩

/-! ## The invariant -/

theorem next_conserves {s s' : Splitter} {more : Bool} (h : s.next = .ok (more, s')) :
    (more = false → s.buf = []) ∧ (more = true → s'.out ++ s'.buf = s.buf) := by
  unfold Splitter.next at h
  split at h
  · rename_i h0
    simp only [Go.ok.injEq, Prod.mk.injEq] at h
    obtain ⟨rfl, rfl⟩ := h
    exact ⟨(fun _ => List.length_eq_zero_iff.1 h0), (fun h => by cases h)⟩
  · split at h
    · simp only [Go.ok.injEq, Prod.mk.injEq] at h
      obtain ⟨rfl, rfl⟩ := h
      exact ⟨(fun h => by cases h), (fun _ => by simp)⟩
    · cases hs : Splitter.scanBack s.buf s.chunkSize with
      | panic => rw [hs] at h; cases h
      | ok o =>
        rw [hs, Go.ok_bind] at h
        have key : ∀ k, ((do
            let o ← sliceTo s.buf k
            let b ← sliceFrom s.buf k
            return (true, { s with out := o, buf := b })) : Go (Bool × Splitter)) = Go.ok (more, s') →
            (more = false → s.buf = []) ∧ (more = true → s'.out ++ s'.buf = s.buf) := by
          intro k hk
          by_cases hle : k ≤ s.buf.length
          · rw [sliceTo_ok hle, sliceFrom_ok hle] at hk
            simp only [Go.ok_bind, Go.pure_eq, Go.ok.injEq, Prod.mk.injEq] at hk
            obtain ⟨rfl, rfl⟩ := hk
            exact ⟨(fun h => by cases h), (fun _ => by simp)⟩
          · unfold sliceTo at hk
            rw [if_neg hle] at hk
            cases hk
        cases o with
        | some i => exact key (i + 1) h
        | none => exact key s.chunkSize h

theorem collect_conserves (fuel : Nat) (s : Splitter) (cs : List Bytes) (h : Splitter.collect fuel s = .ok (some cs)) :
    cs.flatten = s.buf := by
  induction fuel generalizing s cs with
  | zero => simp [Splitter.collect] at h
  | succ fuel ih =>
    rw [Splitter.collect] at h
    cases hn : s.next with
    | panic => rw [hn] at h; cases h
    | ok r =>
      obtain ⟨more, s'⟩ := r
      rw [hn, Go.ok_bind] at h
      obtain ⟨h1, h2⟩ := next_conserves hn
      cases more with
      | false => simp at h; subst h; simp [h1 rfl]
      | true =>
        simp only [if_true] at h
        cases hc : Splitter.collect fuel s' with
        | panic => rw [hc] at h; cases h
        | ok o =>
          rw [hc, Go.ok_bind] at h
          cases o with
          | none => simp at h
          | some ds =>
            simp at h
            subst h
            rw [List.flatten_cons, ih s' ds hc, ← h2 rfl]
            rfl

theorem splitAll_flatten {buf : Bytes} {n : Nat} {cs : List Bytes} (h : splitAll buf n = .ok cs) : cs.flatten = buf := by
  unfold splitAll at h
  cases hc : Splitter.collect (buf.length + 1) (Splitter.new buf n) with
  | panic => rw [hc] at h; cases h
  | ok o =>
    rw [hc, Go.ok_bind] at h
    cases o with
    | none => cases h
    | some ds => simp at h; subst h; exact collect_conserves _ _ _ hc

/-- The chunks of the flushed batch not yet tried. -/
def unsent : WPhase → List Bytes
  | .sending rest => rest
  | .handoff _ _ rest => rest
  | _ => []

/-- The worker is sending. -/
def isSending : WPhase → Bool
  | .sending _ => true
  | .handoff _ _ _ => true
  | _ => false

/-- The rule for flushes. -/
def FlushRule (c : WConf) (h : List WEv) : WEv → Prop
  | .flush d t => d = dataOf (pending c.rules h) ∧ LimitReached c (pending c.rules h) t
  | _ => True

/-- The rule for the sizes of what is sent. -/
def SizeRule (c : WConf) (_ : List WEv) : WEv → Prop
  | .first _ d _ _ => d ≠ [] ∧ d.length ≤ c.batchMaxSize + 1
  | _ => True

/-- Every message received consists of complete lines of at most `batch_max_size` bytes (without newline). -/
def WholeLines (c : WConf) (h : List WEv) : Prop :=
  ∀ d ∈ received h, (d = [] ∨ d.getLast? = some NL) ∧ ∀ l ∈ linesOf d, l.length ≤ c.batchMaxSize + 1

structure BInv (c : WConf) (s : WSys) : Prop where
  wf : s.batch.WF
  stream : firstData s.hist ++ (unsent s.phase).flatten ++ dataOf (pending c.rules s.hist) = accepted c.rules s.hist
  settled : isSending s.phase = false → s.batch.buf = dataOf (pending c.rules s.hist) ∧
    s.batch.writes = (pending c.rules s.hist).length ∧
    ∀ x xs, pending c.rules s.hist = x :: xs → s.batch.created = x.2
  sending : isSending s.phase = true → pending c.rules s.hist = []
  below : ∀ w, s.phase = .select w → w ≤ s.now + second ∧
    (pending c.rules s.hist = [] ∨ ¬ LimitReached c (pending c.rules s.hist) (w - second))
  flushes : Always (FlushRule c) s.hist
  sizes : 1 ≤ c.batchMaxSize → Always (SizeRule c) s.hist ∧ ∀ d ∈ unsent s.phase, d ≠ [] ∧ d.length ≤ c.batchMaxSize + 1
  lines : 1 ≤ c.batchMaxSize → WholeLines c s.hist →
    (∀ i d r t, .first i d r t ∈ s.hist → d.getLast? = some NL) ∧ ∀ d ∈ unsent s.phase, d.getLast? = some NL

theorem pending_snoc (rules : List Rule) (h : List WEv) (e : WEv) :
    pending rules (h ++ [e]) = match e with
      | .recv d t => pending rules h ++ (pieces rules d).map fun l => (l, t)
      | .flush _ _ => []
      | _ => pending rules h := by
  unfold pending
  rw [List.foldl_append]
  rfl

theorem received_snoc (h : List WEv) (e : WEv) :
    received (h ++ [e]) = received h ++ match e with | .recv d _ => [d] | _ => [] := by
  unfold received
  rw [List.flatMap_append, List.flatMap_cons, List.flatMap_nil, List.append_nil]
  cases e <;> rfl

theorem firstData_snoc (h : List WEv) (e : WEv) :
    firstData (h ++ [e]) = firstData h ++ match e with | .first _ d _ _ => d | _ => [] := by
  unfold firstData
  rw [List.flatMap_append, List.flatMap_cons, List.flatMap_nil, List.append_nil]
  cases e <;> rfl

/-- Events that are neither messages, flushes nor first attempts. -/
def Other : WEv → Prop
  | .recv _ _ => False
  | .flush _ _ => False
  | .first _ _ _ _ => False
  | _ => True

theorem other_snoc (c : WConf) (h : List WEv) (e : WEv) (he : Other e) :
    pending c.rules (h ++ [e]) = pending c.rules h ∧ received (h ++ [e]) = received h ∧
    firstData (h ++ [e]) = firstData h ∧ FlushRule c h e ∧ SizeRule c h e ∧ ∀ i d r t, e ≠ .first i d r t := by
  rw [pending_snoc, received_snoc, firstData_snoc]
  cases e <;> first
    | exact he.elim
    | exact ⟨rfl, by simp, by simp, trivial, trivial, fun i d r t h => by cases h⟩

/-- The invariant only looks at some fields; other events change nothing. -/
theorem BInv.other {c : WConf} {s s' : WSys} (I : BInv c s) (e : WEv) (he : Other e) (h1 : s'.hist = s.hist ++ [e])
    (h2 : s'.phase = s.phase) (h3 : s'.batch = s.batch) (h4 : s'.now = s.now) : BInv c s' := by
  obtain ⟨p1, p2, p3, p4, p5, p6⟩ := other_snoc c s.hist e he
  have hacc : accepted c.rules s'.hist = accepted c.rules s.hist := by unfold accepted; rw [h1, p2]
  refine ⟨by rw [h3]; exact I.wf, ?_, ?_, ?_, ?_, ?_, ?_, ?_⟩
  · rw [hacc, h1, p3, p1, h2]; exact I.stream
  · rw [h1, p1, h2, h3]; exact I.settled
  · rw [h1, p1, h2]; exact I.sending
  · rw [h1, p1, h2, h4]; exact I.below
  · rw [h1]; exact Always.snoc I.flushes p4
  · intro hc
    rw [h1, h2]
    exact ⟨Always.snoc (I.sizes hc).1 p5, (I.sizes hc).2⟩
  · intro hc hw
    have hw' : WholeLines c s.hist := by
      intro d hd
      exact hw d (by rw [h1, p2]; exact hd)
    rw [h1, h2]
    refine ⟨?_, (I.lines hc hw').2⟩
    intro i d r t hm
    rcases List.mem_append.1 hm with hm | hm
    · exact (I.lines hc hw').1 i d r t hm
    · simp at hm; exact absurd hm.symm (p6 i d r t)

theorem BInv.others {c : WConf} {s s' : WSys} (I : BInv c s) (es : List WEv) (he : ∀ e ∈ es, Other e)
    (h1 : s'.hist = s.hist ++ es) (h2 : s'.phase = s.phase) (h3 : s'.batch = s.batch) (h4 : s'.now = s.now) : BInv c s' := by
  induction es generalizing s with
  | nil =>
    rw [List.append_nil] at h1
    exact ⟨by rw [h3]; exact I.wf, by rw [h1, h2]; exact I.stream, by rw [h1, h2, h3]; exact I.settled,
      by rw [h1, h2]; exact I.sending, by rw [h1, h2, h4]; exact I.below, by rw [h1]; exact I.flushes,
      by rw [h1, h2]; exact I.sizes, by rw [h1, h2]; exact I.lines⟩
  | cons e es ih =>
    have I1 : BInv c { s with hist := s.hist ++ [e] } := I.other e (he e (by simp)) rfl rfl rfl rfl
    exact ih I1 (fun x hx => he x (by simp [hx])) (by rw [h1]; simp) h2 h3 h4

/-- The decision to send, in terms of the history. -/
theorem shouldSend_iff {c : WConf} {s : WSys} (I : BInv c s) (hs : isSending s.phase = false) (t : Int) :
    wShouldSend c s.batch t = true ↔ LimitReached c (pending c.rules s.hist) t := by
  obtain ⟨h1, h2, h3⟩ := I.settled hs
  have hage : s.batch.age t = ageOf (pending c.rules s.hist) t := by
    unfold Batch.age ageOf
    rw [h2]
    cases hp : pending c.rules s.hist with
    | nil => simp
    | cons x xs => rw [if_neg (by simp), h3 x xs hp]
  unfold wShouldSend LimitReached
  rw [hage, h2]
  unfold Batch.size
  rw [h1]
  simp [or_assoc]

/-- In a text of complete lines of at most `n` bytes every stretch of `n+1` bytes has a newline. -/
theorem stretch_has_newline (n : Nat) (ls : List Bytes) (hl : ∀ l ∈ ls, l.length ≤ n) :
    ∀ pre mid post, (ls.map (· ++ [NL])).flatten = pre ++ mid ++ post → mid.length = n + 1 → NL ∈ mid := by
  induction ls with
  | nil =>
    intro pre mid post h hm
    simp at h
    rw [h.2.1] at hm; simp at hm
  | cons l ls ih =>
    intro pre mid post h hm
    simp only [List.map_cons, List.flatten_cons] at h
    have hll := hl l (by simp)
    by_cases hp : l.length + 1 ≤ pre.length
    · have hpre : pre = (l ++ [NL]) ++ pre.drop (l.length + 1) := by
        have h1 : pre.take (l.length + 1) = l ++ [NL] := by
          have : ((l ++ [NL]) ++ (ls.map (· ++ [NL])).flatten).take (l.length + 1) = l ++ [NL] := by
            apply List.take_left'; simp
          rw [h, List.append_assoc, List.take_append_of_le_length hp] at this
          exact this
        rw [← h1, List.take_append_drop]
      rw [hpre] at h
      simp only [List.append_assoc] at h
      have h2 := List.append_cancel_left (List.append_cancel_left h)
      exact ih (fun x hx => hl x (by simp [hx])) (pre.drop (l.length + 1)) mid post (by rw [h2]; simp) hm
    · have hlt : l.length < (pre ++ mid).length := by rw [List.length_append]; omega
      have e1 : ((l ++ [NL]) ++ (ls.map (· ++ [NL])).flatten)[l.length]? = some NL := by
        rw [List.append_assoc, List.getElem?_append_right (Nat.le_refl _)]; simp
      rw [h, List.getElem?_append_left hlt, List.getElem?_append_right (by omega)] at e1
      exact List.mem_of_getElem? e1

/-- The chunks of a text of complete short lines are texts of complete lines. -/
theorem chunks_whole_lines (buf : Bytes) (n : Nat) (hn : 1 ≤ n) (hb : buf = [] ∨ buf.getLast? = some NL)
    (hl : ∀ l ∈ linesOf buf, l.length ≤ n + 1) (cs : List Bytes) (hc : splitAll buf n = .ok cs) :
    ∀ d ∈ cs, d.getLast? = some NL := by
  obtain ⟨ls, h1, h2⟩ := complete_lines buf hb
  have hmem : ∀ (ls : List Bytes), (∀ l ∈ ls, NL ∉ l) → linesOf (ls.map (· ++ [NL])).flatten = ls.map (· ++ [NL]) := by
    intro ls hls
    induction ls with
    | nil => rfl
    | cons x ls ih =>
      simp only [List.map_cons, List.flatten_cons]
      rw [show (x ++ [NL]) ++ (ls.map (· ++ [NL])).flatten = x ++ NL :: (ls.map (· ++ [NL])).flatten by simp,
        linesOf_line x _ (hls x (by simp)), ih (fun y hy => hls y (by simp [hy]))]
  have hlen : ∀ l ∈ ls, l.length ≤ n := by
    intro l hlm
    have := hl (l ++ [NL]) (by rw [h2, hmem ls h1]; exact List.mem_map.2 ⟨l, hlm, rfl⟩)
    simp at this; omega
  have hst := stretch_has_newline n ls hlen
  rw [← h2] at hst
  obtain ⟨cs', h3, h4, h5⟩ := C03_short_lines_never_cut buf n hn hst
  have hcs : cs = cs' := by
    unfold splitAll at hc
    rw [h3 (buf.length + 1) (by omega)] at hc
    simp at hc
    exact hc.symm
  subst hcs
  intro d hd
  obtain ⟨pre, post, rfl⟩ := List.append_of_mem hd
  by_cases hpost : post = []
  · subst hpost
    obtain ⟨cs', h6, -, h7, -⟩ := splitAll_spec buf n hn
    rw [h6] at hc
    simp only [Go.ok.injEq] at hc
    have hdne : d ≠ [] := (h7 d (by rw [hc]; simp)).1
    rcases hb with hb | hb
    · rw [hb] at h4
      simp at h4
      exact absurd h4.2 hdne
    · rw [← h4, List.flatten_append, List.flatten_cons, List.flatten_nil, List.append_nil] at hb
      rw [List.getLast?_append] at hb
      cases hg : d.getLast? with
      | none => exact absurd (List.getLast?_eq_none_iff.1 hg) hdne
      | some x => rw [hg] at hb; exact hb
  · exact h5 pre d post rfl hpost

/-- The batched data of complete lines is made of complete lines. -/
theorem pending_whole_lines {c : WConf} {h : List WEv} (hw : WholeLines c h) :
    ∀ x ∈ pending c.rules h, (x.1 = [] ∨ x.1.getLast? = some NL) ∧ ∀ l ∈ linesOf x.1, l.length ≤ c.batchMaxSize + 1 := by
  -- induction from the right
  have key : ∀ (n : Nat) (h : List WEv), h.length ≤ n → WholeLines c h →
      ∀ x ∈ pending c.rules h, (x.1 = [] ∨ x.1.getLast? = some NL) ∧ ∀ l ∈ linesOf x.1, l.length ≤ c.batchMaxSize + 1 := by
    intro n
    induction n with
    | zero =>
      intro h hn _ x hx
      have : h = [] := List.length_eq_zero_iff.1 (by omega)
      subst this
      simp [pending] at hx
    | succ n ih =>
      intro h hn hw x hx
      rcases List.eq_nil_or_concat h with rfl | ⟨h', e, he⟩
      · simp [pending] at hx
      · rw [List.concat_eq_append] at he
        subst he
        have hw' : WholeLines c h' := by
          intro d hd
          exact hw d (by rw [received_snoc]; simp [hd])
        have hlen : h'.length ≤ n := by simp at hn; omega
        rw [pending_snoc] at hx
        cases e with
        | recv d t =>
          rcases List.mem_append.1 hx with hx | hx
          · exact ih h' hlen hw' x hx
          · obtain ⟨l, hl, rfl⟩ := List.mem_map.1 hx
            have hd := hw d (by rw [received_snoc]; simp)
            unfold pieces at hl
            split at hl
            · simp at hl; subst hl; exact hd
            · have hl := (List.mem_filter.1 hl).1
              obtain ⟨body, hb1, hb2⟩ := linesOf_complete d hd.1 l hl
              subst hb2
              refine ⟨Or.inr (by simp), ?_⟩
              intro l' hl'
              rw [linesOf_single body hb1] at hl'
              simp at hl'
              subst hl'
              exact hd.2 _ hl
        | flush _ _ => simp at hx
        | first _ _ _ _ => exact ih h' hlen hw' x hx
        | queued _ _ => exact ih h' hlen hw' x hx
        | evicted _ _ => exact ih h' hlen hw' x hx
        | expired _ _ => exact ih h' hlen hw' x hx
        | attempt _ _ _ => exact ih h' hlen hw' x hx
        | result _ _ _ => exact ih h' hlen hw' x hx
  exact key h.length h (Nat.le_refl _) hw

theorem flatten_whole_lines (ps : List Bytes) (n : Nat)
    (h : ∀ x ∈ ps, (x = [] ∨ x.getLast? = some NL) ∧ ∀ l ∈ linesOf x, l.length ≤ n) :
    (ps.flatten = [] ∨ ps.flatten.getLast? = some NL) ∧ ∀ l ∈ linesOf ps.flatten, l.length ≤ n := by
  refine ⟨?_, ?_⟩
  · induction ps with
    | nil => left; rfl
    | cons x ps ih =>
      rw [List.flatten_cons]
      rcases ih (fun y hy => h y (by simp [hy])) with h1 | h1
      · rw [h1, List.append_nil]; exact (h x (by simp)).1
      · right
        rw [List.getLast?_append, h1]; rfl
  · intro l hl
    rw [linesOf_flatten_complete ps (fun x hx => (h x hx).1)] at hl
    obtain ⟨x, hx, hl⟩ := List.mem_flatMap.1 hl
    exact (h x hx).2 l hl

theorem bInv_start (c : WConf) (pages : Nat) (now : Int) : BInv c (WSys.start c pages now) := by
  refine ⟨by simp [WSys.start, Batch.WF, Batch.new], rfl, ?_, ?_, ?_, Always.nil _, ?_, ?_⟩
  · intro _
    exact ⟨rfl, rfl, by simp [WSys.start, pending]⟩
  · intro _; rfl
  · intro w hw
    refine ⟨?_, Or.inl rfl⟩
    simp [WSys.start] at hw ⊢
    omega
  · intro _; exact ⟨Always.nil _, by simp [WSys.start, unsent]⟩
  · intro _ _; simp [WSys.start, unsent]

/-- A change of phase between waiting and checking, with the batch left alone. -/
theorem BInv.rephase {c : WConf} {s s' : WSys} (I : BInv c s) (h1 : s'.hist = s.hist) (h3 : s'.batch = s.batch)
    (h2 : isSending s.phase = false) (h2' : isSending s'.phase = false) (hu : unsent s'.phase = unsent s.phase)
    (h4 : ∀ w, s'.phase = .select w → w ≤ s'.now + second ∧
      (pending c.rules s.hist = [] ∨ ¬ LimitReached c (pending c.rules s.hist) (w - second))) : BInv c s' := by
  refine ⟨by rw [h3]; exact I.wf, by rw [h1, hu]; exact I.stream, ?_, ?_, by rw [h1]; exact h4, by rw [h1]; exact I.flushes,
    by rw [h1, hu]; exact I.sizes, by rw [h1, hu]; exact I.lines⟩
  · intro _; rw [h1, h3]; exact I.settled h2
  · intro h; rw [h2'] at h; cases h

theorem BInv.firsts {c : WConf} {s s' : WSys} (I : BInv c s) (chunk : Bytes) (rest : List Bytes) (i : Nat) (r : Resp) (t : Int)
    (hp : s.phase = .sending (chunk :: rest)) (h1 : s'.hist = s.hist ++ [.first i chunk r t]) (h3 : s'.batch = s.batch)
    (h2 : isSending s'.phase = true) (hu : unsent s'.phase = rest) (h4 : ∀ w, s'.phase ≠ .select w) : BInv c s' := by
  have hpend : pending c.rules s'.hist = pending c.rules s.hist := by rw [h1, pending_snoc]
  have hrec : received s'.hist = received s.hist := by rw [h1, received_snoc]; simp
  have hun : unsent s.phase = chunk :: rest := by rw [hp]; rfl
  refine ⟨by rw [h3]; exact I.wf, ?_, ?_, ?_, ?_, ?_, ?_, ?_⟩
  · rw [hpend]
    unfold accepted
    rw [hrec, h1, firstData_snoc, hu]
    have := I.stream
    rw [hun] at this
    unfold accepted at this
    rw [← this]
    simp
  · intro h; rw [h2] at h; cases h
  · intro _
    rw [hpend]
    exact I.sending (by rw [hp]; rfl)
  · intro w hw; exact absurd hw (h4 w)
  · rw [h1]; exact Always.snoc I.flushes trivial
  · intro hc
    have := I.sizes hc
    rw [hun] at this
    rw [h1, hu]
    exact ⟨Always.snoc this.1 (this.2 chunk (by simp)), fun d hd => this.2 d (by simp [hd])⟩
  · intro hc hw
    have hw' : WholeLines c s.hist := by unfold WholeLines at hw ⊢; rwa [hrec] at hw
    have := I.lines hc hw'
    rw [hun] at this
    rw [h1, hu]
    refine ⟨?_, fun d hd => this.2 d (by simp [hd])⟩
    intro i' d r' t' hm
    rcases List.mem_append.1 hm with hm | hm
    · exact this.1 i' d r' t' hm
    · simp at hm
      rw [hm.2.1]
      exact this.2 chunk (by simp)

theorem bInv_step {c : WConf} {s s' : WSys} (I : BInv c s) (hst : WStep c s s') : BInv c s' := by
  cases hst with
  | tick t ht =>
    refine ⟨I.wf, I.stream, I.settled, I.sending, ?_, I.flushes, I.sizes, I.lines⟩
    intro w hw
    obtain ⟨h1, h2⟩ := I.below w hw
    exact ⟨by dsimp only; omega, h2⟩
  | stop => exact ⟨I.wf, I.stream, I.settled, I.sending, I.below, I.flushes, I.sizes, I.lines⟩
  | recv w data b hp hb =>
    have hns : isSending s.phase = false := by rw [hp]; rfl
    obtain ⟨h1, h2, h3⟩ := I.settled hns
    obtain ⟨b', e1, e2, e3, e4, e5⟩ := C36_rules_select_lines c.rules s.batch I.wf data s.now
    rw [e1] at hb
    injection hb with hb
    subst hb
    have hp' : pending c.rules (s.hist ++ [.recv data s.now]) =
        pending c.rules s.hist ++ (pieces c.rules data).map fun l => (l, s.now) := by rw [pending_snoc]
    have hd : dataOf (pending c.rules s.hist ++ (pieces c.rules data).map fun l => (l, s.now)) =
        dataOf (pending c.rules s.hist) ++ (pieces c.rules data).flatten := by
      simp [dataOf, List.map_map, Function.comp_def]
    refine ⟨e2, ?_, ?_, ?_, ?_, ?_, ?_, ?_⟩
    · dsimp only
      rw [hp', hd]
      unfold accepted
      rw [received_snoc, firstData_snoc]
      have := I.stream
      rw [hp] at this
      unfold accepted at this
      simp only [List.flatMap_append, List.flatten_append]
      rw [← this]
      simp [unsent]
    · intro _
      dsimp only
      rw [hp']
      refine ⟨?_, ?_, ?_⟩
      · rw [hd, ← h1]; exact e3
      · rw [e4, h2]; simp
      · intro x xs hx
        rw [e5]
        cases hpe : pending c.rules s.hist with
        | cons y ys =>
          rw [hpe] at hx
          rw [if_neg (by rw [h2, hpe]; simp)]
          rw [h3 y ys hpe]
          injection hx with hx _
          rw [hx]
        | nil =>
          rw [hpe] at hx
          cases hpc : pieces c.rules data with
          | nil => rw [hpc] at hx; simp at hx
          | cons z zs =>
            rw [hpc] at hx
            rw [if_pos ⟨by rw [h2, hpe]; rfl, by simp⟩]
            simp at hx
            rw [← hx.1]
    · intro h; cases h
    · intro w' h; cases h
    · exact Always.snoc I.flushes trivial
    · intro hc
      refine ⟨Always.snoc (I.sizes hc).1 trivial, ?_⟩
      intro d hd; cases hd
    · intro hc hw
      have hw' : WholeLines c s.hist := by
        intro d hd
        exact hw d (by dsimp only; rw [received_snoc]; simp [hd])
      refine ⟨?_, by intro d hd; cases hd⟩
      intro i d r t hm
      rcases List.mem_append.1 hm with hm | hm
      · exact (I.lines hc hw').1 i d r t hm
      · simp at hm
  | gotWrite w n hp hn => exact I.rephase rfl rfl (by rw [hp]; rfl) rfl (by rw [hp]; rfl) (fun w h => by cases h)
  | gotError w n hp hn => exact I.rephase rfl rfl (by rw [hp]; rfl) rfl (by rw [hp]; rfl) (fun w h => by cases h)
  | wake w hp hw => exact I.rephase rfl rfl (by rw [hp]; rfl) rfl (by rw [hp]; rfl) (fun w h => by cases h)
  | quit w hp hs => exact I.rephase rfl rfl (by rw [hp]; rfl) rfl (by rw [hp]; rfl) (fun w h => by cases h)
  | keep hp h =>
    refine I.rephase rfl rfl (by rw [hp]; rfl) rfl (by rw [hp]; rfl) ?_
    intro w hw
    injection hw with hw
    subst hw
    refine ⟨Int.le_refl _, Or.inr ?_⟩
    rw [show s.now + second - second = s.now by omega, ← shouldSend_iff I (by rw [hp]; rfl), h]
    simp
  | flush chunks hp h hc =>
    have hns : isSending s.phase = false := by rw [hp]; rfl
    obtain ⟨h1, h2, h3⟩ := I.settled hns
    have hp' : pending c.rules (s.hist ++ [.flush s.batch.bytes s.now]) = [] := by rw [pending_snoc]
    have hrec : received (s.hist ++ [.flush s.batch.bytes s.now]) = received s.hist := by rw [received_snoc]; simp
    have hbytes : s.batch.bytes = dataOf (pending c.rules s.hist) := h1
    refine ⟨I.wf, ?_, ?_, ?_, ?_, ?_, ?_, ?_⟩
    · dsimp only
      rw [hp']
      unfold accepted
      rw [hrec, firstData_snoc]
      have hs := I.stream
      rw [hp] at hs
      unfold accepted at hs
      rw [← hs]
      have hfl : chunks.flatten = s.batch.bytes := by
        exact splitAll_flatten hc
      simp [unsent, hfl, hbytes, dataOf]
    · intro h; cases h
    · intro _; exact hp'
    · intro w h; cases h
    · exact Always.snoc I.flushes ⟨hbytes, (shouldSend_iff I hns s.now).1 h⟩
    · intro hsz
      refine ⟨Always.snoc (I.sizes hsz).1 trivial, ?_⟩
      obtain ⟨cs, g1, -, g3, -⟩ := splitAll_spec s.batch.bytes c.batchMaxSize hsz
      rw [g1] at hc; injection hc with hc; subst hc
      exact g3
    · intro hsz hw
      have hw' : WholeLines c s.hist := by
        intro d hd
        exact hw d (by dsimp only; rw [hrec]; exact hd)
      refine ⟨?_, ?_⟩
      · intro i d r t hm
        rcases List.mem_append.1 hm with hm | hm
        · exact (I.lines hsz hw').1 i d r t hm
        · simp at hm
      · have hpw := pending_whole_lines hw'
        have := flatten_whole_lines ((pending c.rules s.hist).map (·.1)) (c.batchMaxSize + 1) (by
          intro x hx
          obtain ⟨y, hy, rfl⟩ := List.mem_map.1 hx
          exact hpw y hy)
        rw [show ((pending c.rules s.hist).map (·.1)).flatten = s.batch.bytes from hbytes.symm] at this
        exact chunks_whole_lines s.batch.bytes c.batchMaxSize hsz this.1 this.2 chunks hc
  | firstOk chunk rest r hp hr => exact I.firsts chunk rest _ r _ hp rfl rfl rfl rfl (fun w h => by cases h)
  | firstFail chunk rest r e hp hr =>
    refine I.firsts chunk rest _ r _ hp rfl rfl ?_ ?_ ?_
    · dsimp only; split <;> rfl
    · dsimp only; split <;> rfl
    · intro w h
      dsimp only at h
      split at h <;> cases h
  | handoff i chunk rest hp hc =>
    have hu : unsent s.phase = rest := by rw [hp]; rfl
    refine ⟨I.wf, ?_, (fun h => by cases h), (fun _ => I.sending (by rw [hp]; rfl)), (fun w h => by cases h), I.flushes, ?_, ?_⟩
    · have := I.stream; rw [hu] at this; exact this
    · have := I.sizes; rw [hu] at this; exact this
    · have := I.lines; rw [hu] at this; exact this
  | sent hp =>
    have hu : unsent s.phase = [] := by rw [hp]; rfl
    have hpe := I.sending (by rw [hp]; rfl)
    refine ⟨by simp [Batch.WF, Batch.reset], ?_, ?_, (fun h => by cases h), ?_, I.flushes, ?_, ?_⟩
    · have := I.stream; rw [hu] at this; exact this
    · intro _
      dsimp only
      rw [hpe]
      exact ⟨rfl, rfl, by simp⟩
    · intro w h
      injection h with h
      subst h
      exact ⟨Int.le_refl _, Or.inl hpe⟩
    · have := I.sizes; rw [hu] at this; exact this
    · have := I.lines; rw [hu] at this; exact this
  | arm hp => exact ⟨I.wf, I.stream, I.settled, I.sending, I.below, I.flushes, I.sizes, I.lines⟩
  | input i buf q gone hp hc hq =>
    refine I.others ((gone.toList.map fun g => .evicted g.id s.now) ++ [.queued i s.now]) ?_ (by simp) rfl rfl rfl
    intro e he
    rcases List.mem_append.1 he with he | he
    · obtain ⟨g, -, rfl⟩ := List.mem_map.1 he; trivial
    · simp at he; subst he; trivial
  | fireEmpty d gone hp hd ht hf =>
    refine I.others (gone.map fun g => .expired g.id s.now) ?_ rfl rfl rfl rfl
    intro e he
    obtain ⟨g, -, rfl⟩ := List.mem_map.1 he; trivial
  | fire d gone b q hp hd ht hf =>
    refine I.others ((gone.map fun g => .expired g.id s.now) ++ [.attempt b.id b.buf s.now]) ?_ ?_ ?_ ?_ ?_
    · intro e he
      rcases List.mem_append.1 he with he | he
      · obtain ⟨g, -, rfl⟩ := List.mem_map.1 he; trivial
      · simp at he; subst he; trivial
    all_goals
      unfold WSys.reportWrite
      split <;> simp
  | finish i r hp =>
    refine I.other (.result i r s.now) trivial ?_ ?_ ?_ ?_
    all_goals
      unfold WSys.finishRetry WSys.reportError
      cases writeError r with
      | none => rfl
      | some e =>
        dsimp only
        cases isPermanentError (some e) <;> simp only [Bool.false_eq_true, if_false, if_true] <;> split <;> rfl
  | retryQuit hp hw => exact ⟨I.wf, I.stream, I.settled, I.sending, I.below, I.flushes, I.sizes, I.lines⟩

theorem WRun.binv {c : WConf} {s : WSys} (h : WRun c s) : BInv c s := by
  obtain ⟨pages, now, h⟩ := h
  induction h with
  | refl => exact bInv_start c pages now
  | step _ hst ih => exact bInv_step ih hst

end Spout
