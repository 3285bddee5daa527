import Verif.Props.WriterStream

set_option linter.unusedSimpArgs false

/-! # The writer's counters and its progress (C44, C45) -/

namespace Spout
open Spec

/-! ## C44: the counters -/

/-- A POST to InfluxDB is begun: the first attempt or a retry. -/
def isPost : WEv → Bool
  | .first _ _ _ _ => true
  | .attempt _ _ _ => true
  | _ => false

/-- The POST fails. -/
def isFailure : WEv → Bool
  | .first _ _ r _ => (writeError r).isSome
  | .result _ r _ => (writeError r).isSome
  | _ => false

/-- A message arrives. -/
def isRecv : WEv → Bool
  | .recv _ _ => true
  | _ => false

/-- A batch is sent. -/
def isFlush : WEv → Bool
  | .flush _ _ => true
  | _ => false

/-- A retry is begun. -/
def isRetry : WEv → Bool
  | .attempt _ _ _ => true
  | _ => false

theorem isFailure_iff (e : WEv) : isFailure e = true ↔
    (∃ i d r t, e = .first i d r t ∧ ¬ Spec.Resp.Ok r) ∨ ∃ i r t, e = .result i r t ∧ ¬ Spec.Resp.Ok r := by
  have key : ∀ r : Resp, (writeError r).isSome = true ↔ ¬ Spec.Resp.Ok r := by
    intro r
    rw [← writeError_none]
    cases writeError r <;> simp
  cases e with
  | first i d r t =>
    rw [show isFailure (.first i d r t) = (writeError r).isSome from rfl, key]
    constructor
    · intro h; exact Or.inl ⟨i, d, r, t, rfl, h⟩
    · rintro (⟨i, d, r', t, h, h'⟩ | ⟨i, r', t, h, h'⟩)
      · injection h with _ _ h _; rw [h]; exact h'
      · cases h
  | result i r t =>
    rw [show isFailure (.result i r t) = (writeError r).isSome from rfl, key]
    constructor
    · intro h; exact Or.inr ⟨i, r, t, rfl, h⟩
    · rintro (⟨i, d, r', t, h, h'⟩ | ⟨i, r', t, h, h'⟩)
      · cases h
      · injection h with _ h _; rw [h]; exact h'
  | _ => simp [isFailure]

/-- The counters against the history. -/
structure CountInv (s : WSys) : Prop where
  received : s.stats.received = s.hist.countP isRecv
  writes : s.stats.writeRequests + s.writesCh + s.lostWrites = s.hist.countP isFlush + s.hist.countP isRetry
  errs : s.stats.failedWrites + s.errsCh + s.lostErrs = s.hist.countP isFailure

theorem count_expired (p : WEv → Bool) (hp : ∀ i t, p (.expired i t) = false) (gone : List RItem) (now : Int) :
    (gone.map fun g => WEv.expired g.id now).countP p = 0 := by
  rw [List.countP_eq_zero]
  intro e he
  obtain ⟨g, -, rfl⟩ := List.mem_map.1 he
  rw [hp]; simp

theorem countInv_step {c : WConf} {s s' : WSys} (I : CountInv s) (hst : WStep c s s') : CountInv s' := by
  obtain ⟨i1, i2, i3⟩ := I
  cases hst with
  | tick t ht => exact ⟨i1, i2, i3⟩
  | stop => exact ⟨i1, i2, i3⟩
  | recv w data b hp hb => constructor <;> simp [isRecv, isFlush, isRetry, isFailure] <;> omega
  | gotWrite w n hp hn => constructor <;> simp <;> omega
  | gotError w n hp hn => constructor <;> simp <;> omega
  | wake w hp hw => exact ⟨i1, i2, i3⟩
  | quit w hp hs => exact ⟨i1, i2, i3⟩
  | keep hp h => exact ⟨i1, i2, i3⟩
  | flush chunks hp h hc => constructor <;> simp [isRecv, isFlush, isRetry, isFailure] <;> omega
  | firstOk chunk rest r hp hr => constructor <;> simp [isRecv, isFlush, isRetry, isFailure, hr] <;> omega
  | firstFail chunk rest r e hp hr => constructor <;> simp [isRecv, isFlush, isRetry, isFailure, hr] <;> omega
  | handoff i chunk rest hp hc => exact ⟨i1, i2, i3⟩
  | sent hp => exact ⟨i1, i2, i3⟩
  | arm hp => exact ⟨i1, i2, i3⟩
  | input i buf q gone hp hc hq =>
    cases gone <;> constructor <;> simp [isRecv, isFlush, isRetry, isFailure, List.countP_cons] <;> omega
  | fireEmpty d gone hp hd ht hf =>
    constructor <;> simp only [List.countP_append] <;> rw [count_expired _ (fun _ _ => rfl)] <;>
      (try rw [count_expired _ (fun _ _ => rfl)]) <;> omega
  | fire d gone b q hp hd ht hf =>
    have e1 := count_expired isRecv (fun _ _ => rfl) gone s.now
    have e2 := count_expired isFlush (fun _ _ => rfl) gone s.now
    have e3 := count_expired isRetry (fun _ _ => rfl) gone s.now
    have e4 := count_expired isFailure (fun _ _ => rfl) gone s.now
    unfold WSys.reportWrite
    split
    all_goals
      constructor <;> simp only [List.countP_append, e1, e2, e3, e4, List.countP_cons, List.countP_nil, isRecv, isFlush, isRetry, isFailure,
        Bool.false_eq_true, if_false, if_true] <;> omega
  | finish i r hp =>
    unfold WSys.finishRetry
    cases hr : writeError r with
    | none => constructor <;> simp [isRecv, isFlush, isRetry, isFailure, hr] <;> omega
    | some e =>
      dsimp only
      unfold WSys.reportError
      cases isPermanentError (some e) <;> simp only [Bool.false_eq_true, if_false, if_true] <;> split <;>
        constructor <;> simp [isRecv, isFlush, isRetry, isFailure, hr] <;> omega
  | retryQuit hp hw => exact ⟨i1, i2, i3⟩

theorem WRun.counts {c : WConf} {s : WSys} (h : WRun c s) : CountInv s := by
  obtain ⟨pages, now, h⟩ := h
  induction h with
  | refl => exact ⟨rfl, rfl, rfl⟩
  | step _ hst ih => exact countInv_step ih hst

/-- **C44.** The exact meaning of the counters.  `received` is the number of messages.  `write_requests` is the number of
batches sent and of retries begun, less those retries whose report is still waiting in the channel or was
lost because the channel was full; `failed_writes` is the number of failed POSTs, less such reports. -/
theorem C44_counters_exact (c : WConf) (s : WSys) (h : WRun c s) :
    s.stats.received = s.hist.countP isRecv ∧
    s.stats.writeRequests + s.writesCh + s.lostWrites = s.hist.countP isFlush + s.hist.countP isRetry ∧
    s.stats.failedWrites + s.errsCh + s.lostErrs = s.hist.countP isFailure :=
  ⟨h.counts.received, h.counts.writes, h.counts.errs⟩

/-! ### Lost reports -/

theorem WRun.report_room {c : WConf} {s : WSys} (h : WRun c s) :
    (s.writesCh : Int) ≤ max 0 (4 * c.retryBatches) ∧ (s.errsCh : Int) ≤ max 0 (4 * c.retryBatches) := by
  obtain ⟨pages, now, h⟩ := h
  induction h with
  | refl => exact ⟨by show (0 : Int) ≤ _; omega, by show (0 : Int) ≤ _; omega⟩
  | step _ hst ih =>
    obtain ⟨i1, i2⟩ := ih
    cases hst with
    | gotWrite w n hp hn => exact ⟨by dsimp only; omega, i2⟩
    | gotError w n hp hn => exact ⟨i1, by dsimp only; omega⟩
    | fire d gone b q hp hd ht hf =>
      unfold WSys.reportWrite
      split
      · rename_i hlt; exact ⟨by dsimp only at hlt ⊢; omega, i2⟩
      · exact ⟨i1, i2⟩
    | finish i r hp =>
      unfold WSys.finishRetry
      cases writeError r with
      | none => exact ⟨i1, i2⟩
      | some e =>
        dsimp only
        unfold WSys.reportError
        cases isPermanentError (some e) <;> simp only [Bool.false_eq_true, if_false, if_true] <;> split
        · rename_i hlt; exact ⟨i1, by dsimp only at hlt ⊢; omega⟩
        · exact ⟨i1, i2⟩
        · rename_i hlt; exact ⟨i1, by dsimp only at hlt ⊢; omega⟩
        · exact ⟨i1, i2⟩
    | _ => exact ⟨i1, i2⟩

/-- **C44 (lost reports).** At most `4 * writer_retry_batches` reports wait for the worker in each channel, and a report of a retry
(or of its failure) is lost only when that many are waiting. -/
theorem C44_reports_lost_only_when_full (c : WConf) (s : WSys) (h : WRun c s) :
    (s.writesCh : Int) ≤ max 0 (4 * c.retryBatches) ∧ (s.errsCh : Int) ≤ max 0 (4 * c.retryBatches) ∧
    ∀ s', WStep c s s' →
      (s'.lostWrites ≠ s.lostWrites → (s.writesCh : Int) = max 0 (4 * c.retryBatches)) ∧
      (s'.lostErrs ≠ s.lostErrs → (s.errsCh : Int) = max 0 (4 * c.retryBatches)) := by
  obtain ⟨i1, i2⟩ := h.report_room
  refine ⟨i1, i2, fun s' hst => ?_⟩
  cases hst with
  | fire d gone b q hp hd ht hf =>
    unfold WSys.reportWrite
    split
    · exact ⟨fun h => absurd rfl h, fun h => absurd rfl h⟩
    · rename_i hlt; exact ⟨fun _ => by dsimp only at hlt; omega, fun h => absurd rfl h⟩
  | finish i r hp =>
    unfold WSys.finishRetry
    cases writeError r with
    | none => exact ⟨fun h => absurd rfl h, fun h => absurd rfl h⟩
    | some e =>
      dsimp only
      unfold WSys.reportError
      cases isPermanentError (some e) <;> simp only [Bool.false_eq_true, if_false, if_true] <;> split
      · exact ⟨fun h => absurd rfl h, fun h => absurd rfl h⟩
      · rename_i hlt; exact ⟨fun h => absurd rfl h, fun _ => by omega⟩
      · exact ⟨fun h => absurd rfl h, fun h => absurd rfl h⟩
      · rename_i hlt; exact ⟨fun h => absurd rfl h, fun _ => by omega⟩
  | _ => exact ⟨fun h => absurd rfl h, fun h => absurd rfl h⟩

/-- The documented meaning: `write_requests` is the number of attempts to write to InfluxDB, including retries (when
all reports have been delivered and the worker is waiting). -/
def WriteRequestsAsDocumented : Prop :=
  ∀ c s w, 1 ≤ c.batchMaxSize → WRun c s → s.phase = .select w → s.writesCh = 0 → s.lostWrites = 0 →
    s.stats.writeRequests = s.hist.countP isPost

/-- One batch sent in two POSTs counts as one write request. -/
theorem C44_undercounts_split_batch : ∃ c s w, 1 ≤ c.batchMaxSize ∧ WRun c s ∧ s.phase = .select w ∧ s.writesCh = 0 ∧
    s.lostWrites = 0 ∧ s.stats.writeRequests = 1 ∧ s.hist.countP isPost = 2 := by
  obtain ⟨s, h1, h2⟩ := wRun_hist
    (fun s => (s.phase, s.writesCh, s.lostWrites, s.stats.writeRequests, s.hist.countP isPost))
    (.select second, 0, 0, 1, 2) (c := ⟨2, 12, 10, [], 0, 5, 100⟩) 100000 0
    [.recv b!"cpu v=1 1\n", .check, .recv b!"mem v=2 2\nx", .check, .first (.status 204), .first (.status 204), .sent]
    (by decide +kernel)
  simp only [Prod.mk.injEq] at h2
  exact ⟨_, s, second, by decide, h1, h2⟩

/-- An empty message can count as a write request although nothing is sent. -/
theorem C44_overcounts_empty_batch : ∃ c s w, 1 ≤ c.batchMaxSize ∧ WRun c s ∧ s.phase = .select w ∧ s.writesCh = 0 ∧
    s.lostWrites = 0 ∧ s.stats.writeRequests = 1 ∧ s.hist.countP isPost = 0 := by
  obtain ⟨s, h1, h2⟩ := wRun_hist
    (fun s => (s.phase, s.writesCh, s.lostWrites, s.stats.writeRequests, s.hist.countP isPost))
    (.select second, 0, 0, 1, 0) (c := ⟨1, 12, 10, [], 0, 5, 100⟩) 100000 0
    [.recv [], .check, .sent]
    (by decide +kernel)
  simp only [Prod.mk.injEq] at h2
  exact ⟨_, s, second, by decide, h1, h2⟩

/-- **C44 is false of the code.** -/
theorem C44_not_as_documented : ¬ WriteRequestsAsDocumented := by
  intro h
  obtain ⟨c, s, w, h1, h2, h3, h4, h5, h6, h7⟩ := C44_undercounts_split_batch
  have := h c s w h1 h2 h3 h4 h5
  omega

theorem splitAll_one (buf : Bytes) (n : Nat) (h0 : buf ≠ []) (hn : buf.length ≤ n) : splitAll buf n = .ok [buf] := by
  have hl : 0 < buf.length := List.length_pos_iff.2 h0
  obtain ⟨m, hm⟩ : ∃ m, buf.length = m + 1 := ⟨buf.length - 1, by omega⟩
  unfold splitAll
  rw [hm, Splitter.collect]
  have h1 : (Splitter.new buf n).next = .ok (true, { Splitter.new buf n with out := buf, buf := [] }) := by
    unfold Splitter.next
    rw [if_neg (by simp only [Splitter.new]; omega), if_pos (by simpa only [Splitter.new] using hn)]
    rfl
  rw [h1, Go.ok_bind]
  dsimp only
  rw [if_pos rfl, Splitter.collect]
  have h2 : ({ Splitter.new buf n with out := buf, buf := [] } : Splitter).next = .ok (false, { Splitter.new buf n with out := [], buf := [] }) := rfl
  rw [h2]
  rfl

/-- Every batch sent so far was non-empty and fitted in one chunk. -/
def OneChunk (c : WConf) (h : List WEv) : Prop := ∀ d t, .flush d t ∈ h → d ≠ [] ∧ d.length ≤ c.batchMaxSize

theorem one_chunk_counts {c : WConf} {s0 s : WSys} (h0 : s0.hist.countP isFirst + (unsent s0.phase).length = s0.hist.countP isFlush)
    (h : WReach c s0 s) : OneChunk c s.hist → s.hist.countP isFirst + (unsent s.phase).length = s.hist.countP isFlush := by
  induction h with
  | refl => intro _; exact h0
  | @step b d hab hst ih =>
    intro ho
    cases hst with
    | tick t ht => exact ih ho
    | stop => exact ih ho
    | recv w data b' hp hb =>
      have := ih (fun d t hm => ho d t (by simp [hm]))
      rw [hp] at this
      simpa [isFirst, isFlush, unsent] using this
    | gotWrite w n hp hn => have := ih ho; rw [hp] at this; exact this
    | gotError w n hp hn => have := ih ho; rw [hp] at this; exact this
    | wake w hp hw => have := ih ho; rw [hp] at this; exact this
    | quit w hp hs => have := ih ho; rw [hp] at this; exact this
    | keep hp h => have := ih ho; rw [hp] at this; exact this
    | flush chunks hp h hc =>
      have := ih (fun d t hm => ho d t (by simp [hm]))
      rw [hp] at this
      obtain ⟨a1, a2⟩ := ho b.batch.bytes b.now (by simp)
      rw [splitAll_one _ _ a1 a2] at hc
      injection hc with hc
      subst hc
      simp [isFirst, isFlush, unsent] at this ⊢
      omega
    | firstOk chunk rest r hp hr =>
      have := ih (fun d t hm => ho d t (by simp [hm]))
      rw [hp] at this
      simp [isFirst, isFlush, unsent] at this ⊢
      omega
    | firstFail chunk rest r e hp hr =>
      have := ih (fun d t hm => ho d t (by simp [hm]))
      rw [hp] at this
      have hu : (unsent (if c.retryBatches > 0 then WPhase.handoff b.nextId chunk rest else .sending rest)).length = rest.length := by
        split <;> rfl
      simp only [hu]
      simp [isFirst, isFlush, unsent] at this ⊢
      omega
    | handoff i chunk rest hp hc => have := ih ho; rw [hp] at this; exact this
    | sent hp => have := ih ho; rw [hp] at this; exact this
    | arm hp => exact ih ho
    | input i buf q gone hp hc hq =>
      have := ih (fun d t hm => ho d t (by simp [hm]))
      cases gone <;> simpa [isFirst, isFlush, List.countP_cons] using this
    | fireEmpty d gone hp hd ht hf =>
      have := ih (fun d t hm => ho d t (by simp [hm]))
      simp only [List.countP_append]
      rw [count_expired _ (fun _ _ => rfl), count_expired _ (fun _ _ => rfl)]
      exact this
    | fire d gone b' q hp hd ht hf =>
      obtain ⟨f1, f2, -⟩ := reportWrite_same c
        { b with rphase := .writing b'.id, nextSend := none, queue := b' :: q, hist := b.hist ++ (gone.map fun g => .expired g.id b.now) ++ [.attempt b'.id b'.buf b.now] }
      rw [f2] at ho
      rw [f1, f2]
      have := ih (fun d t hm => ho d t (by simp [hm]))
      simp only [List.countP_append]
      rw [count_expired _ (fun _ _ => rfl), count_expired _ (fun _ _ => rfl)]
      simpa [isFirst, isFlush] using this
    | finish i r hp =>
      obtain ⟨f1, f2, -⟩ := finishRetry_same c { b with rphase := .top, hist := b.hist ++ [.result i r b.now] } r
      rw [f2] at ho
      rw [f1, f2]
      have := ih (fun d t hm => ho d t (by simp [hm]))
      simpa [isFirst, isFlush] using this
    | retryQuit hp hw => exact ih ho

theorem countP_posts (h : List WEv) : h.countP isPost = h.countP isFirst + h.countP isRetry := by
  induction h with
  | nil => rfl
  | cons e h ih =>
    rw [List.countP_cons, List.countP_cons, List.countP_cons, ih]
    cases e <;> simp [isPost, isFirst, isRetry] <;> omega

/-- **C44 (partial).** If every batch sent was non-empty and at most `batch_max_size` long, and the reports of the retries
have been delivered, then `write_requests` is the number of POSTs begun.  Missing: batches exceeding
`batch_max_size` (each is counted once although it is sent in several POSTs), empty batches, and lost
reports: for those the documented meaning fails (`C44_not_as_documented`, `C44_overcounts_empty_batch`), and
`C44_counters_exact` says what is counted. -/
theorem C44_write_requests_partial (c : WConf) (s : WSys) (h : WRun c s)
    (hone : ∀ d t, .flush d t ∈ s.hist → d ≠ [] ∧ d.length ≤ c.batchMaxSize)
    (w : Int) (hp : s.phase = .select w) (h1 : s.writesCh = 0) (h2 : s.lostWrites = 0) :
    s.stats.writeRequests = s.hist.countP isPost := by
  have hc := h.counts.writes
  obtain ⟨pages, now, h⟩ := h
  have := one_chunk_counts (s0 := WSys.start c pages now) (by simp [WSys.start, unsent]) h hone
  rw [hp] at this
  rw [countP_posts]
  simp [unsent] at this
  omega

/-- A retried write whose report has been delivered. -/
example : ∃ s w, WRun exWConf s ∧ (∀ d t, .flush d t ∈ s.hist → d ≠ [] ∧ d.length ≤ exWConf.batchMaxSize) ∧
    s.phase = .select w ∧ s.writesCh = 0 ∧ s.lostWrites = 0 ∧ s.stats.writeRequests = 2 := by
  obtain ⟨s, h1, h2⟩ := wRun_hist
    (fun s => (s.hist, s.phase, s.writesCh, s.lostWrites, s.stats.writeRequests))
    ([.recv b!"a v=1\n" 0, .flush b!"a v=1\n" 0, .first 0 b!"a v=1\n" .transport 0, .queued 0 0, .attempt 0 b!"a v=1\n" 5,
      .result 0 (.status 200) 6], .select (5 + second), 0, 0, 2) (c := exWConf) 100000 0
    (exFail b!"a v=1\n" .transport ++ [.arm, .tick 5, .fire, .gotWrite, .check, .tick 6, .finish (.status 200)])
    (by decide +kernel)
  simp only [Prod.mk.injEq] at h2
  refine ⟨s, _, h1, ?_, h2.2⟩
  rw [h2.1]
  intro d t hm
  simp at hm
  rw [hm.1]
  exact ⟨by decide, by decide⟩

/-! ## C45: progress -/

/-- The retry worker stops only after the worker. -/
theorem retry_alive {c : WConf} {s0 s : WSys} (h0 : s0.rphase ≠ .stopped) (h : WReach c s0 s) :
    s.rphase = .stopped → s.phase = .stopped := by
  induction h with
  | refl => intro h; exact absurd h h0
  | @step b d hab hst ih =>
    intro hs
    cases hst with
    | tick t ht => exact ih hs
    | stop => exact ih hs
    | recv w data b' hp hb => have := ih hs; rw [hp] at this; cases this
    | gotWrite w n hp hn => have := ih hs; rw [hp] at this; cases this
    | gotError w n hp hn => have := ih hs; rw [hp] at this; cases this
    | wake w hp hw => have := ih hs; rw [hp] at this; cases this
    | quit w hp hs' => rfl
    | keep hp h => have := ih hs; rw [hp] at this; cases this
    | flush chunks hp h hc => have := ih hs; rw [hp] at this; cases this
    | firstOk chunk rest r hp hr => have := ih hs; rw [hp] at this; cases this
    | firstFail chunk rest r e hp hr => have := ih hs; rw [hp] at this; cases this
    | handoff i chunk rest hp hc => have := ih hs; rw [hp] at this; cases this
    | sent hp => have := ih hs; rw [hp] at this; cases this
    | arm hp => cases hs
    | input i buf q gone hp hc hq => cases hs
    | fireEmpty d gone hp hd ht hf => cases hs
    | fire d gone b' q hp hd ht hf => rw [(reportWrite_same c _).2.2.2.2.2.1] at hs; cases hs
    | finish i r hp => rw [(finishRetry_same c _ r).2.2.2.2.2.1] at hs; cases hs
    | retryQuit hp hw => exact hw

theorem WRun.retry_alive {c : WConf} {s : WSys} (h : WRun c s) (hr : 0 < c.retryBatches) (hs : s.rphase = .stopped) :
    s.phase = .stopped := by
  obtain ⟨pages, now, h⟩ := h
  exact Spout.retry_alive (by simp [WSys.start, if_pos hr]) h hs

theorem WReach.trans {c : WConf} {a b d : WSys} (h1 : WReach c a b) (h2 : WReach c b d) : WReach c a d := by
  induction h2 with
  | refl => exact h1
  | step _ hst ih => exact ih.step hst

theorem WRun.reach {c : WConf} {a b : WSys} (h1 : WRun c a) (h2 : WReach c a b) : WRun c b := by
  obtain ⟨p, n, h⟩ := h1
  exact ⟨p, n, h.trans h2⟩

/-- The retry worker empties the channel by itself, whatever the outcome of a write in progress. -/
theorem drain {c : WConf} {s : WSys} (hs : s.rphase ≠ .stopped) (i : Nat) (d : Bytes) (hc : s.ch = some (i, d)) (r : Resp) :
    ∃ s', WReach c s s' ∧ s'.phase = s.phase ∧ s'.ch = none ∧ s'.rphase = .top ∧ s'.now = s.now ∧ s'.stop = s.stop ∧
      .queued i s.now ∈ s'.hist ∧ ∀ j, s.rphase = .writing j → .result j r s.now ∈ s'.hist := by
  have fromSelect : ∀ s : WSys, s.rphase = .select → s.ch = some (i, d) →
      ∃ s', WReach c s s' ∧ s'.phase = s.phase ∧ s'.ch = none ∧ s'.rphase = .top ∧ s'.now = s.now ∧ s'.stop = s.stop ∧
      .queued i s.now ∈ s'.hist ∧ ∀ e ∈ s.hist, e ∈ s'.hist := by
    intro s h1 h2
    exact ⟨_, (WReach.refl s).step (.input s i d _ _ h1 h2 rfl), rfl, rfl, rfl, rfl, rfl, by simp, by intro e he; simp [he]⟩
  have fromTop : ∀ s : WSys, s.rphase = .top → s.ch = some (i, d) →
      ∃ s', WReach c s s' ∧ s'.phase = s.phase ∧ s'.ch = none ∧ s'.rphase = .top ∧ s'.now = s.now ∧ s'.stop = s.stop ∧
      .queued i s.now ∈ s'.hist ∧ ∀ e ∈ s.hist, e ∈ s'.hist := by
    intro s h1 h2
    have hst := WStep.arm (c := c) s h1
    obtain ⟨s', g1, g2, g3, g4, g5, g6, g7, g8⟩ := fromSelect _ (show ({ s with rphase := .select, nextSend := if s.nextSend = none ∧ s.queue.length > 0 then some (s.now + c.retryInterval) else s.nextSend } : WSys).rphase = .select from rfl) h2
    exact ⟨s', ((WReach.refl s).step hst).trans g1, g2, g3, g4, g5, g6, g7, g8⟩
  cases hr : s.rphase with
  | top =>
    obtain ⟨s', g1, g2, g3, g4, g5, g6, g7, -⟩ := fromTop s hr hc
    exact ⟨s', g1, g2, g3, g4, g5, g6, g7, fun j hj => by cases hj⟩
  | select =>
    obtain ⟨s', g1, g2, g3, g4, g5, g6, g7, -⟩ := fromSelect s hr hc
    exact ⟨s', g1, g2, g3, g4, g5, g6, g7, fun j hj => by cases hj⟩
  | writing j =>
    have hst := WStep.finish (c := c) s j r hr
    obtain ⟨f1, f2, f3, f4, f5, f6, f7, -⟩ := finishRetry_same c { s with rphase := .top, hist := s.hist ++ [.result j r s.now] } r
    obtain ⟨s', g1, g2, g3, g4, g5, g6, g7, g8⟩ := fromTop _ f6 (by rw [f5]; exact hc)
    refine ⟨s', ((WReach.refl s).step hst).trans g1, by rw [g2, f1], g3, g4, by rw [g5, f4], by rw [g6, f7], ?_, ?_⟩
    · rw [f4] at g7
      exact g7
    · intro j' hj
      injection hj with hj
      subst hj
      exact g8 _ (by rw [f2]; simp)
  | stopped => exact absurd hr hs

/-- **C45.** Nothing the worker can be asked to do panics or blocks for ever.  In every reachable state:
- when waiting it can take any message, and it wakes up when its timer expires;
- after an event it goes on, either to wait or to send;
- when sending, it goes on for any outcome of the write;
- when handing a failed chunk to the retry worker it can go on at once or else the retry worker, which is not
  stopped, makes room for it by its own steps, whatever comes of its own write in progress. -/
theorem C45_no_deadlock (c : WConf) (hc : 1 ≤ c.batchMaxSize) (s : WSys) (h : WRun c s) :
    (∀ w, s.phase = .select w → (∀ data, ∃ s', WStep c s s' ∧ s'.phase = .check ∧ s'.hist = s.hist ++ [.recv data s.now]) ∧
      (w ≤ s.now → ∃ s', WStep c s s' ∧ s'.phase = .check ∧ s'.hist = s.hist)) ∧
    (s.phase = .check → ∃ s', WStep c s s' ∧ ((∃ w, s'.phase = .select w) ∨ ∃ rest, s'.phase = .sending rest)) ∧
    (s.phase = .sending [] → ∃ s' w, WStep c s s' ∧ s'.phase = .select w) ∧
    (∀ d rest r, s.phase = .sending (d :: rest) → ∃ s' i, WStep c s s' ∧ s'.hist = s.hist ++ [.first i d r s.now] ∧
      (s'.phase = .sending rest ∨ s'.phase = .handoff i d rest)) ∧
    (∀ i d rest (r : Resp), s.phase = .handoff i d rest → s.rphase ≠ .stopped ∧
      ∃ s' s'', WReach c s s' ∧ s'.phase = s.phase ∧ s'.now = s.now ∧ WStep c s' s'' ∧ s''.phase = .sending rest ∧ s''.ch = some (i, d) ∧
        (s.ch ≠ none → ∀ j, s.rphase = .writing j → .result j r s.now ∈ s''.hist)) := by
  have I := h.binv
  refine ⟨?_, ?_, ?_, ?_, ?_⟩
  · intro w hp
    refine ⟨?_, ?_⟩
    · intro data
      obtain ⟨b, hb, -⟩ := C36_rules_select_lines c.rules s.batch I.wf data s.now
      exact ⟨_, .recv s w data b hp hb, rfl, rfl⟩
    · intro hw
      exact ⟨_, .wake s w hp hw, rfl, rfl⟩
  · intro hp
    cases hss : wShouldSend c s.batch s.now with
    | false => exact ⟨_, .keep s hp hss, Or.inl ⟨_, rfl⟩⟩
    | true =>
      obtain ⟨cs, g1, -⟩ := splitAll_spec s.batch.bytes c.batchMaxSize hc
      exact ⟨_, .flush s cs hp hss g1, Or.inr ⟨_, rfl⟩⟩
  · intro hp
    exact ⟨_, _, .sent s hp, rfl⟩
  · intro d rest r hp
    cases hr : writeError r with
    | none => exact ⟨_, _, .firstOk s d rest r hp hr, rfl, Or.inl rfl⟩
    | some e =>
      refine ⟨_, _, .firstFail s d rest r e hp hr, rfl, ?_⟩
      dsimp only
      split
      · exact Or.inr rfl
      · exact Or.inl rfl
  · intro i d rest r hp
    have hrb : 0 < c.retryBatches := by
      apply Classical.byContradiction
      intro hn
      have := (h.inv.off hn).2.2
      rw [hp] at this
      simp [transit] at this
    have hns : s.rphase ≠ .stopped := by
      intro hs
      have := h.retry_alive hrb hs
      rw [hp] at this; cases this
    refine ⟨hns, ?_⟩
    cases hch : s.ch with
    | none => exact ⟨s, _, .refl s, rfl, rfl, .handoff s i d rest hp hch, rfl, rfl, fun h => absurd rfl h⟩
    | some x =>
      obtain ⟨s', g1, g2, g3, -, g5, -, -, g8⟩ := drain (c := c) hns x.1 x.2 (by rw [hch]) r
      exact ⟨s', _, g1, g2, g5, .handoff s' i d rest (by rw [g2, hp]) g3, rfl, rfl, fun _ => g8⟩

/-- From sending, whatever is left, the worker gets to wait again (here with every write succeeding). -/
theorem to_select {c : WConf} (rest : List Bytes) (s : WSys) (hp : s.phase = .sending rest) :
    ∃ s' w, WReach c s s' ∧ s'.phase = .select w ∧ s'.rphase = s.rphase ∧ s'.stop = s.stop := by
  induction rest generalizing s with
  | nil => exact ⟨_, _, (WReach.refl s).step (.sent s hp), rfl, rfl, rfl⟩
  | cons d rest ih =>
    obtain ⟨s', w, g1, g2, g3, g4⟩ := ih _ (show ({ s with phase := .sending rest, nextId := s.nextId + 1, hist := s.hist ++ [.first s.nextId d (.status 204) s.now] } : WSys).phase = .sending rest from rfl)
    exact ⟨s', w, ((WReach.refl s).step (.firstOk s d rest (.status 204) hp (by decide))).trans g1, g2, g3, g4⟩

/-- **C45.** From every reachable state `Stop` can always be completed: there is a way to a state in which the worker and
its retry worker have both returned. -/
theorem C45_stop_completes (c : WConf) (hc : 1 ≤ c.batchMaxSize) (s : WSys) (h : WRun c s) :
    ∃ s', WReach c s s' ∧ s'.phase = .stopped ∧ s'.rphase = .stopped := by
  -- the worker gets to `stopped`
  have h1 : ∃ s', WReach c s s' ∧ s'.phase = .stopped := by
    have fromSelect : ∀ (s : WSys) w, s.phase = .select w → ∃ s', WReach c s s' ∧ s'.phase = .stopped := by
      intro s w hp
      exact ⟨_, ((WReach.refl s).step (.stop s)).step (.quit _ w hp rfl), rfl⟩
    have fromSending : ∀ (s : WSys) rest, s.phase = .sending rest → ∃ s', WReach c s s' ∧ s'.phase = .stopped := by
      intro s rest hp
      obtain ⟨s', w, g1, g2, -⟩ := to_select (c := c) rest s hp
      obtain ⟨s'', g3, g4⟩ := fromSelect s' w g2
      exact ⟨s'', g1.trans g3, g4⟩
    obtain ⟨p1, p2, p3, p4, p5⟩ := C45_no_deadlock c hc s h
    cases hp : s.phase with
    | select w => exact fromSelect s w hp
    | check =>
      obtain ⟨s', g1, g2⟩ := p2 hp
      rcases g2 with ⟨w, g2⟩ | ⟨rest, g2⟩
      · obtain ⟨s'', g3, g4⟩ := fromSelect s' w g2
        exact ⟨s'', ((WReach.refl s).step g1).trans g3, g4⟩
      · obtain ⟨s'', g3, g4⟩ := fromSending s' rest g2
        exact ⟨s'', ((WReach.refl s).step g1).trans g3, g4⟩
    | sending rest => exact fromSending s rest hp
    | handoff i d rest =>
      obtain ⟨-, s', s'', g1, -, -, g2, g3, -⟩ := p5 i d rest .transport hp
      obtain ⟨s3, g4, g5⟩ := fromSending s'' rest g3
      exact ⟨s3, (g1.step g2).trans g4, g5⟩
    | stopped => exact ⟨s, .refl s, hp⟩
  obtain ⟨s1, g1, g2⟩ := h1
  have fromSelect : ∀ s : WSys, s.phase = .stopped → s.rphase = .select →
      ∃ s', WReach c s s' ∧ s'.phase = .stopped ∧ s'.rphase = .stopped := by
    intro s hp hr
    exact ⟨_, (WReach.refl s).step (.retryQuit s hr hp), hp, rfl⟩
  have fromTop : ∀ s : WSys, s.phase = .stopped → s.rphase = .top →
      ∃ s', WReach c s s' ∧ s'.phase = .stopped ∧ s'.rphase = .stopped := by
    intro s hp hr
    obtain ⟨s', k1, k2, k3⟩ := fromSelect _ (show ({ s with rphase := .select, nextSend := if s.nextSend = none ∧ s.queue.length > 0 then some (s.now + c.retryInterval) else s.nextSend } : WSys).phase = .stopped from hp) rfl
    exact ⟨s', ((WReach.refl s).step (.arm s hr)).trans k1, k2, k3⟩
  cases hr : s1.rphase with
  | stopped => exact ⟨s1, g1, g2, hr⟩
  | select =>
    obtain ⟨s', k1, k2, k3⟩ := fromSelect s1 g2 hr
    exact ⟨s', g1.trans k1, k2, k3⟩
  | top =>
    obtain ⟨s', k1, k2, k3⟩ := fromTop s1 g2 hr
    exact ⟨s', g1.trans k1, k2, k3⟩
  | writing j =>
    have hst := WStep.finish (c := c) s1 j .transport hr
    obtain ⟨f1, -, -, -, -, f6, -⟩ := finishRetry_same c { s1 with rphase := .top, hist := s1.hist ++ [.result j .transport s1.now] } .transport
    obtain ⟨s', k1, k2, k3⟩ := fromTop _ (by rw [f1]; exact g2) f6
    exact ⟨s', (g1.step hst).trans k1, k2, k3⟩

/-- The worker is blocked: a chunk waits in the channel while the retry worker is busy, and another has failed. -/
example : ∃ s i d rest, WRun exWConf s ∧ 1 ≤ exWConf.batchMaxSize ∧ s.phase = .handoff i d rest ∧ s.ch ≠ none ∧ s.rphase = .writing 0 := by
  obtain ⟨s, h1, h2⟩ := wRun_hist (fun s => (s.phase, s.ch, s.rphase))
    (.handoff 2 b!"c v=1\n" [], some (1, b!"b v=1\n"), .writing 0) (c := exWConf) 100000 0
    (exFail b!"a v=1\n" .transport ++ [.arm, .tick 5, .fire, .recv b!"b v=1\n", .check, .first .transport, .handoff, .sent,
      .recv b!"c v=1\n", .check, .first .transport])
    (by decide +kernel)
  simp only [Prod.mk.injEq] at h2
  exact ⟨s, 2, b!"c v=1\n", [], h1, by decide, h2.1, by rw [h2.2.1]; simp, h2.2.2⟩

end Spout
