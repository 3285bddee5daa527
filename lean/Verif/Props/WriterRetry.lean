import Verif.Lemmas.WriterSys
import Verif.Lemmas.WriterExec

set_option linter.unusedSimpArgs false

/-! # The retry queue (C37-C43)

`WRun c s`: state `s` can be reached by a worker configured with `c`, in any interleaving of the worker, its
retry worker, the passing of time, the messages, the outcomes of the writes and `Stop`.
`s.hist` is the list of everything that happened; the specification `Verif/Spec/Writer.lean` is in terms of
such lists only. -/

namespace Spout
open Spec

/-- A reachable state. -/
def WRun (c : WConf) (s : WSys) : Prop := ∃ pages now, WReach c (WSys.start c pages now) s

theorem WRun.inv {c : WConf} {s : WSys} (h : WRun c s) : SysInv c s := by
  obtain ⟨pages, now, h⟩ := h
  exact sysInv (sysInv_start c pages now) h

theorem WRun.legal {c : WConf} {s : WSys} (h : WRun c s) : Always (RetryRule c) s.hist := h.inv.q.always

theorem wRun_of {c : WConf} {pages : Nat} {now : Int} {as : List WAct} {s : WSys}
    (h : wActs c (WSys.start c pages now) as = some s) : WRun c s := ⟨pages, now, wActs_sound (.refl _) h⟩

theorem wRun_hist {c : WConf} {α : Type} (f : WSys → α) (x : α) (pages : Nat) (now : Int) (as : List WAct)
    (h : (wActs c (WSys.start c pages now) as).map f = some x) : ∃ s, WRun c s ∧ f s = x := by
  cases hs : wActs c (WSys.start c pages now) as with
  | none => rw [hs] at h; cases h
  | some s => rw [hs] at h; injection h with h; exact ⟨s, wRun_of hs, h⟩

/-! ## Concrete runs, used to show that the hypotheses can be met -/

/-- Two batches kept for retry, an interval of 5, a timeout of 100, every message sent at once. -/
def exWConf : WConf := ⟨1, 1000, 10, [], 2, 5, 100⟩

/-- A message arrives, its write fails with `r`, it is handed over and queued. -/
def exFail (data : Bytes) (r : Resp) : List WAct := [.recv data, .check, .first r, .handoff, .sent, .arm, .input]

/-- Three chunks fail, the third evicts the first; the second is retried without success, then the third is
rejected; the second expires. -/
def exSchedule : List WAct :=
  exFail b!"a v=1\n" (.status 503) ++ [.tick 1] ++ exFail b!"b v=1\n" .transport ++ [.tick 2] ++
  exFail b!"c v=1\n" (.status 400) ++
  [.arm, .tick 6, .fire, .finish .transport, .arm, .tick 11, .fire, .finish (.status 404), .arm, .tick 102, .fire]

/-- What happens in that run. -/
def exHist : List WEv :=
  [.recv b!"a v=1\n" 0, .flush b!"a v=1\n" 0, .first 0 b!"a v=1\n" (.status 503) 0, .queued 0 0,
   .recv b!"b v=1\n" 1, .flush b!"b v=1\n" 1, .first 1 b!"b v=1\n" .transport 1, .queued 1 1,
   .recv b!"c v=1\n" 2, .flush b!"c v=1\n" 2, .first 2 b!"c v=1\n" (.status 400) 2, .evicted 0 2, .queued 2 2,
   .attempt 1 b!"b v=1\n" 6, .result 1 .transport 6, .attempt 2 b!"c v=1\n" 11, .result 2 (.status 404) 11, .expired 1 102]

/-! ## C37 -/

/-- **C37.** At no time are more than `writer_retry_batches` batches held for retry. -/
theorem C37_retry_queue_bounded (c : WConf) (s : WSys) (h : WRun c s) :
    ∃ n : Nat, HeldCount s.hist n ∧ (n : Int) ≤ max 0 c.retryBatches := by
  have I := h.inv.q
  exact ⟨s.queue.length, I.heldCount, I.bound⟩

/-- **C37.** What the retry worker keeps in memory: each held chunk once, with its data, and nothing else; with the
channel and the chunk being handed over, a worker keeps at most `writer_retry_batches + 2` copies. -/
theorem C37_retry_memory (c : WConf) (s : WSys) (h : WRun c s) :
    (s.queue.map (·.id)).Nodup ∧ (∀ i, i ∈ s.queue.map (·.id) ↔ Held s.hist i) ∧
    (∀ b ∈ s.queue, ∃ r t, .first b.id b.buf r t ∈ s.hist) ∧ (s.queue.length : Int) ≤ max 0 c.retryBatches := by
  have I := h.inv.q
  exact ⟨I.nodup, fun i => (I.held i).symm, I.data, I.bound⟩

/-- In this run every kind of event happens (and the hypotheses of the theorems below can be met). -/
theorem exHist_run : ∃ s, WRun exWConf s ∧ s.hist = exHist :=
  wRun_hist _ _ 100000 0 exSchedule (by decide +kernel)

/-- After the first eight events of the run two chunks are held. -/
example : HeldCount (exHist.take 8) 2 := by
  refine ⟨[0, 1], by decide, rfl, ?_⟩
  intro i
  simp only [exHist, Held, List.take, List.mem_cons, List.not_mem_nil, or_false]
  constructor
  · rintro (rfl | rfl)
    · refine ⟨⟨0, by simp⟩, by rintro e (rfl | rfl | rfl | rfl | rfl | rfl | rfl | rfl) <;> simp [Leaves]⟩
    · refine ⟨⟨1, by simp⟩, by rintro e (rfl | rfl | rfl | rfl | rfl | rfl | rfl | rfl) <;> simp [Leaves]⟩
  · rintro ⟨⟨t, h⟩, -⟩
    simp at h
    rcases h with h | h
    · exact Or.inl h.1
    · exact Or.inr h.1

/-! ## C38 -/

/-- **C38.** When a chunk is discarded to make room, it is one of those held, the queue is full, and no held chunk
was put in the queue at an earlier time. -/
theorem C38_oldest_discarded (c : WConf) (s : WSys) (h : WRun c s) (h1 h2 : List WEv) (i : Nat) (t : Int)
    (hs : s.hist = h1 ++ .evicted i t :: h2) :
    Held h1 i ∧ (∃ n : Nat, HeldCount h1 n ∧ (n : Int) = c.retryBatches) ∧
    ∀ j ti tj, Held h1 j → .queued i ti ∈ h1 → .queued j tj ∈ h1 → ti ≤ tj :=
  h.legal h1 _ h2 hs

/-- Chunks are discarded only to make room for another. -/
def EvictThenQueue (h : List WEv) : Prop :=
  ∀ h1 i t h2, h = h1 ++ .evicted i t :: h2 → ∃ k h3, h2 = .queued k t :: h3 ∧ k ≠ i

theorem EvictThenQueue.snoc {h : List WEv} (hi : EvictThenQueue h) (e : WEv) (he : ∀ i t, e ≠ .evicted i t) :
    EvictThenQueue (h ++ [e]) := by
  intro h1 i t h2 hs
  rcases split_snoc hs with ⟨-, -, hx⟩ | ⟨h2', rfl, rfl⟩
  · exact absurd hx (he i t)
  · obtain ⟨k, h3, h4, h5⟩ := hi h1 i t h2' rfl
    exact ⟨k, h3 ++ [e], by rw [h4]; rfl, h5⟩

theorem EvictThenQueue.expired {h : List WEv} (hi : EvictThenQueue h) (gone : List RItem) (now : Int) :
    EvictThenQueue (h ++ gone.map fun g => .expired g.id now) := by
  induction gone generalizing h with
  | nil => simpa using hi
  | cons g gone ih =>
    have := ih (hi.snoc (.expired g.id now) (fun i t h => by cases h))
    simpa using this

theorem evictThenQueue_run {c : WConf} {s s' : WSys} (h0 : EvictThenQueue s.hist) (I0 : SysInv c s) (h : WReach c s s') :
    EvictThenQueue s'.hist := by
  induction h with
  | refl => exact h0
  | @step b d hab hst ih =>
    have hb := ih
    have Ib := sysInv I0 hab
    cases hst with
    | tick t ht => exact hb
    | stop => exact hb
    | recv w data b' hp hb' => exact hb.snoc _ (fun i t h => by cases h)
    | gotWrite w n hp hn => exact hb
    | gotError w n hp hn => exact hb
    | wake w hp hw => exact hb
    | quit w hp hs => exact hb
    | keep hp h => exact hb
    | flush chunks hp h hc => exact hb.snoc _ (fun i t h => by cases h)
    | firstOk chunk rest r hp hr => exact hb.snoc _ (fun i t h => by cases h)
    | firstFail chunk rest r e hp hr => exact hb.snoc _ (fun i t h => by cases h)
    | handoff i chunk rest hp hc => exact hb
    | sent hp => exact hb
    | arm hp => exact hb
    | input i buf q gone hp hc hq =>
      cases gone with
      | none => exact (by simpa using hb : EvictThenQueue (b.hist ++ [])).snoc _ (fun i t h => by cases h)
      | some g =>
        have hgi : i ≠ g.id := by
          rintro rfl
          have hT := Ib.t
          rw [hc] at hT
          have hfr := hT.fresh (g.id, buf) (by simp [transit])
          have hgq : g.id ∈ b.queue.map (·.id) := by
            unfold queueAdd at hq
            by_cases hfull : (b.queue.length : Int) ≥ c.retryBatches
            · rw [if_pos hfull] at hq
              by_cases hne : b.queue = []
              · rw [hne] at hq; simp [removeOldest, oldestIdx] at hq
              · obtain ⟨a, g', b', e1, e2, -⟩ := removeOldest_spec b.queue hne
                rw [e2] at hq
                simp only [Prod.mk.injEq, Option.some.injEq] at hq
                rw [e1, ← hq.2]; simp
            · rw [if_neg hfull] at hq
              simp at hq
          obtain ⟨⟨t, ht⟩, -⟩ := (Ib.q.held g.id).2 hgq
          exact hfr _ ht (Or.inl ⟨t, rfl⟩)
        intro h1 k t h2 hs
        have hs' : (b.hist ++ [.evicted g.id b.now]) ++ [.queued i b.now] = h1 ++ .evicted k t :: h2 := by simpa using hs
        rcases split_snoc hs' with ⟨-, -, hx⟩ | ⟨h2', rfl, hs2⟩
        · cases hx
        · rcases split_snoc hs2 with ⟨rfl, hb1, hx⟩ | ⟨h2'', rfl, hb2⟩
          · injection hx with hx1 hx2
            subst hx1; subst hx2
            exact ⟨i, [], rfl, hgi⟩
          · obtain ⟨k', h3, h4, h5⟩ := hb _ _ _ _ hb2
            exact ⟨k', h3 ++ [.evicted g.id b.now] ++ [.queued i b.now], by rw [h4]; simp, h5⟩
    | fireEmpty d gone hp hd ht hf => exact hb.expired gone b.now
    | fire d gone b' q hp hd ht hf =>
      have := (hb.expired gone b.now).snoc (.attempt b'.id b'.buf b.now) (fun i t h => by cases h)
      unfold WSys.reportWrite
      split <;> exact this
    | finish i r hp =>
      have := hb.snoc (.result i r b.now) (fun i t h => by cases h)
      unfold WSys.finishRetry
      cases writeError r with
      | none => exact this
      | some e =>
        dsimp only
        unfold WSys.reportError
        cases hpe : isPermanentError (some e)
        · simp only [Bool.false_eq_true, if_false]
          split <;> exact this
        · simp only [if_true]
          split <;> exact this
    | retryQuit hp hw => exact hb

/-- **C38.** One chunk is discarded for each one added to a full queue, never otherwise: an eviction is immediately
followed by the queueing of another chunk, and a chunk is queued only when there is room. -/
theorem C38_only_to_make_room (c : WConf) (s : WSys) (h : WRun c s) :
    (∀ h1 i t h2, s.hist = h1 ++ .evicted i t :: h2 → ∃ k h3, h2 = .queued k t :: h3 ∧ k ≠ i) ∧
    (∀ h1 k t h2, s.hist = h1 ++ .queued k t :: h2 → ∃ n : Nat, HeldCount h1 n ∧ (n : Int) < c.retryBatches) := by
  refine ⟨?_, ?_⟩
  · obtain ⟨pages, now, h⟩ := h
    exact evictThenQueue_run (fun h1 i t h2 hs => by simp [WSys.start] at hs) (sysInv_start c pages now) h
  · intro h1 k t h2 hs
    exact (h.legal h1 _ h2 hs).2.2.2

/-! ## C39 -/

/-- **C39.** No retry is attempted for a chunk that has been in the queue longer than `writer_retry_timeout`. -/
theorem C39_expired_never_retried (c : WConf) (s : WSys) (h : WRun c s) (i : Nat) (d : Bytes) (t tq : Int)
    (ha : .attempt i d t ∈ s.hist) (hq : .queued i tq ∈ s.hist) : t ≤ tq + c.retryTimeout := by
  obtain ⟨h1, h2, hs⟩ := mem_split ha
  obtain ⟨⟨⟨t', ht'⟩, -⟩, -, hr, -⟩ := h.legal h1 _ h2 hs
  -- the chunk is queued only once
  rw [hs] at hq
  rcases List.mem_append.1 hq with hq | hq
  · exact hr tq hq
  · exfalso
    rcases List.mem_cons.1 hq with hq | hq
    · cases hq
    · obtain ⟨a, b, e⟩ := mem_split hq
      have := (h.legal (h1 ++ .attempt i d t :: a) (.queued i tq) b (by rw [hs, e]; simp)).2.1 t'
      exact this (by simp [ht'])

/-- **C39.** And a chunk is dropped for its age only after `writer_retry_timeout` in the queue. -/
theorem C39_dropped_only_when_expired (c : WConf) (s : WSys) (h : WRun c s) (h1 h2 : List WEv) (i : Nat) (t : Int)
    (hs : s.hist = h1 ++ .expired i t :: h2) :
    Held h1 i ∧ ∀ tq, .queued i tq ∈ h1 → tq + c.retryTimeout < t :=
  h.legal h1 _ h2 hs

/-! ## C40 -/

/-- After a chunk has left the queue nothing happens to it any more. -/
theorem after_leave {c : WConf} {h h1 h2 : List WEv} {e : WEv} {i : Nat} (ha : Always (RetryRule c) h)
    (hs : h = h1 ++ e :: h2) (hl : Leaves i e) : ∀ x ∈ h2, ¬ Concerns i x ∧ ∀ r t, x ≠ .result i r t := by
  intro x hx
  obtain ⟨a, b, hab⟩ := mem_split hx
  have hr := ha (h1 ++ e :: a) x b (by rw [hs, hab]; simp)
  have hnh : ¬ Held (h1 ++ e :: a) i := fun hh => hh.2 e (by simp) hl
  cases x with
  | recv _ _ => exact ⟨(by rintro (⟨_, h⟩ | h | h) <;> cases h), (fun r t h => by cases h)⟩
  | flush _ _ => exact ⟨(by rintro (⟨_, h⟩ | h | h) <;> cases h), (fun r t h => by cases h)⟩
  | first _ _ _ _ => exact ⟨(by rintro (⟨_, h⟩ | h | h) <;> cases h), (fun r t h => by cases h)⟩
  | queued j t =>
    refine ⟨?_, fun r t h => by cases h⟩
    rintro (⟨_, h⟩ | h | h)
    · injection h with h
      subst h
      exact hr.2.2.1 e (by simp) hl
    · exact h
    · exact h
  | evicted j t =>
    refine ⟨?_, fun r t h => by cases h⟩
    rintro (⟨_, h⟩ | h | h)
    · cases h
    · have hji : j = i := h
      subst hji; exact hnh hr.1
    · exact h
  | expired j t =>
    refine ⟨?_, fun r t h => by cases h⟩
    rintro (⟨_, h⟩ | h | h)
    · cases h
    · have hji : j = i := h
      subst hji; exact hnh hr.1
    · exact h
  | attempt j d t =>
    refine ⟨?_, fun r t h => by cases h⟩
    rintro (⟨_, h⟩ | h | h)
    · cases h
    · exact h
    · have hji : j = i := h
      subst hji; exact hnh hr.1
  | result j r t =>
    have hji : j ≠ i := by rintro rfl; exact hnh hr.1
    refine ⟨?_, ?_⟩
    · rintro (⟨_, h⟩ | h | h)
      · cases h
      · exact hji h.1
      · exact h
    · intro r' t' h
      injection h with h
      exact hji h

/-- **C40.** After a retry that succeeded or failed permanently the chunk is gone: it is not attempted, discarded or
expired later. -/
theorem C40_removed (c : WConf) (s : WSys) (h : WRun c s) (h1 h2 : List WEv) (i : Nat) (r : Resp) (t : Int)
    (hs : s.hist = h1 ++ .result i r t :: h2) (hr : Spec.Resp.Ok r ∨ Spec.Resp.Permanent r) :
    ¬ Held s.hist i ∧ ∀ x ∈ h2, ¬ IsAttempt i x ∧ ¬ Leaves i x ∧ ∀ t, x ≠ .queued i t := by
  have hl : Leaves i (.result i r t) := ⟨rfl, hr⟩
  refine ⟨fun hh => hh.2 (.result i r t) (by rw [hs]; simp) hl, ?_⟩
  intro x hx
  have := (after_leave h.legal hs hl x hx).1
  exact ⟨fun h => this (Or.inr (Or.inr h)), fun h => this (Or.inr (Or.inl h)), fun t h => this (Or.inl ⟨t, h⟩)⟩

/-- **C40.** After a retry that failed temporarily the chunk is still held. -/
theorem C40_kept (c : WConf) (s : WSys) (h : WRun c s) (h1 h2 : List WEv) (i : Nat) (r : Resp) (t : Int)
    (hs : s.hist = h1 ++ .result i r t :: h2) (hr : ¬ Spec.Resp.Ok r ∧ ¬ Spec.Resp.Permanent r) :
    Held (h1 ++ [.result i r t]) i := by
  have hh := (h.legal h1 _ h2 hs).1
  rw [held_snoc (by intro t h; cases h)]
  refine ⟨hh, ?_⟩
  rintro ⟨-, h | h⟩
  · exact hr.1 h
  · exact hr.2 h

/-- **C40.** Between two attempts of the same chunk every chunk that was held at the first one has been attempted or
has left the queue. -/
theorem C40_rotation (c : WConf) (s : WSys) (h : WRun c s) (h1 h2 h3 : List WEv) (i : Nat) (d d' : Bytes) (t t' : Int)
    (hs : s.hist = h1 ++ .attempt i d t :: h2 ++ .attempt i d' t' :: h3) (j : Nat) (hj : j ≠ i) (hh : Held h1 j) :
    ∃ e ∈ h2, IsAttempt j e ∨ Leaves j e := by
  -- strengthen to the last attempt of `i` before the second one
  have key : ∀ (n : Nat) (g1 g2 : List WEv) (da : Bytes) (ta : Int), g2.length ≤ n →
      s.hist = g1 ++ .attempt i da ta :: g2 ++ .attempt i d' t' :: h3 → Held g1 j → ∃ e ∈ g2, IsAttempt j e ∨ Leaves j e := by
    intro n
    induction n with
    | zero =>
      intro g1 g2 da ta hn hg hgh
      have hnil : g2 = [] := List.length_eq_zero_iff.1 (by omega)
      subst hnil
      exact (h.legal _ _ _ hg).2.2.2.2 g1 da ta [] rfl (by simp) j hj hgh
    | succ n ih =>
      intro g1 g2 da ta hn hg hgh
      by_cases hno : ∀ e ∈ g2, ¬ IsAttempt i e
      · exact (h.legal _ _ _ hg).2.2.2.2 g1 da ta g2 rfl hno j hj hgh
      · have ⟨e, he⟩ := Classical.not_forall.1 hno
        have ⟨hem, hei⟩ := Classical.not_imp.1 he
        have hei := Classical.not_not.1 hei
        obtain ⟨a, b, hab⟩ := mem_split hem
        cases e with
        | attempt k dk tk =>
          have hk : k = i := hei
          subst hk
          by_cases hl : ∃ x ∈ a, Leaves j x
          · obtain ⟨x, hx, hxl⟩ := hl
            exact ⟨x, by rw [hab]; simp [hx], Or.inr hxl⟩
          · have hgh' : Held (g1 ++ .attempt k da ta :: a) j := by
              obtain ⟨⟨tq, htq⟩, hle⟩ := hgh
              refine ⟨⟨tq, by simp [htq]⟩, ?_⟩
              intro x hx hxl
              rcases List.mem_append.1 hx with hx | hx
              · exact hle x hx hxl
              · rcases List.mem_cons.1 hx with rfl | hx
                · exact hxl
                · exact hl ⟨x, hx, hxl⟩
            obtain ⟨x, hx, hxl⟩ := ih (g1 ++ .attempt k da ta :: a) b dk tk
              (by rw [hab] at hn; simp at hn; omega) (by rw [hg, hab]; simp) hgh'
            exact ⟨x, by rw [hab]; simp [hx], hxl⟩
        | recv _ _ => exact hei.elim
        | flush _ _ => exact hei.elim
        | first _ _ _ _ => exact hei.elim
        | queued _ _ => exact hei.elim
        | evicted _ _ => exact hei.elim
        | expired _ _ => exact hei.elim
        | result _ _ _ => exact hei.elim
  exact key h2.length h1 h2 d t (Nat.le_refl _) hs hh

/-! ## C41 -/

/-- **C41.** Two retry attempts of a worker are at least `writer_retry_interval` apart. -/
theorem C41_rate_limited (c : WConf) (s : WSys) (h : WRun c s) (h1 h2 h3 : List WEv) (i j : Nat) (d d' : Bytes) (t t' : Int)
    (hs : s.hist = h1 ++ .attempt i d t :: h2 ++ .attempt j d' t' :: h3) : t + c.retryInterval ≤ t' :=
  (h.legal _ _ _ hs).2.2.2.1 i d t (by simp)

/-- **C41.** At most one retry write is under way: between two attempts there is the result of the first. -/
theorem C41_one_at_a_time (c : WConf) (s : WSys) (h : WRun c s) (h1 h2 : List WEv) (i : Nat) (r : Resp) (t : Int)
    (hs : s.hist = h1 ++ .result i r t :: h2) :
    ∃ h3 d t' h4, h1 = h3 ++ .attempt i d t' :: h4 ∧ ∀ e ∈ h4, Quiet e :=
  (h.legal h1 _ h2 hs).2

/-! ## C42 -/

/-- What has become of a chunk. -/
inductive ChunkStatus where
  | onItsWay | held | written | rejected | expired | evicted
  deriving DecidableEq, Repr

/-- The status of chunk `i` after history `h`. -/
def HasStatus (h : List WEv) (i : Nat) : ChunkStatus → Prop
  | .onItsWay => ∀ t, .queued i t ∉ h
  | .held => Held h i
  | .written => ∃ r t, .result i r t ∈ h ∧ Spec.Resp.Ok r
  | .rejected => ∃ r t, .result i r t ∈ h ∧ Spec.Resp.Permanent r
  | .expired => ∃ t, .expired i t ∈ h
  | .evicted => ∃ t, .evicted i t ∈ h

/-- **C42.** Every chunk whose first write failed is in exactly one of these states: on its way to the retry
worker (for good, if retries are disabled), held by it, written, permanently rejected, expired, or discarded from the full queue. -/
theorem C42_exactly_one_status (c : WConf) (s : WSys) (h : WRun c s) (i : Nat) (d : Bytes) (r : Resp) (t : Int)
    (_hf : .first i d r t ∈ s.hist) (_hr : ¬ Spec.Resp.Ok r) :
    ∃ k, HasStatus s.hist i k ∧ ∀ k', HasStatus s.hist i k' → k' = k := by
  have hl := h.legal
  -- leaving requires having been queued
  have hleave : ∀ e ∈ s.hist, Leaves i e → ∃ t, .queued i t ∈ s.hist := by
    intro e he hle
    obtain ⟨a, b, hab⟩ := mem_split he
    have hr := hl a e b hab
    have hh : Held a i := by
      cases e with
      | evicted j t => have hji : j = i := hle; subst hji; exact hr.1
      | expired j t => have hji : j = i := hle; subst hji; exact hr.1
      | result j r t => have hji : j = i := hle.1; subst hji; exact hr.1
      | recv _ _ => exact hle.elim
      | flush _ _ => exact hle.elim
      | first _ _ _ _ => exact hle.elim
      | queued _ _ => exact hle.elim
      | attempt _ _ _ => exact hle.elim
    obtain ⟨⟨t, ht⟩, -⟩ := hh
    exact ⟨t, by rw [hab]; simp [ht]⟩
  -- at most one leaving event
  have huniq : ∀ e ∈ s.hist, Leaves i e → ∀ e' ∈ s.hist, Leaves i e' → e = e' := by
    intro e he hle e' he' hle'
    obtain ⟨a, b, hab⟩ := mem_split he
    rw [hab] at he'
    rcases List.mem_append.1 he' with hx | hx
    · obtain ⟨a1, a2, ha⟩ := mem_split hx
      exact absurd (Or.inr (Or.inl hle)) (after_leave (h1 := a1) (h2 := a2 ++ e :: b) hl (by rw [hab, ha]; simp) hle' e (by simp)).1
    · rcases List.mem_cons.1 hx with hx | hx
      · exact hx.symm
      · exact absurd (Or.inr (Or.inl hle')) (after_leave hl hab hle e' hx).1
  have hst : ∀ k, HasStatus s.hist i k →
      (k = .onItsWay ∧ ∀ t, .queued i t ∉ s.hist) ∨ (k = .held ∧ Held s.hist i) ∨
      ∃ e ∈ s.hist, Leaves i e ∧
        ((k = .written ∧ ∃ r t, e = .result i r t ∧ Spec.Resp.Ok r) ∨
         (k = .rejected ∧ ∃ r t, e = .result i r t ∧ Spec.Resp.Permanent r) ∨
         (k = .expired ∧ ∃ t, e = .expired i t) ∨ (k = .evicted ∧ ∃ t, e = .evicted i t)) := by
    intro k hk
    cases k with
    | onItsWay => exact Or.inl ⟨rfl, hk⟩
    | held => exact Or.inr (Or.inl ⟨rfl, hk⟩)
    | written =>
      obtain ⟨r, t, h1, h2⟩ := hk
      exact Or.inr (Or.inr ⟨_, h1, ⟨rfl, Or.inl h2⟩, Or.inl ⟨rfl, r, t, rfl, h2⟩⟩)
    | rejected =>
      obtain ⟨r, t, h1, h2⟩ := hk
      exact Or.inr (Or.inr ⟨_, h1, ⟨rfl, Or.inr h2⟩, Or.inr (Or.inl ⟨rfl, r, t, rfl, h2⟩)⟩)
    | expired =>
      obtain ⟨t, h1⟩ := hk
      exact Or.inr (Or.inr ⟨_, h1, rfl, Or.inr (Or.inr (Or.inl ⟨rfl, t, rfl⟩))⟩)
    | evicted =>
      obtain ⟨t, h1⟩ := hk
      exact Or.inr (Or.inr ⟨_, h1, rfl, Or.inr (Or.inr (Or.inr ⟨rfl, t, rfl⟩))⟩)
  -- uniqueness
  have uniq : ∀ k k', HasStatus s.hist i k → HasStatus s.hist i k' → k' = k := by
    intro k k' hk hk'
    rcases hst k hk with ⟨rfl, h1⟩ | ⟨rfl, h1⟩ | ⟨e, he, hle, h1⟩ <;>
      rcases hst k' hk' with ⟨rfl, h2⟩ | ⟨rfl, h2⟩ | ⟨e', he', hle', h2⟩
    · rfl
    · obtain ⟨⟨t, ht⟩, -⟩ := h2; exact absurd ht (h1 t)
    · obtain ⟨t, ht⟩ := hleave e' he' hle'; exact absurd ht (h1 t)
    · obtain ⟨⟨t, ht⟩, -⟩ := h1; exact absurd ht (h2 t)
    · rfl
    · exact absurd hle' (h1.2 e' he')
    · obtain ⟨t, ht⟩ := hleave e he hle; exact absurd ht (h2 t)
    · exact absurd hle (h2.2 e he)
    · have hee := huniq e he hle e' he' hle'
      subst hee
      rcases h1 with ⟨rfl, r1, t1, e1, p1⟩ | ⟨rfl, r1, t1, e1, p1⟩ | ⟨rfl, t1, e1⟩ | ⟨rfl, t1, e1⟩ <;>
        rcases h2 with ⟨rfl, r2, t2, e2, p2⟩ | ⟨rfl, r2, t2, e2, p2⟩ | ⟨rfl, t2, e2⟩ | ⟨rfl, t2, e2⟩ <;>
        first
          | rfl
          | (rw [e1] at e2; cases e2; done)
          | (rw [e1] at e2; injection e2 with _ e2 _; subst e2; exact absurd ⟨p1, p2⟩ (not_ok_and_permanent _))
          | (rw [e1] at e2; injection e2 with _ e2 _; subst e2; exact absurd ⟨p2, p1⟩ (not_ok_and_permanent _))
  -- existence
  have ex : ∃ k, HasStatus s.hist i k := by
    by_cases hq : ∃ t, .queued i t ∈ s.hist
    · by_cases hh : Held s.hist i
      · exact ⟨.held, hh⟩
      · have : ∃ e ∈ s.hist, Leaves i e := by
          apply Classical.byContradiction
          intro hn
          exact hh ⟨hq, fun e he hle => hn ⟨e, he, hle⟩⟩
        obtain ⟨e, he, hle⟩ := this
        cases e with
        | evicted j t => have hji : j = i := hle; subst hji; exact ⟨.evicted, t, he⟩
        | expired j t => have hji : j = i := hle; subst hji; exact ⟨.expired, t, he⟩
        | result j r t =>
          have hji : j = i := hle.1
          subst hji
          rcases hle.2 with hle | hle
          · exact ⟨.written, r, t, he, hle⟩
          · exact ⟨.rejected, r, t, he, hle⟩
        | recv _ _ => exact hle.elim
        | flush _ _ => exact hle.elim
        | first _ _ _ _ => exact hle.elim
        | queued _ _ => exact hle.elim
        | attempt _ _ _ => exact hle.elim
    · exact ⟨.onItsWay, fun t ht => hq ⟨t, ht⟩⟩
  obtain ⟨k, hk⟩ := ex
  exact ⟨k, hk, fun k' hk' => uniq k k' hk hk'⟩

/-- **C42.** With retries enabled, a chunk whose first write failed and that was not queued is really on its way:
in the channel or about to be put in it, with its data. -/
theorem C42_on_its_way (c : WConf) (s : WSys) (h : WRun c s) (hc : 0 < c.retryBatches) (i : Nat) (d : Bytes) (r : Resp)
    (t : Int) (hf : .first i d r t ∈ s.hist) (hr : ¬ Spec.Resp.Ok r) (hs : HasStatus s.hist i .onItsWay) :
    s.ch = some (i, d) ∨ ∃ rest, s.phase = .handoff i d rest := by
  have T := h.inv.t
  have hl := h.legal
  rcases T.accounted hc i d r t hf hr with ⟨t', ht'⟩ | hm
  · exact absurd ht' (hs t')
  · obtain ⟨x, hx, hxe⟩ := List.mem_map.1 hm
    obtain ⟨r', t', hf', -⟩ := T.failed x hx
    -- a chunk is attempted for the first time once
    have hd : x.2 = d := by
      rw [hxe] at hf'
      obtain ⟨a, b, hab⟩ := mem_split hf
      rw [hab] at hf'
      have e1 : i = a.countP isFirst := hl a _ b hab
      rcases List.mem_append.1 hf' with hm | hm
      · obtain ⟨a1, a2, ha⟩ := mem_split hm
        have e2 : i = a1.countP isFirst := hl a1 (.first i x.2 r' t') (a2 ++ .first i d r t :: b) (by rw [hab, ha]; simp)
        rw [ha, List.countP_append, List.countP_cons] at e1
        simp [isFirst] at e1
        omega
      · rcases List.mem_cons.1 hm with hm | hm
        · injection hm
        · obtain ⟨b1, b2, hb⟩ := mem_split hm
          have e2 : i = (a ++ .first i d r t :: b1).countP isFirst := hl (a ++ .first i d r t :: b1) (.first i x.2 r' t') b2 (by rw [hab, hb]; simp)
          rw [List.countP_append, List.countP_cons] at e2
          simp [isFirst] at e2
          omega
    have hxi : x = (i, d) := by rw [← hxe, ← hd]
    subst hxi
    unfold transit at hx
    rcases List.mem_append.1 hx with hx | hx
    · left
      cases hch : s.ch with
      | none => rw [hch] at hx; simp at hx
      | some y => rw [hch] at hx; simp at hx; rw [← hx]
    · right
      cases hp : s.phase with
      | handoff k d' rest =>
        rw [hp] at hx
        simp at hx
        exact ⟨rest, by rw [hx.1, hx.2]⟩
      | select _ => rw [hp] at hx; simp at hx
      | check => rw [hp] at hx; simp at hx
      | sending _ => rw [hp] at hx; simp at hx
      | stopped => rw [hp] at hx; simp at hx

/-- **C42.** A retry sends exactly the bytes of the chunk's first attempt, and only chunks whose first attempt failed
are retried. -/
theorem C42_same_data (c : WConf) (s : WSys) (h : WRun c s) (i : Nat) (d : Bytes) (t : Int)
    (ha : .attempt i d t ∈ s.hist) :
    (∃ r t0, .first i d r t0 ∈ s.hist) ∧ ∃ d' r t0, .first i d' r t0 ∈ s.hist ∧ ¬ Spec.Resp.Ok r := by
  obtain ⟨h1, h2, hs⟩ := mem_split ha
  obtain ⟨r, t0, hf⟩ := (h.legal h1 _ h2 hs).2.1
  exact ⟨⟨r, t0, by rw [hs]; simp [hf]⟩, concerns_first h.legal ha (Or.inr (Or.inr rfl))⟩

/-- **C42.** Chunks are numbered in the order of their first attempts, so each number stands for one chunk. -/
theorem C42_numbering (c : WConf) (s : WSys) (h : WRun c s) (h1 h2 : List WEv) (i : Nat) (d : Bytes) (r : Resp) (t : Int)
    (hs : s.hist = h1 ++ .first i d r t :: h2) : i = h1.countP isFirst :=
  h.legal h1 _ h2 hs

/-- **C42.** A chunk written successfully, at the first attempt or on retry, is never sent again. -/
theorem C42_written_once (c : WConf) (s : WSys) (h : WRun c s) (h1 h2 : List WEv) (i : Nat) :
    (∀ d r t, s.hist = h1 ++ .first i d r t :: h2 → Spec.Resp.Ok r → ∀ x ∈ s.hist, ¬ IsAttempt i x) ∧
    (∀ r t, s.hist = h1 ++ .result i r t :: h2 → Spec.Resp.Ok r → ∀ x ∈ h2, ¬ IsAttempt i x) := by
  refine ⟨?_, ?_⟩
  · intro d r t hs hok x hx hxi
    obtain ⟨d', r', t', hf, hno⟩ := concerns_first h.legal hx (Or.inr (Or.inr hxi))
    -- both events are the first attempt number `i`
    have e1 : i = h1.countP isFirst := h.legal h1 _ h2 hs
    rw [hs] at hf
    rcases List.mem_append.1 hf with hm | hm
    · obtain ⟨a1, a2, ha⟩ := mem_split hm
      have e2 : i = a1.countP isFirst := h.legal a1 (.first i d' r' t') (a2 ++ .first i d r t :: h2) (by rw [hs, ha]; simp)
      rw [ha, List.countP_append, List.countP_cons] at e1
      simp [isFirst] at e1
      omega
    · rcases List.mem_cons.1 hm with hm | hm
      · injection hm with _ _ hm _
        subst hm
        exact hno hok
      · obtain ⟨b1, b2, hb⟩ := mem_split hm
        have e2 : i = (h1 ++ .first i d r t :: b1).countP isFirst :=
          h.legal (h1 ++ .first i d r t :: b1) (.first i d' r' t') b2 (by rw [hs, hb]; simp)
        rw [List.countP_append, List.countP_cons] at e2
        simp [isFirst] at e2
        omega
  · intro r t hs hok x hx
    exact fun hxi => (after_leave h.legal hs ⟨rfl, Or.inl hok⟩ x hx).1 (Or.inr (Or.inr hxi))

/-! ## C43 -/

/-- What the property says: after a permanent failure of a write the chunk is never sent again. -/
def PermanentNotResent : Prop :=
  ∀ (c : WConf) (s : WSys), WRun c s → ∀ (h1 h2 : List WEv) (i : Nat) (d : Bytes) (r : Resp) (t : Int),
    s.hist = h1 ++ .first i d r t :: h2 → Spec.Resp.Permanent r → ∀ x ∈ h2, ¬ IsAttempt i x

/-- **C43 is false of the code.** A chunk rejected with 400 at its first attempt is queued and sent again. -/
theorem C43_rejected_batch_resent : ¬ PermanentNotResent := by
  intro h
  obtain ⟨s, h1, h2⟩ := exHist_run
  exact h exWConf s h1 (exHist.take 10) (exHist.drop 11) 2 b!"c v=1\n" (.status 400) 2 (by rw [h2]; rfl)
    (Or.inr ⟨400, rfl, by decide, by decide⟩) (.attempt 2 b!"c v=1\n" 11) (by decide) rfl

/-- **C43 (partial).** After a permanent failure of a *retry* the chunk is never sent again; and without retries
(`writer_retry_batches` zero) no chunk is ever sent twice.  Missing: a permanent failure of the first
attempt, after which the code does retry (`C43_rejected_batch_resent`). -/
theorem C43_not_resent_partial (c : WConf) (s : WSys) (h : WRun c s) :
    (∀ h1 h2 i r t, s.hist = h1 ++ .result i r t :: h2 → Spec.Resp.Permanent r → ∀ x ∈ h2, ¬ IsAttempt i x) ∧
    (c.retryBatches ≤ 0 → ∀ x ∈ s.hist, ∀ i, ¬ IsAttempt i x) := by
  refine ⟨?_, ?_⟩
  · intro h1 h2 i r t hs hp x hx hxi
    exact (after_leave h.legal hs ⟨rfl, Or.inr hp⟩ x hx).1 (Or.inr (Or.inr hxi))
  · intro hc x hx i hxi
    cases x with
    | attempt j d t =>
      obtain ⟨h1, h2, hs⟩ := mem_split hx
      obtain ⟨⟨tq, htq⟩, -⟩ := (h.legal h1 _ h2 hs).1
      obtain ⟨g1, g2, hg⟩ := mem_split htq
      obtain ⟨n, -, hn⟩ := (h.legal g1 (.queued j tq) (g2 ++ .attempt j d t :: h2) (by rw [hs, hg]; simp)).2.2.2
      omega
    | recv _ _ => exact hxi.elim
    | flush _ _ => exact hxi.elim
    | first _ _ _ _ => exact hxi.elim
    | queued _ _ => exact hxi.elim
    | evicted _ _ => exact hxi.elim
    | expired _ _ => exact hxi.elim
    | result _ _ _ => exact hxi.elim

/-- **C43.** A chunk gets at most two permanent rejections: one at its first attempt and one on retry, after which there is no
further attempt. -/
theorem C43_at_most_two_rejections (c : WConf) (s : WSys) (h : WRun c s) (h1 h2 : List WEv) (i : Nat) (r : Resp) (t : Int)
    (hs : s.hist = h1 ++ .result i r t :: h2) :
    ∀ r' t', .result i r' t' ∈ h1 → ¬ Spec.Resp.Permanent r' := by
  intro r' t' hm hp'
  obtain ⟨a, b, hab⟩ := mem_split hm
  have := (after_leave (h1 := a) (e := .result i r' t') (i := i) (h2 := b ++ .result i r t :: h2) h.legal (by rw [hs, hab]; simp) ⟨rfl, Or.inr hp'⟩
    (.result i r t) (by simp)).2 r t
  exact this rfl

end Spout
