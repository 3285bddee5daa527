import Verif.Props.WriterTimely

/-! # The writer recovers from an outage of InfluxDB (C100) -/

set_option linter.unusedSimpArgs false

namespace Spout
open Spec

/-! ## Specification -/

/-- From `a` on, which is the end of the outage, the retry worker is prompt and InfluxDB answers every retry within `L`, accepting it or refusing it for good: no retry fails temporarily.  (A retry that was under way at the end of the outage
is answered within `L` of it.)  First attempts may succeed or fail, and the worker may do anything, at any time. -/
inductive Answered (c : WConf) (L : Int) (a : WSys) : WSys → Prop
  | refl : Answered c L a a
  | step {b d : WSys} : Answered c L a b → WStep c b d → (b.rphase = .top → d.now = b.now) →
      (∀ t, b.rphase = .select → b.nextSend = some t → d.now ≤ max b.now t) →
      (∀ i h1 x t h2, b.rphase = .writing i → b.hist = h1 ++ .attempt i x t :: h2 → (∀ e ∈ h2, Quiet e) → d.now ≤ max a.now t + L) →
      (∀ i r t, d.hist = b.hist ++ [.result i r t] → Resp.Ok r ∨ Resp.Permanent r) → Answered c L a d

/-- When the event happened. -/
def WEv.time : WEv → Int
  | .recv _ t => t
  | .flush _ t => t
  | .first _ _ _ t => t
  | .queued _ t => t
  | .evicted _ t => t
  | .expired _ t => t
  | .attempt _ _ t => t
  | .result _ _ t => t

/-! ## Proofs -/

theorem Answered.prompt {c : WConf} {L : Int} {s0 a b : WSys} (h0 : RPrompt c s0 a) (h : Answered c L a b) : RPrompt c s0 b := by
  induction h with
  | refl => exact h0
  | step _ hst h1 h2 _ _ ih => exact ih.step hst h1 h2

/-- Removing chunks from a queue moves nobody back. -/
theorem place_sublist {q q' a b : List RItem} {g : RItem} (hn : (q.map (·.id)).Nodup) (hq : q = a ++ g :: b) (hs : q'.Sublist q)
    (hm : g.id ∈ q'.map (·.id)) : ∃ a' b', q' = a' ++ g :: b' ∧ a'.length ≤ a.length := by
  subst hq
  rw [List.map_append, List.map_cons, List.nodup_append] at hn
  obtain ⟨-, n2, n3⟩ := hn
  rw [List.nodup_cons] at n2
  obtain ⟨q1, q2, rfl, s1, s2⟩ := List.sublist_append_iff.1 hs
  rw [List.map_append, List.mem_append] at hm
  rcases hm with hm | hm
  · exact absurd rfl (n3 _ ((s1.map _).subset hm) _ List.mem_cons_self)
  · rcases List.sublist_cons_iff.1 s2 with s2 | ⟨q3, rfl, s3⟩
    · exact absurd ((s2.map _).subset hm) n2.1
    · exact ⟨q1, q3, rfl, s1.length_le⟩

/-- Chunk `i` will have left the queue at the time `E`. -/
structure RecInv (c : WConf) (L T E : Int) (i : Nat) (s : WSys) : Prop where
  past : T ≤ s.now
  queued : ∃ t, .queued i t ∈ s.hist
  left : ∀ e ∈ s.hist, Leaves i e → T ≤ e.time ∧ e.time ≤ E
  place : s.rphase ≠ .stopped → i ∈ s.queue.map (·.id) → ∃ a g b, s.queue = a ++ g :: b ∧ g.id = i ∧
    (s.rphase = .top → s.nextSend = none → s.now + ((a.length : Int) + 1) * (c.retryInterval + L) ≤ E) ∧
    (∀ d, s.nextSend = some d → d + L + (a.length : Int) * (c.retryInterval + L) ≤ E) ∧
    ∀ j, s.rphase = .writing j → ∃ h1 x t h2, s.hist = h1 ++ .attempt j x t :: h2 ∧ (∀ e ∈ h2, Quiet e) ∧
      max T t + L + (a.length : Int) * (c.retryInterval + L) ≤ E ∧ s.now ≤ max T t + L

theorem times_mono {m n : Nat} {k : Int} (h : m ≤ n) (hk : 0 ≤ k) : (m : Int) * k ≤ (n : Int) * k :=
  Int.mul_le_mul_of_nonneg_right (by omega) hk

/-- Steps of the worker. -/
theorem RecInv.mono {c : WConf} {L T E : Int} {i : Nat} {s s' : WSys} (I : RecInv c L T E i s) (es : List WEv) (hn : ∀ e ∈ es, Quiet e)
    (h1 : s'.hist = s.hist ++ es) (h2 : s'.nextSend = s.nextSend) (h3 : s'.rphase = s.rphase) (h4 : s'.now = s.now) (h5 : s'.queue = s.queue) :
    RecInv c L T E i s' := by
  refine ⟨by rw [h4]; exact I.past, (by obtain ⟨t, ht⟩ := I.queued; exact ⟨t, by rw [h1]; exact List.mem_append_left _ ht⟩), ?_, ?_⟩
  · intro e he hl
    rw [h1] at he
    rcases List.mem_append.1 he with he | he
    · exact I.left e he hl
    · exact absurd hl (quiet_not_leaves (hn _ he) i)
  · rw [h1, h2, h3, h4, h5]
    intro hr hi
    obtain ⟨a, g, b, e1, e2, e3, e4, e5⟩ := I.place hr hi
    refine ⟨a, g, b, e1, e2, e3, e4, ?_⟩
    intro j hj
    obtain ⟨g1, x, t, g2, f1, f2, f3, f4⟩ := e5 j hj
    refine ⟨g1, x, t, g2 ++ es, by rw [f1]; simp, ?_, f3, f4⟩
    intro e he
    rcases List.mem_append.1 he with he | he
    · exact f2 e he
    · exact hn e he

theorem queueAdd_sublist {m ttl now : Int} {q q' : List RItem} {k : Nat} {buf : Bytes} {gone : Option RItem} (h : queueAdd m ttl now q k buf = (q', gone)) :
    ∃ q0, q' = q0 ++ [⟨k, buf, now + ttl⟩] ∧ q0.Sublist q := by
  unfold queueAdd at h
  split at h
  rename_i q1 g1 h1
  injection h with h2 h3
  refine ⟨q1, h2.symm, ?_⟩
  split at h1
  · cases q with
    | nil => injection h1 with h1; subst h1; exact List.Sublist.refl _
    | cons x xs =>
      obtain ⟨a, g, b, e1, e2, -⟩ := removeOldest_spec (x :: xs) (by simp)
      rw [e2] at h1
      injection h1 with h1
      rw [← h1, e1]
      exact (List.Sublist.refl a).append (List.sublist_cons_self g b)
  · injection h1 with h1; subst h1; exact List.Sublist.refl _

theorem queueAdd_gone {m ttl now : Int} {q q' : List RItem} {k : Nat} {buf : Bytes} {gone : Option RItem} (h : queueAdd m ttl now q k buf = (q', gone)) :
    ∀ g ∈ gone.toList, g ∈ q := by
  unfold queueAdd at h
  split at h
  rename_i q1 g1 h1
  injection h with h2 h3
  subst h3
  split at h1
  · cases q with
    | nil => injection h1 with h1 h3; subst h3; intro g hg; cases hg
    | cons x xs =>
      obtain ⟨a, g, b, e1, e2, -⟩ := removeOldest_spec (x :: xs) (by simp)
      rw [e2] at h1
      injection h1 with h1 h3
      intro y hy
      rw [← h3] at hy
      rw [e1, List.mem_singleton.1 hy]
      simp
  · injection h1 with h1 h3; subst h3; intro g hg; cases hg

/-- While the timer is set, a chunk in the queue is in time. -/
theorem leaves_in_time {c : WConf} {L T E : Int} {i : Nat} {b : WSys} (I : RecInv c L T E i b) (TI : TimerInv c b) (hk : 0 ≤ c.retryInterval + L)
    (hL : 0 ≤ L) (hns : b.rphase ≠ .stopped) {dl : Int} (hd : b.nextSend = some dl) (hi : i ∈ b.queue.map (·.id)) : b.now ≤ E := by
  obtain ⟨x, g, y, -, -, -, e4, -⟩ := I.place hns hi
  have h1 := e4 dl hd
  have h2 := (TI.armed hns dl hd).1
  have h3 := times_mono (Nat.zero_le x.length) hk
  omega

/-- A write accepted or refused for good is not repeated. -/
theorem finishRetry_drops (c : WConf) (s : WSys) (r : Resp) (h : Resp.Ok r ∨ Resp.Permanent r) : (s.finishRetry c r).queue = dropFront s.queue := by
  unfold WSys.finishRetry
  cases hw : writeError r with
  | none => rfl
  | some e =>
    have hp : isPermanentError (some e) = true := by
      rcases h with h | h
      · rw [(writeError_none r).2 h] at hw; cases hw
      · rw [← hw]; exact (isPermanentError_iff r).2 h
    simp only [hp, if_true]
    unfold WSys.reportError
    split <;> rfl

theorem recInv {c : WConf} {L E : Int} (hint : 0 ≤ c.retryInterval) (hL : 0 ≤ L) {s0 a s : WSys} {i : Nat} (I0 : TimerInv c s0) (Q0 : SysInv c s0)
    (h0 : RPrompt c s0 a) (hr : RecInv c L a.now E i a) (h : Answered c L a s) : RecInv c L a.now E i s := by
  induction h with
  | refl => exact hr
  | @step b d hab hst htop hsel hwr hok I =>
    have hk : 0 ≤ c.retryInterval + L := by omega
    obtain ⟨T, Q⟩ := timerInv hint I0 Q0 (hab.prompt h0)
    have same : ∀ s' : WSys, s'.hist = b.hist → s'.nextSend = b.nextSend → s'.rphase = b.rphase → s'.now = b.now → s'.queue = b.queue →
        RecInv c L a.now E i s' := by
      intro s' h1 h2 h3 h4 h5
      exact I.mono [] (by simp) (by rw [h1, List.append_nil]) h2 h3 h4 h5
    cases hst with
    | tick t ht =>
      dsimp only at htop hsel hwr
      refine ⟨by have := I.past; dsimp only; omega, I.queued, I.left, ?_⟩
      intro hr hi
      obtain ⟨x, g, y, e1, e2, e3, e4, e5⟩ := I.place hr hi
      refine ⟨x, g, y, e1, e2, ?_, e4, ?_⟩
      · intro h1 h2
        have := htop h1
        dsimp only
        rw [this]
        exact e3 h1 h2
      · intro j hj
        obtain ⟨g1, z, tt, g2, f1, f2, f3, f4⟩ := e5 j hj
        exact ⟨g1, z, tt, g2, f1, f2, f3, hwr j g1 z tt g2 hj f1 f2⟩
    | stop => exact same _ rfl rfl rfl rfl rfl
    | recv w data b' hp hb => exact I.mono [_] (by simp [Quiet]) rfl rfl rfl rfl rfl
    | gotWrite w n hp hn => exact same _ rfl rfl rfl rfl rfl
    | gotError w n hp hn => exact same _ rfl rfl rfl rfl rfl
    | wake w hp hw => exact same _ rfl rfl rfl rfl rfl
    | quit w hp hs => exact same _ rfl rfl rfl rfl rfl
    | keep hp h => exact same _ rfl rfl rfl rfl rfl
    | flush chunks hp h hc => exact I.mono [_] (by simp [Quiet]) rfl rfl rfl rfl rfl
    | firstOk chunk rest r hp hr => exact I.mono [_] (by simp [Quiet]) rfl rfl rfl rfl rfl
    | firstFail chunk rest r e hp hr => exact I.mono [_] (by simp [Quiet]) rfl rfl rfl rfl rfl
    | handoff k chunk rest hp hc => exact same _ rfl rfl rfl rfl rfl
    | sent hp => exact same _ rfl rfl rfl rfl rfl
    | retryQuit hp hw => exact ⟨I.past, I.queued, I.left, fun h => absurd rfl h⟩
    | arm hp =>
      refine ⟨I.past, I.queued, I.left, ?_⟩
      intro _ hi
      obtain ⟨x, g, y, e1, e2, e3, e4, -⟩ := I.place (by rw [hp]; intro h; cases h) hi
      refine ⟨x, g, y, e1, e2, (fun h => by cases h), ?_, (fun j h => by cases h)⟩
      intro d hd
      dsimp only at hd
      split at hd
      · rename_i hc
        injection hd with hd
        have := e3 hp hc.1
        rw [Int.add_mul] at this
        omega
      · exact e4 d hd
    | input k buf q gone hp hc hq =>
      have hki : k ≠ i := by
        rintro rfl
        obtain ⟨t, ht⟩ := I.queued
        exact Q.t.fresh (k, buf) (by unfold transit; rw [hc]; cases b.phase <;> simp) _ ht (Or.inl ⟨t, rfl⟩)
      refine ⟨I.past, (by obtain ⟨t, ht⟩ := I.queued; exact ⟨t, by simp [ht]⟩), ?_, ?_⟩
      · intro e he hl
        rcases List.mem_append.1 he with he | he
        · rcases List.mem_append.1 he with he | he
          · exact I.left e he hl
          · obtain ⟨g, hg, rfl⟩ := List.mem_map.1 he
            have hgi : g.id = i := hl
            have hns : b.rphase ≠ .stopped := by rw [hp]; intro h; cases h
            have hgq : i ∈ b.queue.map (·.id) := by rw [← hgi]; exact List.mem_map_of_mem (queueAdd_gone hq g hg)
            cases hd : b.nextSend with
            | none => exact absurd ((Q.q.held i).2 hgq) (T.waiting hp hd i)
            | some dl => exact ⟨I.past, leaves_in_time I T hk hL hns hd hgq⟩
        · rw [List.mem_singleton.1 he] at hl; exact hl.elim
      · intro _ hi
        obtain ⟨q0, e0, s0⟩ := queueAdd_sublist hq
        have hi : i ∈ q.map (·.id) := hi
        have hi0 : i ∈ q0.map (·.id) := by
          rw [e0, List.map_append, List.mem_append] at hi
          rcases hi with hi | hi
          · exact hi
          · simp at hi; exact absurd hi.symm hki
        obtain ⟨x, g, y, e1, rfl, -, e4, -⟩ := I.place (by rw [hp]; intro h; cases h) ((s0.map _).subset hi0)
        obtain ⟨x', y', e1', hle⟩ := place_sublist Q.q.nodup e1 s0 hi0
        have hm := times_mono hle hk
        refine ⟨x', g, y' ++ [⟨k, buf, b.now + c.retryTimeout⟩], by show q = _; rw [e0, e1']; simp, rfl, ?_, ?_, (fun j h => by cases h)⟩
        · intro _ hn
          exact absurd hi0 (fun h => T.waiting hp hn _ ((Q.q.held _).2 ((s0.map _).subset h)))
        · intro d hd
          have := e4 d hd
          omega
    | fireEmpty dl gone hp hd ht hf =>
      have hns : b.rphase ≠ .stopped := by rw [hp]; intro h; cases h
      obtain ⟨hq, -, -⟩ := queueFront_spec _ _ _ _ hf
      refine ⟨I.past, (by obtain ⟨t, ht⟩ := I.queued; exact ⟨t, by simp [ht]⟩), ?_, ?_⟩
      · intro e he hl
        rcases List.mem_append.1 he with he | he
        · exact I.left e he hl
        · obtain ⟨g, hg, rfl⟩ := List.mem_map.1 he
          have hgi : g.id = i := hl
          exact ⟨I.past, leaves_in_time I T hk hL hns hd (by rw [hq, ← hgi, List.append_nil]; exact List.mem_map_of_mem hg)⟩
      · intro _ hi; cases hi
    | fire dl gone b' q hp hd ht hf =>
      have hns : b.rphase ≠ .stopped := by rw [hp]; intro h; cases h
      obtain ⟨hq, -, -⟩ := queueFront_spec _ _ _ _ hf
      have hX : RecInv c L a.now E i { b with rphase := .writing b'.id, nextSend := none, queue := b' :: q, hist := b.hist ++ (gone.map fun g => .expired g.id b.now) ++ [.attempt b'.id b'.buf b.now] } := by
        refine ⟨I.past, (by obtain ⟨t, ht⟩ := I.queued; exact ⟨t, by simp [ht]⟩), ?_, ?_⟩
        · intro e he hl
          rcases List.mem_append.1 he with he | he
          · rcases List.mem_append.1 he with he | he
            · exact I.left e he hl
            · obtain ⟨g, hg, rfl⟩ := List.mem_map.1 he
              have hgi : g.id = i := hl
              exact ⟨I.past, leaves_in_time I T hk hL hns hd (by rw [hq, ← hgi, List.map_append]; exact List.mem_append_left _ (List.mem_map_of_mem hg))⟩
          · rw [List.mem_singleton.1 he] at hl; exact hl.elim
        · intro _ hi
          have hi : i ∈ (b' :: q).map (·.id) := hi
          have s0 : (b' :: q).Sublist b.queue := by rw [hq]; exact List.sublist_append_right _ _
          obtain ⟨x, g, y, e1, rfl, -, e4, -⟩ := I.place hns ((s0.map _).subset hi)
          obtain ⟨x', y', e1', hle⟩ := place_sublist Q.q.nodup e1 s0 hi
          have hm := times_mono hle hk
          have h1 := e4 dl hd
          have h2 := (T.armed hns dl hd).1
          have h3 := I.past
          refine ⟨x', g, y', e1', rfl, (fun h => by cases h), (fun d h => by cases h), ?_⟩
          intro j hj
          injection hj with hj
          subst hj
          refine ⟨_, _, b.now, [], rfl, (fun e he => by cases he), ?_, ?_⟩
          · omega
          · show b.now ≤ _
            omega
      unfold WSys.reportWrite
      split
      · exact hX.mono [] (by simp) (by simp) rfl rfl rfl rfl
      · exact hX.mono [] (by simp) (by simp) rfl rfl rfl rfl
    | finish j r hp =>
      have hns : b.rphase ≠ .stopped := by rw [hp]; intro h; cases h
      have hno : b.nextSend = none := by
        cases hn : b.nextSend with
        | none => rfl
        | some d =>
          rcases (T.armed hns d hn).2.2.2 with h | h <;> rw [hp] at h <;> cases h
      obtain ⟨f1, f2, -, f4, -, f6, -⟩ := finishRetry_same c { b with rphase := .top, hist := b.hist ++ [.result j r b.now] } r
      have fq := finishRetry_drops c { b with rphase := .top, hist := b.hist ++ [.result j r b.now] } r (hok j r b.now f2)
      have fn := finishRetry_nextSend c { b with rphase := .top, hist := b.hist ++ [.result j r b.now] } r
      refine ⟨by rw [f4]; exact I.past, (by obtain ⟨t, ht⟩ := I.queued; exact ⟨t, by rw [f2]; simp [ht]⟩), ?_, ?_⟩
      · intro e he hl
        rw [f2] at he
        rcases List.mem_append.1 he with he | he
        · exact I.left e he hl
        · rw [List.mem_singleton.1 he] at hl ⊢
          obtain ⟨g0, q', hq, hg0, -⟩ := Q.q.writing j (by rw [hp]; rfl)
          have hji : j = i := hl.1
          obtain ⟨x, g, y, -, -, -, -, e5⟩ := I.place hns (by rw [hq, ← hji, ← hg0]; exact List.mem_cons_self)
          obtain ⟨h1, z, t, h2, -, -, k1, k2⟩ := e5 j hp
          have h3 := times_mono (Nat.zero_le x.length) hk
          refine ⟨I.past, ?_⟩
          show b.now ≤ E
          omega
      · intro _ hi
        rw [fq] at hi ⊢
        have hi : i ∈ (dropFront b.queue).map (·.id) := hi
        obtain ⟨g0, q', hq, hg0, -⟩ := Q.q.writing j (by rw [hp]; rfl)
        rw [hq] at hi
        have hi : i ∈ q'.map (·.id) := hi
        obtain ⟨x, g, y, e1, rfl, -, -, e5⟩ := I.place hns (by rw [hq]; exact List.mem_cons_of_mem _ hi)
        have hnd := Q.q.nodup
        rw [hq, List.map_cons, List.nodup_cons] at hnd
        obtain ⟨h1, z, t, h2, -, -, k1, k2⟩ := e5 j hp
        rw [hq] at e1
        cases x with
        | nil =>
          injection e1 with e1 e2
          rw [e1] at hnd
          exact absurd hi hnd.1
        | cons x0 x =>
          injection e1 with e1 e2
          refine ⟨x, g, y, by show dropFront b.queue = _; rw [hq]; exact e2, rfl, ?_, ?_, ?_⟩
          · intro _ _
            rw [f4]
            show b.now + _ ≤ _
            rw [List.length_cons, Int.natCast_add] at k1
            have : ((1 : Nat) : Int) = 1 := rfl
            rw [this] at k1
            omega
          · intro d hd
            rw [fn] at hd
            have hd : b.nextSend = some d := hd
            rw [hno] at hd
            cases hd
          · intro k hk'
            rw [f6] at hk'
            cases hk'

theorem timerInv_start (c : WConf) (pages : Nat) (now : Int) : TimerInv c (WSys.start c pages now) :=
  ⟨(by simp [WSys.start]), (by intro _ _ i hh; obtain ⟨⟨t, ht⟩, -⟩ := hh; cases ht), (by intro _ _ i tq hh; obtain ⟨⟨t, ht⟩, -⟩ := hh; cases ht)⟩

/-- At the end of the outage. -/
theorem recInv_start {c : WConf} {L : Int} (hint : 0 ≤ c.retryInterval) (hL : 0 ≤ L) {a : WSys} {i : Nat} (T : TimerInv c a) (Q : SysInv c a) (hi : Held a.hist i) :
    RecInv c L a.now (a.now + c.retryBatches * (c.retryInterval + L)) i a := by
  have hk : 0 ≤ c.retryInterval + L := by omega
  refine ⟨Int.le_refl _, hi.1, fun e he hl => absurd hl (hi.2 e he), ?_⟩
  intro hr hm
  obtain ⟨g, hg, hgi⟩ := List.mem_map.1 hm
  obtain ⟨x, y, hq⟩ := List.append_of_mem hg
  have hb := Q.q.bound
  have hlen : ((x.length : Int) + 1) ≤ c.retryBatches := by
    rw [hq] at hb
    simp only [List.length_append, List.length_cons] at hb
    omega
  have hm1 : ((x.length : Int) + 1) * (c.retryInterval + L) ≤ c.retryBatches * (c.retryInterval + L) := Int.mul_le_mul_of_nonneg_right hlen hk
  have hm2 := hm1
  rw [Int.add_mul] at hm2
  refine ⟨x, g, y, hq, hgi, fun _ _ => by omega, ?_, ?_⟩
  · intro d hd
    have := (T.armed hr d hd).2.1
    omega
  · intro j hj
    obtain ⟨g0, q', -, -, h1, z, t, h2, k1, k2⟩ := Q.q.writing j (by rw [hj]; rfl)
    have ht := Q.q.atime j z t (by rw [k1]; simp)
    exact ⟨h1, z, t, h2, k1, k2, by omega, by omega⟩

theorem step_hist {c : WConf} {s s' : WSys} (h : WStep c s s') : ∃ es, s'.hist = s.hist ++ es := by
  cases h with
  | fire d gone b q hp hd ht hf => exact ⟨_, by rw [(reportWrite_same c _).2.1, List.append_assoc]⟩
  | finish i r hp => exact ⟨_, (finishRetry_same c _ r).2.1⟩
  | recv => exact ⟨_, rfl⟩
  | flush => exact ⟨_, rfl⟩
  | firstOk => exact ⟨_, rfl⟩
  | firstFail => exact ⟨_, rfl⟩
  | input => exact ⟨_, List.append_assoc _ _ _⟩
  | fireEmpty => exact ⟨_, rfl⟩
  | tick => exact ⟨[], by simp⟩
  | stop => exact ⟨[], by simp⟩
  | gotWrite => exact ⟨[], by simp⟩
  | gotError => exact ⟨[], by simp⟩
  | wake => exact ⟨[], by simp⟩
  | quit => exact ⟨[], by simp⟩
  | keep => exact ⟨[], by simp⟩
  | handoff => exact ⟨[], by simp⟩
  | sent => exact ⟨[], by simp⟩
  | arm => exact ⟨[], by simp⟩
  | retryQuit => exact ⟨[], by simp⟩

theorem Answered.hist {c : WConf} {L : Int} {a b : WSys} (h : Answered c L a b) : ∀ e ∈ a.hist, e ∈ b.hist := by
  induction h with
  | refl => exact fun _ h => h
  | step _ hst _ _ _ _ ih =>
    intro e he
    obtain ⟨es, h1⟩ := step_hist hst
    rw [h1]
    exact List.mem_append_left _ (ih e he)

/-- A chunk's number determines its data. -/
theorem first_data {c : WConf} {s : WSys} (h : WRun c s) {i : Nat} {d d' : Bytes} {r r' : Resp} {t t' : Int} (h1 : .first i d r t ∈ s.hist)
    (h2 : .first i d' r' t' ∈ s.hist) : d = d' := by
  obtain ⟨a1, b1, e1⟩ := List.append_of_mem h1
  obtain ⟨a2, b2, e2⟩ := List.append_of_mem h2
  have c1 := C42_numbering c s h a1 b1 i d r t e1
  have c2 := C42_numbering c s h a2 b2 i d' r' t' e2
  rw [e1] at e2
  rcases List.append_eq_append_iff.1 e2 with ⟨m, k1, k2⟩ | ⟨m, k1, k2⟩
  · cases m with
    | nil => injection k2 with k2; injection k2
    | cons x m =>
      injection k2 with k2 k3
      rw [k1, List.countP_append, ← k2] at c2
      simp [List.countP_cons, isFirst] at c2
      omega
  · cases m with
    | nil => injection k2 with k2; injection k2 with _ k; exact k.symm
    | cons x m =>
      injection k2 with k2 k3
      rw [k1, List.countP_append, ← k2] at c1
      simp [List.countP_cons, isFirst] at c1
      omega

/-! ## Theorems -/

/-- **C100.** After an outage the retry queue empties in bounded time.  Let `s1` be the state at the end of the outage, and suppose that from then on every retry is answered within `L`.  A chunk held for retry at that
time has left the queue after at most `writer_retry_batches * (writer_retry_interval + L)`: if the worker has not been stopped then, at some moment in between InfluxDB accepted the chunk or refused it for good, or the chunk
made room for a newer one, or it had been held longer than `writer_retry_timeout`. -/
theorem C100_recovers (c : WConf) (hint : 0 ≤ c.retryInterval) (L : Int) (hL : 0 ≤ L) (pages : Nat) (now : Int) (s1 s2 : WSys)
    (h1 : RPrompt c (WSys.start c pages now) s1) (h2 : Answered c L s1 s2) (hp : s2.phase ≠ .stopped) (i : Nat) (hi : Held s1.hist i)
    (hlate : s1.now + c.retryBatches * (c.retryInterval + L) < s2.now) :
    ∃ t, s1.now ≤ t ∧ t ≤ s1.now + c.retryBatches * (c.retryInterval + L) ∧
      ((∃ r, .result i r t ∈ s2.hist ∧ (Resp.Ok r ∨ Resp.Permanent r)) ∨ .evicted i t ∈ s2.hist ∨
        (.expired i t ∈ s2.hist ∧ ∀ tq, .queued i tq ∈ s2.hist → tq + c.retryTimeout < t)) := by
  have hk : 0 ≤ c.retryInterval + L := by omega
  obtain ⟨T1, Q1⟩ := timerInv hint (timerInv_start c pages now) (sysInv_start c pages now) h1
  obtain ⟨T2, Q2⟩ := timerInv hint (timerInv_start c pages now) (sysInv_start c pages now) (h2.prompt h1)
  have I := recInv hint hL (timerInv_start c pages now) (sysInv_start c pages now) h1 (recInv_start hint hL T1 Q1 hi) h2
  have hrun : WRun c s2 := ⟨pages, now, (h2.prompt h1).reach⟩
  have hb : 0 < c.retryBatches := by
    refine Classical.byContradiction fun hb => ?_
    have := (Q1.q.held i).1 hi
    rw [(Q1.off hb).2.1] at this
    cases this
  have hns : s2.rphase ≠ .stopped := fun hs => hp (hrun.retry_alive hb hs)
  have hnot : ¬ Held s2.hist i := by
    intro hh
    have hm := (Q2.q.held i).1 hh
    obtain ⟨x, g, y, -, -, e3, -, e5⟩ := I.place hns hm
    have h3 := times_mono (Nat.zero_le x.length) hk
    cases hn : s2.nextSend with
    | some d =>
      have := leaves_in_time I T2 hk hL hns hn hm
      omega
    | none =>
      cases hr : s2.rphase with
      | stopped => exact hns hr
      | select => exact T2.waiting hr hn i hh
      | top =>
        have := e3 hr hn
        rw [Int.add_mul] at this
        omega
      | writing j =>
        obtain ⟨g1, z, t, g2, -, -, k1, k2⟩ := e5 j hr
        omega
  have hex : ∃ e ∈ s2.hist, Leaves i e := by
    refine Classical.byContradiction fun hno => hnot ⟨I.queued, fun e he hl => hno ⟨e, he, hl⟩⟩
  obtain ⟨e, he, hl⟩ := hex
  obtain ⟨b1, b2⟩ := I.left e he hl
  refine ⟨e.time, b1, b2, ?_⟩
  cases e with
  | evicted j t => obtain rfl : j = i := hl; exact Or.inr (Or.inl he)
  | expired j t =>
    obtain rfl : j = i := hl
    obtain ⟨l1, l2, hsplit⟩ := List.append_of_mem he
    refine Or.inr (Or.inr ⟨he, ?_⟩)
    intro tq hq
    have hrule := Q2.q.always l1 _ l2 hsplit
    have hin : .queued j tq ∈ l1 := by
      rw [hsplit] at hq
      rcases List.mem_append.1 hq with hq | hq
      · exact hq
      · rcases List.mem_cons.1 hq with hq | hq
        · cases hq
        · obtain ⟨l3, l4, hs2⟩ := List.append_of_mem hq
          have := (Q2.q.always (l1 ++ .expired j t :: l3) (.queued j tq) l4 (by rw [hsplit, hs2]; simp)).2.2.1 (.expired j t) (by simp)
          exact absurd rfl this
    exact hrule.2 tq hin
  | result j r t =>
    obtain ⟨rfl, hr⟩ := hl
    exact Or.inl ⟨r, he, hr⟩
  | recv d t => exact hl.elim
  | flush d t => exact hl.elim
  | first j d r t => exact hl.elim
  | queued j t => exact hl.elim
  | attempt j d t => exact hl.elim

/-- **C100.** In particular, if the chunk was queued late enough not to expire meanwhile, and does not have to make room, InfluxDB is sent the chunk once more and answers for good. -/
theorem C100_written (c : WConf) (hint : 0 ≤ c.retryInterval) (L : Int) (hL : 0 ≤ L) (pages : Nat) (now : Int) (s1 s2 : WSys)
    (h1 : RPrompt c (WSys.start c pages now) s1) (h2 : Answered c L s1 s2) (hp : s2.phase ≠ .stopped) (i : Nat) (tq : Int) (d : Bytes) (r0 : Resp) (t0 : Int) (hi : Held s1.hist i)
    (hq : .queued i tq ∈ s1.hist) (hd : .first i d r0 t0 ∈ s1.hist)
    (hlate : s1.now + c.retryBatches * (c.retryInterval + L) < s2.now) (hroom : ∀ t, .evicted i t ∉ s2.hist)
    (htime : s1.now + c.retryBatches * (c.retryInterval + L) ≤ tq + c.retryTimeout) :
    ∃ r t, s1.now ≤ t ∧ t ≤ s1.now + c.retryBatches * (c.retryInterval + L) ∧ (Resp.Ok r ∨ Resp.Permanent r) ∧
      (∃ t', .attempt i d t' ∈ s2.hist) ∧ .result i r t ∈ s2.hist := by
  have hrun : WRun c s2 := ⟨pages, now, (h2.prompt h1).reach⟩
  obtain ⟨t, b1, b2, h⟩ := C100_recovers c hint L hL pages now s1 s2 h1 h2 hp i hi hlate
  rcases h with ⟨r, hr, hok⟩ | h | ⟨-, h⟩
  · obtain ⟨l1, l2, hs⟩ := List.append_of_mem hr
    obtain ⟨l3, d', t', l4, k1, -⟩ := C41_one_at_a_time c s2 hrun l1 l2 i r t hs
    have ha : .attempt i d' t' ∈ s2.hist := by rw [hs, k1]; simp
    obtain ⟨⟨r1, t1, hf⟩, -⟩ := C42_same_data c s2 hrun i d' t' ha
    rw [← first_data hrun (h2.hist _ hd) hf] at ha
    exact ⟨r, t, b1, b2, hok, ⟨t', ha⟩, hr⟩
  · exact absurd h (hroom t)
  · have := h tq (h2.hist _ hq)
    omega

/-! ## Example -/

/-- Is the event an attempt? -/
def anAttempt : WEv → Bool
  | .attempt _ _ _ => true
  | _ => false

/-- Is the last retry answered in time? -/
def answeredIn (L T now : Int) (ph : RPhase) (h : List WEv) : Bool :=
  match h.reverse.find? anAttempt with
  | some (.attempt i _ t) => decide (ph = .writing i → now ≤ max T t + L)
  | _ => true

theorem answeredIn_last {L T now t : Int} {i : Nat} {x : Bytes} {h1 h2 : List WEv} (hq : ∀ e ∈ h2, Quiet e)
    (h : answeredIn L T now (.writing i) (h1 ++ .attempt i x t :: h2) = true) : now ≤ max T t + L := by
  have h0 : h2.reverse.find? anAttempt = none := by
    rw [List.find?_eq_none]
    intro e he
    have := hq e (List.mem_reverse.1 he)
    cases e <;> simp [anAttempt, Quiet] at this ⊢
  unfold answeredIn at h
  rw [show (h1 ++ .attempt i x t :: h2).reverse = h2.reverse ++ (.attempt i x t :: h1.reverse) by simp, List.find?_append, h0] at h
  simp [List.find?_cons, anAttempt] at h
  omega

/-- Is it answered for good? -/
def forGood : WEv → Bool
  | .result _ r _ => decide (writeError r = none) || isPermanentError (writeError r)
  | _ => true

/-- Schedules in which InfluxDB answers. -/
def aActs (c : WConf) (L T : Int) (s : WSys) : List WAct → Option WSys
  | [] => some s
  | a :: as => (wAct c s a).bind fun s' =>
    if (s.rphase = .top → s'.now = s.now) ∧ (s.rphase = .select → s'.now ≤ max s.now (s.nextSend.getD s'.now)) ∧
        answeredIn L T s'.now s.rphase s.hist = true ∧ (s'.hist.drop s.hist.length).all forGood = true then aActs c L T s' as
    else none

theorem aActs_sound {c : WConf} {L : Int} {s0 s s' : WSys} {as : List WAct} (h0 : Answered c L s0 s) (h : aActs c L s0.now s as = some s') : Answered c L s0 s' := by
  induction as generalizing s with
  | nil => simp only [aActs] at h; injection h with h; subst h; exact h0
  | cons a as ih =>
    simp only [aActs] at h
    cases ha : wAct c s a with
    | none => rw [ha] at h; cases h
    | some s1 =>
      rw [ha] at h
      simp only [Option.bind_some] at h
      split at h
      · rename_i hok
        obtain ⟨k1, k2, k3, k4⟩ := hok
        refine ih (h0.step (wAct_sound ha) k1 ?_ ?_ ?_) h
        · intro t hr ht
          have := k2 hr
          rw [ht] at this
          exact this
        · intro i h1 x t h2 hr hh hq
          rw [hr, hh] at k3
          exact answeredIn_last hq k3
        · intro i r t hh
          rw [hh, List.drop_left] at k4
          have := List.all_eq_true.1 k4 (.result i r t) (by simp)
          simp only [forGood, Bool.or_eq_true, decide_eq_true_eq] at this
          rcases this with h | h
          · exact Or.inl ((writeError_none r).1 h)
          · exact Or.inr ((isPermanentError_iff r).1 h)
      · cases h

/-- The outage: two chunks fail, and the first retry too. -/
def exOutage : List WAct :=
  exFail b!"a v=1\n" .transport ++ [.arm, .tick 3, .recv b!"b v=1\n", .check, .first (.status 503), .handoff, .sent, .input, .arm, .tick 5, .fire, .tick 7, .finish .transport, .arm]

/-- Afterwards InfluxDB answers within 3: it accepts the one chunk and refuses the other. -/
def exBack : List WAct := [.tick 12, .fire, .tick 15, .finish (.status 204), .arm, .tick 20, .fire, .tick 21, .finish (.status 400), .arm, .tick 24]

/-- The state at the end of the outage. -/
def exOutageEnd : WSys := (rActs exWConf (WSys.start exWConf 1000 0) exOutage).getD (WSys.start exWConf 1000 0)

/-- Both chunks are held at 7, the end of the outage, and have left at 24 > 7 + 2 * (5 + 3). -/
example : ∃ s1 s2, RPrompt exWConf (WSys.start exWConf 1000 0) s1 ∧ Answered exWConf 3 s1 s2 ∧ s2.phase ≠ .stopped ∧ Held s1.hist 0 ∧ Held s1.hist 1 ∧
    .queued 0 0 ∈ s1.hist ∧ .queued 1 3 ∈ s1.hist ∧ s1.now = 7 ∧ s2.now = 24 ∧ (∀ i t, .evicted i t ∉ s2.hist) ∧
    s1.now + exWConf.retryBatches * (exWConf.retryInterval + 3) < s2.now ∧ s1.now + exWConf.retryBatches * (exWConf.retryInterval + 3) ≤ 0 + exWConf.retryTimeout ∧
    .result 0 (.status 400) 21 ∈ s2.hist ∧ .result 1 (.status 204) 15 ∈ s2.hist := by
  have h1 : (rActs exWConf (WSys.start exWConf 1000 0) exOutage).isSome = true := by decide +kernel
  have e1 : rActs exWConf (WSys.start exWConf 1000 0) exOutage = some exOutageEnd := by
    unfold exOutageEnd
    cases h : rActs exWConf (WSys.start exWConf 1000 0) exOutage with
    | none => rw [h] at h1; cases h1
    | some s => rfl
  have v1 : (exOutageEnd.now, exOutageEnd.hist) = (7,
      [.recv b!"a v=1\n" 0, .flush b!"a v=1\n" 0, .first 0 b!"a v=1\n" .transport 0, .queued 0 0,
       .recv b!"b v=1\n" 3, .flush b!"b v=1\n" 3, .first 1 b!"b v=1\n" (.status 503) 3, .queued 1 3, .attempt 0 b!"a v=1\n" 5, .result 0 .transport 7]) := by decide +kernel
  have h2 : (aActs exWConf 3 exOutageEnd.now exOutageEnd exBack).map (fun s => (s.phase, s.now, s.hist)) = some (.select (3 + second), 24, exOutageEnd.hist ++
      [.attempt 1 b!"b v=1\n" 12, .result 1 (.status 204) 15, .attempt 0 b!"a v=1\n" 20, .result 0 (.status 400) 21]) := by decide +kernel
  injection v1 with v1 v2
  have nl : ∀ i, ∀ e ∈ exOutageEnd.hist, ¬ Leaves i e := by
    rw [v2]
    intro i e he
    simp only [List.mem_cons, List.not_mem_nil, or_false] at he
    rcases he with rfl | rfl | rfl | rfl | rfl | rfl | rfl | rfl | rfl | rfl
    all_goals first | exact id | skip
    rintro ⟨-, ⟨c, h, -⟩ | h | ⟨c, h, -⟩⟩ <;> cases h
  cases hs : aActs exWConf 3 exOutageEnd.now exOutageEnd exBack with
  | none => rw [hs] at h2; cases h2
  | some s =>
    rw [hs] at h2
    simp only [Option.map_some, Option.some.injEq, Prod.mk.injEq] at h2
    obtain ⟨k1, k2, k3⟩ := h2
    refine ⟨exOutageEnd, s, rActs_sound (.refl _) e1, aActs_sound .refl hs, by rw [k1]; simp, ⟨⟨0, by rw [v2]; simp⟩, nl 0⟩, ⟨⟨3, by rw [v2]; simp⟩, nl 1⟩, by rw [v2]; simp, by rw [v2]; simp, v1, k2,
      ?_, by rw [v1, k2]; decide, by rw [v1]; decide, by rw [k3]; simp, by rw [k3]; simp⟩
    intro i t
    rw [k3, v2]
    simp

end Spout
