import Verif.Props.ListenerHTTP

/-! # C52: data does not wait longer than batch_max_age -/

set_option linter.unusedSimpArgs false

namespace Spout
open Listener

/-- How a step at time `now` changes the batch's write count and creation time. -/
def AgeStep (now : Int) (b b' : Batch) : Prop :=
  b'.writes = 0 ∨ (0 < b.writes ∧ 0 < b'.writes ∧ b'.created = b.created) ∨
    (b.writes = 0 ∧ 0 < b'.writes ∧ b'.created = now)

theorem AgeStep.same (now : Int) (b : Batch) : AgeStep now b b := by
  by_cases h : b.writes = 0
  · exact Or.inl h
  · exact Or.inr (Or.inl ⟨by omega, by omega, rfl⟩)

theorem AgeStep.write (now : Int) (b : Batch) (buf : Bytes) (c : Nat) :
    AgeStep now b ⟨buf, c, b.writes + 1, if b.writes = 0 then now else b.created⟩ := by
  by_cases h : b.writes = 0
  · exact Or.inr (Or.inr ⟨h, by simp, by simp [h]⟩)
  · exact Or.inr (Or.inl ⟨by omega, by simp, by simp [h]⟩)

theorem age_send {l l' : Listener} {fail : Nat → Bool} {now : Int} (hi : Inv l)
    (hc : l.batch.writes = 0 ↔ l.batch.buf = []) (h : l.sendBatch fail now = .ok l') :
    l'.conf = l.conf ∧ Inv l' ∧ l'.batch.buf = [] ∧ l'.batch.writes = 0 := by
  obtain ⟨l2, h1, h2, h3, h4, h5, h6, -⟩ := sendBatch_inv l fail now hi
  rw [h1] at h; injection h with h; subst h
  refine ⟨h3, h2, h4, ?_⟩
  rcases h6 with h6 | ⟨h6, h7⟩
  · exact h6
  · rw [h6]; exact hc.2 h7

/-- Every step of a request. -/
theorem age_request {l l' : Listener} {e : HTTPEvent} (now : Int) (hi : Inv l)
    (hc : l.batch.writes = 0 ↔ l.batch.buf = [])
    (he : (∃ r, e = .body r now) ∨ (∃ d, d ≠ [] ∧ e = .line d now) ∨
      (∃ fail, e = .maybeSend now fail now) ∨ e = .readErr)
    (h : l.httpStep e = .ok l') :
    l'.conf = l.conf ∧ Inv l' ∧ (l'.batch.writes = 0 ↔ l'.batch.buf = []) ∧ AgeStep now l.batch l'.batch := by
  obtain ⟨l2, g1, g2, g3, -⟩ := http_step l e hi
  rw [g1] at h; injection h with h; subst h
  refine ⟨g3, g2, ?_⟩
  rcases he with ⟨r, rfl⟩ | ⟨d, hd, rfl⟩ | ⟨fail, rfl⟩ | rfl
  · obtain ⟨c, -, -, h3⟩ := Batch.readLoop_spec now r.steps l.batch r 0 hi.wf (Nat.le_refl _)
    rw [show l.httpStep (.body r now) = (Batch.readLoop now r.steps l.batch r 0 >>= fun x =>
      .ok { l with batch := x.1 }) from rfl, h3] at g1
    by_cases hr : r.pieces.flatten ++ r.last = []
    · rw [if_pos (by rw [hr]; rfl)] at g1
      injection g1 with g1; subst g1
      exact ⟨hc, AgeStep.same now l.batch⟩
    · have := List.length_pos_iff.2 hr
      rw [if_neg (by omega)] at g1
      injection g1 with g1; subst g1
      refine ⟨⟨fun h => ?_, fun h => ?_⟩, AgeStep.write now l.batch _ _⟩
      · simp at h
      · rw [List.append_eq_nil_iff] at h; exact absurd h.2 hr
  · obtain ⟨c, h3, -⟩ := Batch.append_spec l.batch hi.wf d now
    rw [show l.httpStep (.line d now) = (l.batch.append d now >>= fun b => .ok { l with batch := b }) from rfl, h3] at g1
    injection g1 with g1; subst g1
    refine ⟨⟨fun h => ?_, fun h => ?_⟩, AgeStep.write now l.batch _ _⟩
    · simp at h
    · rw [List.append_eq_nil_iff] at h; exact absurd h.2 hd
  · rw [show l.httpStep (.maybeSend now fail now) =
      ({ l with stats := { l.stats with received := l.stats.received + 1 } } : Listener).maybeSendBatch now fail now
      from rfl] at g1
    obtain ⟨l3, k1, -, -, -, -, -, k7⟩ := maybeSendBatch_inv
      { l with stats := { l.stats with received := l.stats.received + 1 } } now fail now ⟨hi.wf, hi.failed, hi.sizes⟩
    rw [k1] at g1; injection g1 with g1; subst g1
    rcases k7 with ⟨rfl, -⟩ | ⟨k7, -⟩
    · exact ⟨hc, AgeStep.same now l.batch⟩
    · obtain ⟨-, -, m3, m4⟩ := age_send (l := { l with stats := { l.stats with received := l.stats.received + 1 } })
        ⟨hi.wf, hi.failed, hi.sizes⟩ hc k7
      exact ⟨⟨fun _ => m3, fun _ => m4⟩, Or.inl m4⟩
  · injection g1 with g1; subst g1
    exact ⟨hc, AgeStep.same now l.batch⟩

/-- The invariant of the timed system. -/
structure TInv (D : Int) (s : Timed) : Prop where
  inv : Inv s.l
  counted : s.l.batch.writes = 0 ↔ s.l.batch.buf = []
  past : 0 < s.l.batch.writes → s.l.batch.created ≤ s.now
  phase : match s.phase with
    | .arming f => f ≤ s.now ∧ s.now ≤ f + D ∧
        (0 < s.l.batch.writes → f ≤ s.l.batch.created + s.l.conf.batchMaxAge)
    | .waiting d => s.now ≤ d + D ∧
        (0 < s.l.batch.writes → d ≤ s.l.batch.created + s.l.conf.batchMaxAge + D) ∧
        (s.l.batch.writes = 0 → d ≤ s.now + s.l.conf.batchMaxAge + D)

theorem tinv_request {D : Int} {s : Timed} {l' : Listener} (hA : 0 ≤ s.l.conf.batchMaxAge) (h : TInv D s)
    (h1 : l'.conf = s.l.conf) (h2 : Inv l') (h3 : l'.batch.writes = 0 ↔ l'.batch.buf = [])
    (h4 : AgeStep s.now s.l.batch l'.batch) : TInv D { s with l := l' } := by
  refine ⟨h2, h3, ?_, ?_⟩
  · intro hw
    rcases h4 with h4 | ⟨a, b, c⟩ | ⟨a, b, c⟩
    · simp only at hw; omega
    · simp only; rw [c]; exact h.past a
    · simp only; omega
  · have hp := h.phase
    simp only
    rw [h1]
    cases hph : s.phase with
    | arming f =>
      rw [hph] at hp
      simp only at hp ⊢
      refine ⟨hp.1, hp.2.1, ?_⟩
      intro hw
      rcases h4 with h4 | ⟨a, b, c⟩ | ⟨a, b, c⟩
      · omega
      · rw [c]; exact hp.2.2 a
      · omega
    | waiting d =>
      rw [hph] at hp
      simp only at hp ⊢
      refine ⟨hp.1, ?_, ?_⟩
      · intro hw
        rcases h4 with h4 | ⟨a, b, c⟩ | ⟨a, b, c⟩
        · omega
        · rw [c]; exact hp.2.1 a
        · rw [c]; exact hp.2.2 a
      · intro hw
        by_cases ha : s.l.batch.writes = 0
        · exact hp.2.2 ha
        · have h5 := hp.2.1 (by omega)
          have h6 := h.past (by omega)
          omega

theorem tinv_step {D : Int} (hD : 0 ≤ D) {a b : Timed} (hA : 0 ≤ a.l.conf.batchMaxAge) (h : TInv D a)
    (hs : TStep D a b) : TInv D b ∧ b.l.conf = a.l.conf := by
  cases hs with
  | tick t ht hd =>
    refine ⟨⟨h.inv, h.counted, ?_, ?_⟩, rfl⟩
    · intro hw; have := h.past hw; simp only at *; omega
    · have hp := h.phase
      simp only
      cases hph : a.phase with
      | arming f =>
        rw [hph] at hp hd
        simp only at hp hd ⊢
        exact ⟨by omega, hd, hp.2.2⟩
      | waiting d =>
        rw [hph] at hp hd
        simp only at hp hd ⊢
        refine ⟨hd, hp.2.1, ?_⟩
        intro hw; have := hp.2.2 hw; omega
  | body r l' h' =>
    obtain ⟨g1, g2, g3, g4⟩ := age_request a.now h.inv h.counted (Or.inl ⟨r, rfl⟩) h'
    exact ⟨tinv_request hA h g1 g2 g3 g4, g1⟩
  | line d l' hne h' =>
    obtain ⟨g1, g2, g3, g4⟩ := age_request a.now h.inv h.counted (Or.inr (Or.inl ⟨d, hne, rfl⟩)) h'
    exact ⟨tinv_request hA h g1 g2 g3 g4, g1⟩
  | maybeSend fail l' h' =>
    obtain ⟨g1, g2, g3, g4⟩ := age_request a.now h.inv h.counted (Or.inr (Or.inr (Or.inl ⟨fail, rfl⟩))) h'
    exact ⟨tinv_request hA h g1 g2 g3 g4, g1⟩
  | readErr l' h' =>
    obtain ⟨g1, g2, g3, g4⟩ := age_request a.now h.inv h.counted (Or.inr (Or.inr (Or.inr rfl))) h'
    exact ⟨tinv_request hA h g1 g2 g3 g4, g1⟩
  | arm f hp =>
    refine ⟨⟨h.inv, h.counted, h.past, ?_⟩, rfl⟩
    have hph := h.phase
    rw [hp] at hph
    simp only at hph ⊢
    unfold Batch.age
    refine ⟨by omega, ?_, ?_⟩
    · intro hw
      have := hph.2.2 hw
      have := h.past hw
      rw [if_neg (by omega)]
      omega
    · intro hw
      rw [if_pos (by omega)]
      omega
  | fire d fail l' hp hd h' =>
    have hphase := h.phase
    rw [hp] at hphase
    rw [show a.l.httpStep (.oldBatch a.now fail a.now) =
      if a.l.batch.age a.now ≥ a.l.conf.batchMaxAge then a.l.sendBatch fail a.now else .ok a.l from rfl] at h'
    by_cases ha : a.l.batch.age a.now ≥ a.l.conf.batchMaxAge
    · rw [if_pos ha] at h'
      obtain ⟨g1, g2, g3, g4⟩ := age_send h.inv h.counted h'
      refine ⟨⟨g2, ⟨fun _ => g3, fun _ => g4⟩, ?_, ?_⟩, g1⟩
      · intro hw; simp only at hw; omega
      · simp only
        exact ⟨Int.le_refl _, by omega, fun hw => by omega⟩
    · rw [if_neg ha] at h'
      injection h' with h'; subst h'
      refine ⟨⟨h.inv, h.counted, h.past, ?_⟩, rfl⟩
      simp only
      refine ⟨Int.le_refl _, by omega, ?_⟩
      intro hw
      unfold Batch.age at ha
      rw [if_neg (by omega)] at ha
      omega

/-- The HTTP listener just started. -/
def timedStart (c : LConf) (t0 : Int) : Timed := ⟨new c t0, t0, .arming t0⟩

theorem tinv_reach {D : Int} (hD : 0 ≤ D) {c : LConf} (hA : 0 ≤ c.batchMaxAge) {t0 : Int} {s : Timed}
    (h : TReach D (timedStart c t0) s) : TInv D s ∧ s.l.conf = c := by
  induction h with
  | refl =>
    refine ⟨⟨inv_new c t0, ⟨fun _ => rfl, fun _ => rfl⟩, ?_, ?_⟩, rfl⟩
    · intro hw; simp [timedStart, new, Batch.new] at hw
    · simp only [timedStart]
      exact ⟨Int.le_refl _, by omega, fun hw => by simp [new, Batch.new] at hw⟩
  | step _ hs ih =>
    obtain ⟨h1, h2⟩ := ih
    obtain ⟨h3, h4⟩ := tinv_step hD (by rw [h2]; exact hA) h1 hs
    exact ⟨h3, h4.trans h2⟩

/-- **C52 (partial).** If the sender goroutine is never delayed by more than `D` (timer latency and
waiting for the lock), then at every moment of every execution data that is still batched is no
older than `batch_max_age + 2·D`.  Missing: no such `D` exists for requests whose body arrives
slowly, since the lock is held while a body is read (`C52_delay_reached`). -/
theorem C52_age_bound_partial (D : Int) (hD : 0 ≤ D) (c : LConf) (hA : 0 ≤ c.batchMaxAge) (t0 : Int) (s : Timed)
    (h : TReach D (timedStart c t0) s) (hdata : s.l.batch.bytes ≠ []) :
    s.l.batch.age s.now ≤ c.batchMaxAge + 2 * D := by
  obtain ⟨h1, h2⟩ := tinv_reach hD hA h
  have hw : 0 < s.l.batch.writes := by
    rcases Nat.eq_zero_or_pos s.l.batch.writes with hw | hw
    · exact absurd (h1.counted.1 hw) hdata
    · exact hw
  have hp := h1.phase
  unfold Batch.age
  rw [if_neg (by omega)]
  rw [h2] at hp
  cases hph : s.phase with
  | arming f => rw [hph] at hp; simp only at hp; have := hp.2.2 hw; omega
  | waiting d => rw [hph] at hp; simp only at hp; have := hp.2.1 hw; omega

/-- **C52 with ideal timers** and requests that do not block the lock: never older than
`batch_max_age`. -/
theorem C52_ideal (c : LConf) (hA : 0 ≤ c.batchMaxAge) (t0 : Int) (s : Timed)
    (h : TReach 0 (timedStart c t0) s) (hdata : s.l.batch.bytes ≠ []) :
    s.l.batch.age s.now ≤ c.batchMaxAge := by
  have := C52_age_bound_partial 0 (by omega) c hA t0 s h hdata
  omega

/-- **C52, as stated, is false** when the lock is held for a time `D` by a request with a slow body:
there is an execution in which data waits `batch_max_age + D`. -/
theorem C52_delay_reached (D : Int) (hD : 0 ≤ D) (A : Int) (hA : 0 ≤ A) :
    ∃ s, TReach D (timedStart ⟨1000, A, 1048576⟩ 0) s ∧ s.l.batch.bytes ≠ [] ∧
      s.l.batch.age s.now = A + D := by
  let c : LConf := ⟨1000, A, 1048576⟩
  let l1 : Listener := ⟨c, ⟨b!"a f=1\n", 1048576, 1, 0⟩, ⟨0, 0, 0, 0⟩, []⟩
  refine ⟨⟨l1, A + D, .waiting A⟩, ?_, by simp [l1, Batch.bytes], ?_⟩
  · have e0 : (0 : Int) + max 0 (A - 0) = A := by omega
    have s1 : TStep D (timedStart c 0) ⟨new c 0, 0, .waiting A⟩ := by
      have := TStep.arm (D := D) (timedStart c 0) 0 rfl
      rw [show (timedStart c 0).now + max 0 ((timedStart c 0).l.conf.batchMaxAge -
        (timedStart c 0).l.batch.age (timedStart c 0).now) = A from e0] at this
      exact this
    have s2 : TStep D ⟨new c 0, 0, .waiting A⟩ ⟨l1, 0, .waiting A⟩ :=
      TStep.line (D := D) ⟨new c 0, 0, .waiting A⟩ b!"a f=1\n" l1 (by decide) rfl
    have s3 : TStep D ⟨l1, 0, .waiting A⟩ ⟨l1, A + D, .waiting A⟩ :=
      TStep.tick (D := D) ⟨l1, 0, .waiting A⟩ (A + D) (by simp only; omega) (by simp only; omega)
    exact .step (.step (.step (.refl _) s1) s2) s3
  · show A + D - 0 = A + D
    omega

/-- The lines appended by requests are never empty, as the timed model assumes. -/
theorem C52_lines_not_empty (q : HTTPReq) (steps : List HTTPEvent) (h : requestSteps q = .ok steps) :
    ∀ e ∈ steps, ∀ d now, e = .line d now → d ≠ [] := by
  intro e he d now hd
  subst hd
  unfold requestSteps at h
  split at h
  · injection h with h
    subst h
    rw [List.mem_cons] at he
    rcases he with he | he
    · cases he
    · rw [List.mem_append] at he
      rcases he with he | he <;> split at he <;> first | (cases he; done) | (rw [List.mem_singleton] at he; cases he)
  · obtain ⟨outs, h1, h2⟩ := precisionLines_spec q.precision (scanTokens (splitAfterNL q.bytes)).1
    simp only [h1, Go.ok_bind, Go.pure_eq, Go.ok.injEq] at h
    subst h
    rw [List.mem_append] at he
    rcases he with he | he
    · obtain ⟨x, hx, hxe⟩ := List.mem_map.1 he
      injection hxe with hxd _
      have hmem : d ∈ outs := by
        rw [← hxd]
        exact List.fst_mem_of_mem_zipIdx hx
      have hall : ∀ l ∈ (scanTokens (splitAfterNL q.bytes)).1.filter (fun l => 1 < l.length), l ≠ [] := by
        intro l hl h0
        have := (List.mem_filter.1 hl).2
        rw [h0] at this; simp at this
      clear he hx h1
      generalize (scanTokens (splitAfterNL q.bytes)).1.filter (fun l => 1 < l.length) = ins at h2 hall
      induction h2 with
      | nil => cases hmem
      | cons hr _ ih =>
        rcases List.mem_cons.1 hmem with rfl | hm
        · cases hr with
          | scaled => simp
          | same => exact hall _ (by simp)
        · exact ih hm (fun l hl => hall l (by simp [hl]))
    · rw [List.mem_append] at he
      rcases he with he | he <;> split at he <;> first | (cases he; done) | (rw [List.mem_singleton] at he; cases he)

end Spout
