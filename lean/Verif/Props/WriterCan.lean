import Verif.Props.WriterStop

/-! # A worker of a writer can always finish (used by C95) -/

set_option linter.unusedSimpArgs false

namespace Spout.Spec
open Spout

/-- Steps of a worker, its retry worker, InfluxDB and the clock, without messages and without `Stop`. -/
inductive WPath (c : WConf) (k : WSys) : WSys → Prop
  | refl : WPath c k k
  | step {a b : WSys} : WPath c k a → WStep c a b → received b.hist = received a.hist → b.stop = a.stop → WPath c k b

namespace WPath

variable {c : WConf} {k k' k'' : WSys}

theorem trans (h : WPath c k k') (h' : WPath c k' k'') : WPath c k k'' := by
  induction h' with
  | refl => exact h
  | step _ hs hr ht ih => exact .step ih hs hr ht

theorem one (hs : WStep c k k') (hr : received k'.hist = received k.hist) (ht : k'.stop = k.stop) : WPath c k k' := .step .refl hs hr ht

theorem run (h : WPath c k k') (hk : WRun c k) : WRun c k' := by
  induction h with
  | refl => exact hk
  | step _ hs _ _ ih =>
    obtain ⟨pages, now, h⟩ := ih
    exact ⟨pages, now, h.step hs⟩

theorem stop (h : WPath c k k') : k'.stop = k.stop := by
  induction h with
  | refl => rfl
  | step _ _ _ ht ih => exact ht.trans ih

end WPath

variable {c : WConf}

theorem received_other (h : List WEv) (e : WEv) (he : ∀ d t, e ≠ .recv d t) : received (h ++ [e]) = received h := by
  rw [received_snoc]
  cases e <;> simp_all

theorem received_expired (h : List WEv) (l : List RItem) (t : Int) : received (h ++ l.map fun g => .expired g.id t) = received h := by
  unfold received
  rw [List.flatMap_append, List.flatMap_map]
  simp

theorem received_evicted (h : List WEv) (l : List RItem) (t : Int) : received (h ++ l.map fun g => .evicted g.id t) = received h := by
  unfold received
  rw [List.flatMap_append, List.flatMap_map]
  simp

theorem ok_response : writeError (.status 204) = none := rfl

theorem running (k : WSys) (h : WRun c k) (hs : k.stop = false) : k.phase ≠ .stopped := by
  intro hp
  obtain ⟨pages, now, h⟩ := h
  have := stopped_told (fun h => by cases h) h hp
  rw [hs] at this; cases this

/-- The timer runs while chunks wait. -/
theorem armed (k : WSys) (h : WRun c k) : k.rphase = .select → k.queue ≠ [] → k.nextSend ≠ none := by
  obtain ⟨pages, now, h⟩ := h
  induction h with
  | refl => intro _ h; exact absurd rfl h
  | @step a b hab hst ih =>
    intro hr hq
    cases hst with
    | arm h =>
      dsimp only at hq ⊢
      have : 0 < a.queue.length := List.length_pos_iff.2 hq
      split
      · simp
      · rename_i hn
        simp only [gt_iff_lt, this, and_true] at hn
        exact hn
    | fire d gone b q hp hd ht hf => rw [(reportWrite_same c _).2.2.2.2.2.1] at hr; cases hr
    | finish i r hp => rw [(finishRetry_same c _ r).2.2.2.2.2.1] at hr; cases hr
    | input i buf q gone h1 h2 h3 => cases hr
    | fireEmpty d gone h1 h2 h3 h4 => cases hr
    | retryQuit h1 h2 => cases hr
    | _ => exact ih hr hq

/-- The retry worker gets to its `select`. -/
theorem retry_ready (k : WSys) (h : WRun c k) (hs : k.stop = false) (hc : 0 < c.retryBatches) :
    ∃ k', WPath c k k' ∧ k'.rphase = .select ∧ k'.phase = k.phase ∧ k'.ch = k.ch ∧ k'.batch = k.batch ∧ k'.queue.length ≤ k.queue.length := by
  have arm : ∀ k1 : WSys, k1.rphase = .top → ∃ k', WPath c k1 k' ∧ k'.rphase = .select ∧ k'.phase = k1.phase ∧ k'.ch = k1.ch ∧
      k'.batch = k1.batch ∧ k'.queue.length ≤ k1.queue.length :=
    fun k1 h1 => ⟨_, .one (.arm k1 h1) rfl rfl, rfl, rfl, rfl, rfl, Nat.le_refl _⟩
  cases hr : k.rphase with
  | top => exact arm k hr
  | select => exact ⟨k, .refl, hr, rfl, rfl, rfl, Nat.le_refl _⟩
  | writing i =>
    have hf := finishRetry_same c { k with rphase := .top, hist := k.hist ++ [.result i (.status 204) k.now] } (.status 204)
    have p1 : WPath c k _ := .one (.finish k i (.status 204) hr) (by rw [hf.2.1]; exact received_other _ _ (by simp)) hf.2.2.2.2.2.2.1
    obtain ⟨k', p2, h2, h3, h4, h5, h6⟩ := arm _ hf.2.2.2.2.2.1
    refine ⟨k', p1.trans p2, h2, h3.trans hf.1, h4.trans hf.2.2.2.2.1, h5.trans hf.2.2.1, Nat.le_trans h6 ?_⟩
    show (dropFront k.queue).length ≤ _
    cases k.queue <;> simp [dropFront]
  | stopped =>
    obtain ⟨pages, now, h'⟩ := h
    exact absurd ((C87_stops_only_when_told c pages now k h').2 hc hr) (running k ⟨pages, now, h'⟩ hs)

/-- The worker sends its chunks. -/
theorem send_all (rest : List Bytes) : ∀ (k : WSys), k.phase = .sending rest →
    ∃ k' w, WPath c k k' ∧ k'.phase = .select w ∧ k'.batch.bytes = [] ∧ k'.ch = k.ch ∧ k'.queue = k.queue ∧ k'.rphase = k.rphase := by
  induction rest with
  | nil => intro k hk; exact ⟨_, _, .one (.sent k hk) rfl rfl, rfl, rfl, rfl, rfl, rfl⟩
  | cons chunk rest ih =>
    intro k hk
    obtain ⟨k1, p1, e1, e2, e3, e4⟩ : ∃ k1, WPath c k k1 ∧ k1.phase = .sending rest ∧ k1.ch = k.ch ∧ k1.queue = k.queue ∧ k1.rphase = k.rphase :=
      ⟨_, .one (.firstOk k chunk rest (.status 204) hk ok_response) (received_other _ _ (by simp)) rfl, rfl, rfl, rfl, rfl⟩
    obtain ⟨k', w, p2, h1, h2, h3, h4, h5⟩ := ih k1 e1
    exact ⟨k', w, p1.trans p2, h1, h2, h3.trans e2, h4.trans e3, h5.trans e4⟩

/-- The worker gets to its `select`. -/
theorem settle (k : WSys) (h : WRun c k) (hs : k.stop = false) (hb : 1 ≤ c.batchMaxSize) :
    ∃ k' w, WPath c k k' ∧ k'.phase = .select w := by
  cases hp : k.phase with
  | select w => exact ⟨k, w, .refl, hp⟩
  | check =>
    cases hc : wShouldSend c k.batch k.now with
    | false => exact ⟨_, _, .one (.keep k hp hc) rfl rfl, rfl⟩
    | true =>
      obtain ⟨cs, h1, -⟩ := splitAll_spec k.batch.bytes c.batchMaxSize hb
      obtain ⟨k1, p1, e1⟩ : ∃ k1, WPath c k k1 ∧ k1.phase = .sending cs := ⟨_, .one (.flush k cs hp hc h1) (received_other _ _ (by simp)) rfl, rfl⟩
      obtain ⟨k', w, p2, h2, -⟩ := send_all cs k1 e1
      exact ⟨k', w, p1.trans p2, h2⟩
  | sending rest =>
    obtain ⟨k', w, p, h1, -⟩ := send_all rest k hp
    exact ⟨k', w, p, h1⟩
  | handoff i chunk rest =>
    have hc : 0 < c.retryBatches := by
      refine Classical.byContradiction fun hc => ?_
      have := (h.inv.off hc).2.2
      rw [hp] at this
      simp [transit] at this
    have fin : ∀ k1 : WSys, k1.phase = .handoff i chunk rest → k1.ch = none → ∃ k' w, WPath c k1 k' ∧ k'.phase = .select w := by
      intro k1 h1 h2
      obtain ⟨k2, p1, e1⟩ : ∃ k2, WPath c k1 k2 ∧ k2.phase = .sending rest := ⟨_, .one (.handoff k1 i chunk rest h1 h2) rfl rfl, rfl⟩
      obtain ⟨k', w, p2, h3, -⟩ := send_all rest k2 e1
      exact ⟨k', w, p1.trans p2, h3⟩
    cases hch : k.ch with
    | none => exact fin k hp hch
    | some x =>
      obtain ⟨j, buf⟩ := x
      obtain ⟨k1, p1, h1, h2, h3, -⟩ := retry_ready k h hs hc
      cases hq : queueAdd c.retryBatches c.retryTimeout k1.now k1.queue j buf with
      | mk q gone =>
      obtain ⟨k2, p2, e1, e2⟩ : ∃ k2, WPath c k1 k2 ∧ k2.phase = k1.phase ∧ k2.ch = none :=
        ⟨_, .one (.input k1 j buf q gone h1 (h3.trans hch) hq) ((received_other _ _ (by simp)).trans (received_evicted _ _ _)) rfl, rfl, rfl⟩
      obtain ⟨k', w, p3, h4⟩ := fin k2 (e1.trans (h2.trans hp)) e2
      exact ⟨k', w, (p1.trans p2).trans p3, h4⟩
  | stopped => exact absurd hp (running k h hs)

/-- The worker sends its batch. -/
theorem flush_all (k : WSys) (h : WRun c k) (hs : k.stop = false) (hb : 1 ≤ c.batchMaxSize) :
    ∃ k' w, WPath c k k' ∧ k'.phase = .select w ∧ k'.batch.bytes = [] := by
  obtain ⟨k1, w, p1, h1⟩ := settle k h hs hb
  cases hbt : k1.batch.bytes with
  | nil => exact ⟨k1, w, p1, h1, hbt⟩
  | cons x xs =>
    have I := (p1.run h).binv
    obtain ⟨hb1, hb2, -⟩ := I.settled (by rw [h1]; rfl)
    have hw : 0 < k1.batch.writes := by
      rw [hb2]
      apply List.length_pos_iff.2
      intro hn
      rw [hn] at hb1
      have : k1.batch.bytes = dataOf [] := hb1
      rw [hbt] at this
      cases this
    let t : Int := max k1.now (max w (k1.batch.created + c.batchMaxAge))
    have p2 : WPath c k1 { k1 with now := t } := .one (.tick k1 t (by omega)) rfl rfl
    obtain ⟨kc, p3, c1, c2, c3⟩ : ∃ kc, WPath c { k1 with now := t } kc ∧ kc.phase = .check ∧ kc.batch = k1.batch ∧ kc.now = t :=
      ⟨_, .one (.wake _ w h1 (by show w ≤ t; omega)) rfl rfl, rfl, rfl, rfl⟩
    obtain ⟨cs, h2, -⟩ := splitAll_spec k1.batch.bytes c.batchMaxSize hb
    have hsend : wShouldSend c k1.batch t = true := by
      unfold wShouldSend Batch.age
      rw [if_neg (by omega)]
      have : t - k1.batch.created ≥ c.batchMaxAge := by omega
      simp only [this, decide_true, Bool.or_true]
    obtain ⟨k2, p4, e1⟩ : ∃ k2, WPath c kc k2 ∧ k2.phase = .sending cs :=
      ⟨_, .one (.flush kc cs c1 (by rw [c2, c3]; exact hsend) (by rw [c2]; exact h2)) (received_other _ _ (by simp)) rfl, rfl⟩
    obtain ⟨k', w', p5, h5, h6, -⟩ := send_all cs k2 e1
    exact ⟨k', w', (((p1.trans p2).trans p3).trans p4).trans p5, h5, h6⟩

/-- The retry worker writes all chunks that wait. -/
theorem retry_all (hc : 0 < c.retryBatches) (n : Nat) : ∀ (k : WSys), WRun c k → k.stop = false → k.ch = none → k.queue.length ≤ n →
    ∃ k', WPath c k k' ∧ k'.phase = k.phase ∧ k'.batch = k.batch ∧ k'.ch = none ∧ k'.queue = [] := by
  induction n with
  | zero =>
    intro k _ _ hch hq
    exact ⟨k, .refl, rfl, rfl, hch, List.length_eq_zero_iff.1 (by omega)⟩
  | succ n ih =>
    intro k h hs hch hq
    obtain ⟨k1, p1, h1, h2, h3, h4, h5⟩ := retry_ready k h hs hc
    have r1 := p1.run h
    have s1 : k1.stop = false := p1.stop.trans hs
    by_cases hq1 : k1.queue = []
    · exact ⟨k1, p1, h2, h4, h3.trans hch, hq1⟩
    · cases hn : k1.nextSend with
      | none => exact absurd hn (armed k1 r1 h1 hq1)
      | some t0 =>
        let t : Int := max k1.now t0
        have p2 : WPath c k1 { k1 with now := t } := .one (.tick k1 t (by omega)) rfl rfl
        have p12 := p1.trans p2
        cases hf : queueFront t k1.queue with
        | mk gone rest =>
          have hsp := (queueFront_spec t k1.queue gone rest hf).1
          cases rest with
          | nil =>
            have p3 := WPath.one (.fireEmpty (c := c) { k1 with now := t } t0 gone h1 hn (by show t0 ≤ t; omega) hf) (received_expired _ _ _) rfl
            exact ⟨_, p12.trans p3, h2, h4, h3.trans hch, rfl⟩
          | cons b q =>
            obtain ⟨k2, p3, hr1, hr2, hr3, hr4, hq2⟩ : ∃ k2, WPath c { k1 with now := t } k2 ∧ k2.rphase = .writing b.id ∧ k2.phase = k1.phase ∧
                k2.batch = k1.batch ∧ k2.ch = k1.ch ∧ k2.queue = b :: q := by
              have hst := WStep.fire (c := c) { k1 with now := t } t0 gone b q h1 hn (by show t0 ≤ t; omega) hf
              refine ⟨_, .one hst ?_ ?_, ?_, ?_, ?_, ?_, ?_⟩
              · rw [(reportWrite_same c _).2.1]; exact (received_other _ _ (by simp)).trans (received_expired _ _ _)
              · rw [(reportWrite_same c _).2.2.2.2.2.2.1]
              · rw [(reportWrite_same c _).2.2.2.2.2.1]
              · rw [(reportWrite_same c _).1]
              · rw [(reportWrite_same c _).2.2.1]
              · rw [(reportWrite_same c _).2.2.2.2.1]
              · unfold WSys.reportWrite; split <;> rfl
            have hfs := finishRetry_same c { k2 with rphase := .top, hist := k2.hist ++ [.result b.id (.status 204) k2.now] } (.status 204)
            have p4 := WPath.one (.finish (c := c) k2 b.id (.status 204) hr1) (by rw [hfs.2.1]; exact received_other _ _ (by simp)) hfs.2.2.2.2.2.2.1
            have p := (p12.trans p3).trans p4
            have hq3 : (WSys.finishRetry c { k2 with rphase := .top, hist := k2.hist ++ [.result b.id (.status 204) k2.now] } (.status 204)).queue = q := by
              show dropFront k2.queue = q
              rw [hq2]; rfl
            obtain ⟨k', p5, g1, g2, g3, g4⟩ := ih _ (p.run h) (p.stop.trans hs) (hfs.2.2.2.2.1.trans (hr4.trans (h3.trans hch))) (by
              rw [hq3]
              rw [hsp] at h5
              simp only [List.length_append, List.length_cons] at h5
              omega)
            exact ⟨k', p.trans p5, g1.trans (hfs.1.trans (hr2.trans h2)), g2.trans (hfs.2.2.1.trans (hr3.trans h4)), g3, g4⟩

/-- A worker without anything left to do: nothing to send, nothing on the way to or in the retry queue. -/
structure Rest (k : WSys) : Prop where
  unsent : unsentBytes k = []
  handoff : ∀ i chunk rest, k.phase ≠ .handoff i chunk rest
  ch : k.ch = none
  queue : k.queue = []

/-- A worker that is not stopped can finish. -/
theorem finish_all (k : WSys) (h : WRun c k) (hs : k.stop = false) (hb : 1 ≤ c.batchMaxSize) :
    ∃ k' w, WPath c k k' ∧ k'.phase = .select w ∧ Rest k' := by
  obtain ⟨k1, w, p1, h1, h2⟩ := flush_all k h hs hb
  have r1 := p1.run h
  have s1 : k1.stop = false := p1.stop.trans hs
  have hu : ∀ k' : WSys, k'.phase = k1.phase → k'.batch = k1.batch → unsentBytes k' = [] := by
    intro k' e1 e2
    unfold unsentBytes
    rw [e1, h1]
    dsimp only
    rw [e2, h2]
  by_cases hc : 0 < c.retryBatches
  · have hch : ∃ k2, WPath c k1 k2 ∧ k2.phase = k1.phase ∧ k2.batch = k1.batch ∧ k2.ch = none := by
      cases hch : k1.ch with
      | none => exact ⟨k1, .refl, rfl, rfl, hch⟩
      | some x =>
        obtain ⟨j, buf⟩ := x
        obtain ⟨k2, p2, g1, g2, g3, g4, -⟩ := retry_ready k1 r1 s1 hc
        cases hq : queueAdd c.retryBatches c.retryTimeout k2.now k2.queue j buf with
        | mk q gone =>
          have p3 : WPath c k2 _ := .one (.input k2 j buf q gone g1 (g3.trans hch) hq)
            ((received_other _ _ (by simp)).trans (received_evicted _ _ _)) rfl
          exact ⟨_, p2.trans p3, g2, g4, rfl⟩
    obtain ⟨k2, p2, g1, g2, g3⟩ := hch
    obtain ⟨k', p3, e1, e2, e3, e4⟩ := retry_all hc k2.queue.length k2 (p2.run r1) (p2.stop.trans s1) g3 (Nat.le_refl _)
    exact ⟨k', w, (p1.trans p2).trans p3, e1.trans (g1.trans h1), hu k' (e1.trans g1) (e2.trans g2), (fun i x rest h => by rw [e1.trans (g1.trans h1)] at h; cases h), e3, e4⟩
  · obtain ⟨h3, h4, h5⟩ := r1.inv.off hc
    refine ⟨k1, w, p1, h1, hu k1 rfl rfl, (fun i x rest h => by rw [h1] at h; cases h), ?_, h4⟩
    unfold transit at h5
    cases hch : k1.ch with
    | none => rfl
    | some x => rw [hch] at h5; simp at h5

end Spout.Spec
