import Verif.Props.WriterStats

/-! # The writer works until it is stopped (C87) -/

namespace Spout

theorem step_stop {c : WConf} {s s' : WSys} (h : WStep c s s') : s' = { s with stop := true } ∨ s'.stop = s.stop := by
  cases h with
  | stop => exact Or.inl rfl
  | fire d gone b q hp hd ht hf => right; unfold WSys.reportWrite; split <;> rfl
  | finish i r hp => right; exact (finishRetry_same c _ r).2.2.2.2.2.2.1
  | _ => right; rfl

theorem stopped_told {c : WConf} {s0 s : WSys} (h0 : s0.phase ≠ .stopped) (h : WReach c s0 s) (hp : s.phase = .stopped) :
    s.stop = true := by
  induction h with
  | refl => exact absurd hp h0
  | step _ hst ih =>
    cases hst with
    | quit w _ hs => exact hs
    | stop => rfl
    | fire d gone b q hp' hd ht hf =>
      rw [(reportWrite_same c _).1] at hp
      rw [(reportWrite_same c _).2.2.2.2.2.2.1]
      exact ih hp
    | finish i r hp' =>
      rw [(finishRetry_same c _ r).1] at hp
      rw [(finishRetry_same c _ r).2.2.2.2.2.2.1]
      exact ih hp
    | tick t ht => exact ih hp
    | arm h => exact ih hp
    | input i buf q gone h1 h2 h3 => exact ih hp
    | fireEmpty d gone h1 h2 h3 h4 => exact ih hp
    | retryQuit h1 h2 => exact ih h2
    | firstFail chunk rest r e h1 h2 =>
      dsimp only at hp
      split at hp <;> cases hp
    | _ => cases hp

/-- **C87.** The worker ends only after `Stop` has been called: its run has a moment before which it had not been called, at which it was called, and
after which it ended.  The retry worker ends only after the worker. -/
theorem C87_stops_only_when_told (c : WConf) (pages : Nat) (now : Int) (s : WSys)
    (h : WReach c (WSys.start c pages now) s) :
    (s.phase = .stopped → ∃ s1, WReach c (WSys.start c pages now) s1 ∧ s1.stop = false ∧ s1.phase ≠ .stopped ∧
      WReach c { s1 with stop := true } s) ∧
    (0 < c.retryBatches → s.rphase = .stopped → s.phase = .stopped) := by
  have hstart : (WSys.start c pages now).phase ≠ .stopped := fun h => by cases h
  constructor
  · intro hp
    have ht := stopped_told hstart h hp
    clear hp
    induction h with
    | refl => cases ht
    | @step a b hab hst ih =>
      cases hs : a.stop with
      | true =>
        obtain ⟨s1, h1, h2, h3, h4⟩ := ih hs
        exact ⟨s1, h1, h2, h3, .step h4 hst⟩
      | false =>
        rcases step_stop hst with e | e
        · subst e
          refine ⟨a, hab, hs, ?_, .refl _⟩
          intro hpa
          have := stopped_told hstart hab hpa
          rw [hs] at this; cases this
        · rw [e, hs] at ht; cases ht
  · intro hc
    induction h with
    | refl =>
      intro hr
      have : (WSys.start c pages now).rphase = .top := by unfold WSys.start; simp [hc]
      rw [this] at hr; cases hr
    | @step a b hab hst ih =>
      intro hr
      cases hst with
      | retryQuit h1 h2 => exact h2
      | fire d gone b q hp hd ht hf => rw [(reportWrite_same c _).2.2.2.2.2.1] at hr; cases hr
      | finish i r hp => rw [(finishRetry_same c _ r).2.2.2.2.2.1] at hr; cases hr
      | tick t ht => exact ih hr
      | stop => exact ih hr
      | quit w h1 h2 => rfl
      | arm h => cases hr
      | input i buf q gone h1 h2 h3 => cases hr
      | fireEmpty d gone h1 h2 h3 h4 => cases hr
      | recv w data b h1 h2 => have := ih hr; rw [h1] at this; cases this
      | gotWrite w n h1 h2 => have := ih hr; rw [h1] at this; cases this
      | gotError w n h1 h2 => have := ih hr; rw [h1] at this; cases this
      | wake w h1 h2 => have := ih hr; rw [h1] at this; cases this
      | keep h1 h2 => have := ih hr; rw [h1] at this; cases this
      | flush chunks h1 h2 h3 => have := ih hr; rw [h1] at this; cases this
      | firstOk chunk rest r h1 h2 => have := ih hr; rw [h1] at this; cases this
      | firstFail chunk rest r e h1 h2 => have := ih hr; rw [h1] at this; cases this
      | handoff i chunk rest h1 h2 => have := ih hr; rw [h1] at this; cases this
      | sent h1 => have := ih hr; rw [h1] at this; cases this

/-- A worker that has been stopped. -/
example : ∃ s, WReach ⟨10, 1000, 10, [], 100, 5, 1000⟩ (WSys.start ⟨10, 1000, 10, [], 100, 5, 1000⟩ 100 0) s ∧ s.phase = .stopped :=
  ⟨_, .step (.step (.refl _) (.stop _)) (.quit _ 1000000000 rfl rfl), rfl⟩

end Spout
