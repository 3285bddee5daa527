import Verif.Props.WriterStats

set_option linter.unusedSimpArgs false

/-! # Retries are not postponed (C71) -/

namespace Spout
open Spec

/-- A run in which the retry worker is never late: no time passes between its writes and its waiting, and it does
not oversleep its timer. -/
inductive RPrompt (c : WConf) : WSys → WSys → Prop
  | refl (s : WSys) : RPrompt c s s
  | step {a b d : WSys} : RPrompt c a b → WStep c b d → (b.rphase = .top → d.now = b.now) →
      (∀ t, b.rphase = .select → b.nextSend = some t → d.now ≤ max b.now t) → RPrompt c a d

theorem RPrompt.reach {c : WConf} {a b : WSys} (h : RPrompt c a b) : WReach c a b := by
  induction h with
  | refl => exact .refl _
  | step _ hst _ _ ih => exact ih.step hst

/-- Time `d` is within the retry interval of the queueing of each held chunk, or of the end of a retry. -/
def Within (c : WConf) (h : List WEv) (d : Int) : Prop :=
  ∀ i tq, Held h i → .queued i tq ∈ h → d ≤ tq + c.retryInterval ∨ ∃ j r t, .result j r t ∈ h ∧ d ≤ t + c.retryInterval

/-- Events that put nothing in the queue. -/
theorem held_of_snoc {h es : List WEv} {i : Nat} (hn : ∀ j t, .queued j t ∉ es) (hh : Held (h ++ es) i) : Held h i := by
  obtain ⟨⟨t, h1⟩, h2⟩ := hh
  refine ⟨⟨t, ?_⟩, fun e he => h2 e (by simp [he])⟩
  rcases List.mem_append.1 h1 with h1 | h1
  · exact h1
  · exact absurd h1 (hn i t)

theorem Within.snoc {c : WConf} {h es : List WEv} {d : Int} (hw : Within c h d) (hn : ∀ j t, .queued j t ∉ es) :
    Within c (h ++ es) d := by
  intro i tq hh hq
  have hh' := held_of_snoc hn hh
  have hq' : .queued i tq ∈ h := by
    rcases List.mem_append.1 hq with hq | hq
    · exact hq
    · exact absurd hq (hn i tq)
  rcases hw i tq hh' hq' with h1 | ⟨j, r, t, h1, h2⟩
  · exact Or.inl h1
  · exact Or.inr ⟨j, r, t, by simp [h1], h2⟩

structure TimerInv (c : WConf) (s : WSys) : Prop where
  armed : s.rphase ≠ .stopped → ∀ d, s.nextSend = some d → s.now ≤ d ∧ d ≤ s.now + c.retryInterval ∧ Within c s.hist d ∧
    (s.rphase = .top ∨ s.rphase = .select)
  waiting : s.rphase = .select → s.nextSend = none → ∀ i, ¬ Held s.hist i
  top : s.rphase = .top → s.nextSend = none → ∀ i tq, Held s.hist i → .queued i tq ∈ s.hist →
    s.now ≤ tq ∨ ∃ j r t, .result j r t ∈ s.hist ∧ s.now ≤ t

/-- Steps of the worker. -/
theorem TimerInv.mono {c : WConf} {s s' : WSys} (I : TimerInv c s) (es : List WEv) (hn : ∀ j t, .queued j t ∉ es)
    (h1 : s'.hist = s.hist ++ es) (h2 : s'.nextSend = s.nextSend) (h3 : s'.rphase = s.rphase) (h4 : s'.now = s.now) :
    TimerInv c s' := by
  obtain ⟨i1, i2, i3⟩ := I
  refine ⟨?_, ?_, ?_⟩
  · intro hns d hd
    rw [h2] at hd
    rw [h3] at hns
    obtain ⟨a1, a2, a3, a4⟩ := i1 hns d hd
    rw [h4, h1, h3]
    exact ⟨a1, a2, a3.snoc hn, a4⟩
  · intro hr hd i hh
    rw [h3] at hr; rw [h2] at hd; rw [h1] at hh
    exact i2 hr hd i (held_of_snoc hn hh)
  · intro hr hd i tq hh hq
    rw [h3] at hr; rw [h2] at hd; rw [h1] at hh hq
    have hq' : .queued i tq ∈ s.hist := by
      rcases List.mem_append.1 hq with hq | hq
      · exact hq
      · exact absurd hq (hn i tq)
    rw [h4, h1]
    rcases i3 hr hd i tq (held_of_snoc hn hh) hq' with h | ⟨j, r, t, h, h'⟩
    · exact Or.inl h
    · exact Or.inr ⟨j, r, t, by simp [h], h'⟩

theorem finishRetry_nextSend (c : WConf) (s : WSys) (r : Resp) : (s.finishRetry c r).nextSend = s.nextSend := by
  unfold WSys.finishRetry WSys.reportError
  cases writeError r with
  | none => rfl
  | some e =>
    dsimp only
    cases isPermanentError (some e) <;> simp only [Bool.false_eq_true, if_false, if_true] <;> split <;> rfl

theorem timerInv {c : WConf} (hint : 0 ≤ c.retryInterval) {s0 s : WSys} (I0 : TimerInv c s0) (Q0 : SysInv c s0)
    (h : RPrompt c s0 s) : TimerInv c s ∧ SysInv c s := by
  induction h with
  | refl => exact ⟨I0, Q0⟩
  | @step b d hab hst htop hsel ih =>
    obtain ⟨I, Q⟩ := ih
    have Q' := sysInv_step Q hst
    refine ⟨?_, Q'⟩
    have same : ∀ s' : WSys, s'.hist = b.hist → s'.nextSend = b.nextSend → s'.rphase = b.rphase → s'.now = b.now → TimerInv c s' := by
      intro s' h1 h2 h3 h4
      exact I.mono [] (by simp) (by rw [h1, List.append_nil]) h2 h3 h4
    cases hst with
    | tick t ht =>
      dsimp only at htop hsel
      obtain ⟨i1, i2, i3⟩ := I
      refine ⟨?_, i2, ?_⟩
      · intro hns d hd
        obtain ⟨a1, a2, a3, a4⟩ := i1 hns d hd
        refine ⟨?_, by dsimp only; omega, a3, a4⟩
        rcases a4 with a4 | a4
        · have := htop a4; dsimp only; omega
        · have := hsel d a4 hd; dsimp only; omega
      · intro hr hd
        have := htop hr
        dsimp only at hr hd ⊢
        rw [this]
        exact i3 hr hd
    | stop => exact same _ rfl rfl rfl rfl
    | recv w data b' hp hb => exact I.mono [_] (by simp) rfl rfl rfl rfl
    | gotWrite w n hp hn => exact same _ rfl rfl rfl rfl
    | gotError w n hp hn => exact same _ rfl rfl rfl rfl
    | wake w hp hw => exact same _ rfl rfl rfl rfl
    | quit w hp hs => exact same _ rfl rfl rfl rfl
    | keep hp h => exact same _ rfl rfl rfl rfl
    | flush chunks hp h hc => exact I.mono [_] (by simp) rfl rfl rfl rfl
    | firstOk chunk rest r hp hr => exact I.mono [_] (by simp) rfl rfl rfl rfl
    | firstFail chunk rest r e hp hr => exact I.mono [_] (by simp) rfl rfl rfl rfl
    | handoff i chunk rest hp hc => exact same _ rfl rfl rfl rfl
    | sent hp => exact same _ rfl rfl rfl rfl
    | arm hp =>
      obtain ⟨i1, i2, i3⟩ := I
      refine ⟨?_, ?_, ?_⟩
      · intro _ d hd
        dsimp only at hd ⊢
        split at hd
        · rename_i hc
          injection hd with hd
          refine ⟨by omega, by omega, ?_, Or.inr rfl⟩
          intro i tq hh hq
          rcases i3 hp hc.1 i tq hh hq with h | ⟨j, r, t, h, h'⟩
          · left; omega
          · right; exact ⟨j, r, t, h, by omega⟩
        · obtain ⟨a1, a2, a3, -⟩ := i1 (by rw [hp]; intro h; cases h) d hd
          exact ⟨a1, a2, a3, Or.inr rfl⟩
      · intro _ hn i hh
        dsimp only at hn hh
        split at hn
        · cases hn
        · rename_i hc
          have hq := (Q.q.held i).1 hh
          apply hc
          refine ⟨hn, ?_⟩
          cases hbq : b.queue with
          | nil => rw [hbq] at hq; cases hq
          | cons x xs => simp
      · intro h; cases h
    | input i buf q gone hp hc hq =>
      obtain ⟨i1, i2, i3⟩ := I
      have hrule := Q'.q.always (b.hist ++ (gone.toList.map fun g => .evicted g.id b.now)) (.queued i b.now) [] rfl
      have hsplit : ∀ j tq, Held (b.hist ++ (gone.toList.map fun g => .evicted g.id b.now) ++ [.queued i b.now]) j →
          .queued j tq ∈ b.hist ++ (gone.toList.map fun g => .evicted g.id b.now) ++ [.queued i b.now] →
          (j = i ∧ tq = b.now) ∨ (Held b.hist j ∧ .queued j tq ∈ b.hist) := by
        intro j tq hh hj
        rcases List.mem_append.1 hj with hj | hj
        · have hj' : .queued j tq ∈ b.hist := by
            rcases List.mem_append.1 hj with hj | hj
            · exact hj
            · obtain ⟨g, -, hg⟩ := List.mem_map.1 hj; cases hg
          exact Or.inr ⟨⟨⟨tq, hj'⟩, fun e he => hh.2 e (by simp [he])⟩, hj'⟩
        · simp at hj
          exact Or.inl hj
      refine ⟨?_, (fun h => by cases h), ?_⟩
      · intro _ d hd
        obtain ⟨a1, a2, a3, -⟩ := i1 (by rw [hp]; intro h; cases h) d hd
        refine ⟨a1, a2, ?_, Or.inl rfl⟩
        intro j tq hh hj
        rcases hsplit j tq hh hj with ⟨-, h⟩ | ⟨h, h'⟩
        · left; omega
        · rcases a3 j tq h h' with h | ⟨k, r, t, h, h'⟩
          · exact Or.inl h
          · exact Or.inr ⟨k, r, t, by simp [h], h'⟩
      · intro _ hn j tq hh hj
        rcases hsplit j tq hh hj with ⟨-, h⟩ | ⟨h, h'⟩
        · left; dsimp only; omega
        · exact absurd h (i2 hp hn j)
    | fireEmpty dl gone hp hd ht hf =>
      have hq := Q'.q.held
      refine ⟨?_, (fun h => by cases h), ?_⟩
      · intro _ d hd'; cases hd'
      · intro _ _ i tq hh
        have := (hq i).1 hh
        cases this
    | fire dl gone b' q hp hd ht hf =>
      unfold WSys.reportWrite
      split
      all_goals
        refine ⟨?_, (fun h => by cases h), (fun h => by cases h)⟩
        intro _ d hd'; cases hd'
    | finish i r hp =>
      have hns : b.nextSend = none := by
        cases hn : b.nextSend with
        | none => rfl
        | some d =>
          rcases (I.armed (by rw [hp]; intro h; cases h) d hn).2.2.2 with h | h <;> rw [hp] at h <;> cases h
      obtain ⟨f1, f2, -, f4, -, f6, -⟩ := finishRetry_same c { b with rphase := .top, hist := b.hist ++ [.result i r b.now] } r
      refine ⟨?_, ?_, ?_⟩
      · intro _ d hd
        rw [finishRetry_nextSend] at hd
        dsimp only at hd
        rw [hns] at hd
        cases hd
      · intro h; rw [f6] at h; cases h
      · intro _ _ j tq _ _
        right
        rw [f2, f4]
        exact ⟨i, r, b.now, by simp, Int.le_refl _⟩
    | retryQuit hp hw =>
      exact ⟨(fun h => absurd rfl h), (fun h => by cases h), (fun h => by cases h)⟩

/-- **C71.** If the retry worker is scheduled promptly, retries are neither forgotten nor postponed by new failures:
as long as the worker has not stopped, whenever a chunk is held and no retry is in progress, at most
`writer_retry_interval` has passed since that chunk was queued or since the end of some retry.  (With
`C40_rotation`: every held chunk gets its turn after at most one retry of each other one.) -/
theorem C71_retries_timely (c : WConf) (hint : 0 ≤ c.retryInterval) (pages : Nat) (now : Int) (s : WSys)
    (h : RPrompt c (WSys.start c pages now) s) (hp : s.phase ≠ .stopped) (hw : ∀ i, s.rphase ≠ .writing i)
    (i : Nat) (tq : Int) (hh : Held s.hist i) (hq : .queued i tq ∈ s.hist) :
    s.now ≤ tq + c.retryInterval ∨ ∃ j r t, .result j r t ∈ s.hist ∧ s.now ≤ t + c.retryInterval := by
  have hrun : WRun c s := ⟨pages, now, h.reach⟩
  obtain ⟨I, Q⟩ := timerInv hint (s0 := WSys.start c pages now) ⟨(by simp [WSys.start]), (by
      intro _ _ i hh; obtain ⟨⟨t, ht⟩, -⟩ := hh; cases ht), (by
      intro _ _ i tq hh; obtain ⟨⟨t, ht⟩, -⟩ := hh; cases ht)⟩ (sysInv_start c pages now) h
  have hns : s.rphase ≠ .stopped := by
    intro hs
    by_cases hr : 0 < c.retryBatches
    · exact hp (hrun.retry_alive hr hs)
    · have hqe := (Q.off hr).2.1
      have := (Q.q.held i).1 hh
      rw [hqe] at this
      cases this
  cases hn : s.nextSend with
  | some d =>
    obtain ⟨a1, -, a3, -⟩ := I.armed hns d hn
    rcases a3 i tq hh hq with h | ⟨j, r, t, h, h'⟩
    · left; omega
    · exact Or.inr ⟨j, r, t, h, by omega⟩
  | none =>
    cases hr : s.rphase with
    | stopped => exact absurd hr hns
    | writing j => exact absurd hr (hw j)
    | select => exact absurd hh (I.waiting hr hn i)
    | top =>
      rcases I.top hr hn i tq hh hq with h | ⟨j, r, t, h, h'⟩
      · left; omega
      · exact Or.inr ⟨j, r, t, h, by omega⟩

/-- Prompt schedules of the retry worker. -/
def rActs (c : WConf) (s : WSys) : List WAct → Option WSys
  | [] => some s
  | a :: as => (wAct c s a).bind fun s' =>
    if (s.rphase = .top → s'.now = s.now) ∧ (s.rphase = .select → s'.now ≤ max s.now (s.nextSend.getD s'.now)) then rActs c s' as
    else none

theorem rActs_sound {c : WConf} {s0 s s' : WSys} {as : List WAct} (h0 : RPrompt c s0 s) (h : rActs c s as = some s') :
    RPrompt c s0 s' := by
  induction as generalizing s with
  | nil => simp only [rActs] at h; injection h with h; subst h; exact h0
  | cons a as ih =>
    simp only [rActs] at h
    cases ha : wAct c s a with
    | none => rw [ha] at h; cases h
    | some s1 =>
      rw [ha] at h
      simp only [Option.bind_some] at h
      split at h
      · rename_i hok
        refine ih (h0.step (wAct_sound ha) hok.1 ?_) h
        intro t hr ht
        have := hok.2 hr
        rw [ht] at this
        exact this
      · cases h

/-- A chunk is queued at 0, the next at 3, which does not postpone the retry of the first at 5. -/
example : ∃ s, RPrompt exWConf (WSys.start exWConf 1000 0) s ∧ s.phase ≠ .stopped ∧ s.rphase = .select ∧ s.now = 5 ∧
    .queued 0 0 ∈ s.hist ∧ .queued 1 3 ∈ s.hist ∧ s.nextSend = some 5 := by
  have h : (rActs exWConf (WSys.start exWConf 1000 0)
      (exFail b!"a v=1\n" .transport ++ [.arm, .tick 3, .recv b!"b v=1\n", .check, .first .transport, .handoff, .sent, .input, .arm, .tick 5])).map
      (fun s => (s.phase, s.rphase, s.now, s.nextSend, s.hist)) =
    some (.select (3 + second), .select, 5, some 5,
      [.recv b!"a v=1\n" 0, .flush b!"a v=1\n" 0, .first 0 b!"a v=1\n" .transport 0, .queued 0 0,
       .recv b!"b v=1\n" 3, .flush b!"b v=1\n" 3, .first 1 b!"b v=1\n" .transport 3, .queued 1 3]) := by decide +kernel
  cases hs : rActs exWConf (WSys.start exWConf 1000 0)
      (exFail b!"a v=1\n" .transport ++ [.arm, .tick 3, .recv b!"b v=1\n", .check, .first .transport, .handoff, .sent, .input, .arm, .tick 5]) with
  | none => rw [hs] at h; cases h
  | some s =>
    rw [hs] at h
    simp only [Option.map_some, Option.some.injEq, Prod.mk.injEq] at h
    obtain ⟨h1, h2, h3, h4, h5⟩ := h
    refine ⟨s, rActs_sound (.refl _) hs, (by rw [h1]; simp), h2, h3, by rw [h5]; simp, by rw [h5]; simp, h4⟩

end Spout
