import Verif.Lemmas.LifecycleWF

/-! # Readiness, and what is open before `stop` is closed -/

set_option linter.unusedSimpArgs false

namespace Spout.Lifecycle

/-! ## Membership in what a program leaves behind -/

theorem replay_subs (l : List Op) (i : Nat) (h : .subscribe i ∈ l) (h1 : ∀ j, .unsubscribe j ∉ l)
    (h2 : .unsubscribeAll ∉ l) : i ∈ (replay l).subs := by
  have key : ∀ (l : List Op) (s : Shared), (∀ j, Op.unsubscribe j ∉ l) → Op.unsubscribeAll ∉ l →
      (i ∈ s.subs ∨ Op.subscribe i ∈ l) → i ∈ (l.foldl eff s).subs := by
    intro l
    induction l with
    | nil => intro s _ _ h; simpa using h
    | cons o l ih =>
      intro s h1 h2 h
      rw [List.foldl_cons]
      apply ih _ (fun j hj => h1 j (List.mem_cons_of_mem _ hj)) (fun hj => h2 (List.mem_cons_of_mem _ hj))
      rcases h with h | h
      · left
        cases o with
        | listen => dsimp only [eff]; split <;> exact h
        | subscribe j => exact List.mem_cons_of_mem _ h
        | unsubscribe j => exact absurd (by simp) (h1 j)
        | unsubscribeAll => exact absurd (by simp) h2
        | _ => exact h
      · rcases List.mem_cons.1 h with e | h
        · left; rw [← e]; simp [eff]
        · exact Or.inr h
  exact key l shared0 h1 h2 (Or.inr h)

theorem replay_limited (l : List Op) (i : Nat) (h : .limits i ∈ l) : i ∈ (replay l).limited := by
  have key : ∀ (l : List Op) (s : Shared), (i ∈ s.limited ∨ Op.limits i ∈ l) → i ∈ (l.foldl eff s).limited := by
    intro l
    induction l with
    | nil => intro s h; simpa using h
    | cons o l ih =>
      intro s h
      rw [List.foldl_cons]
      apply ih
      rcases h with h | h
      · left
        cases o with
        | listen => dsimp only [eff]; split <;> exact h
        | limits j => exact List.mem_cons_of_mem _ h
        | _ => exact h
      · rcases List.mem_cons.1 h with e | h
        · left; rw [← e]; simp [eff]
        · exact Or.inr h
  exact key l shared0 (Or.inr h)

theorem replay_flushed (l : List Op) : (replay l).flushed = true ↔ .flush ∈ l := by
  have key : ∀ (l : List Op) (s : Shared), (l.foldl eff s).flushed = true ↔ s.flushed = true ∨ Op.flush ∈ l := by
    intro l
    induction l with
    | nil => simp
    | cons o l ih =>
      intro s
      rw [List.foldl_cons, ih]
      cases o with
      | listen => dsimp only [eff]; split <;> simp
      | flush => simp [eff]
      | _ => simp [eff]
  rw [replay, key]
  simp [shared0]

theorem replay_live_mem (l : List Op) (r : Resource) (h : .acquire r ∈ l) (h1 : ∀ q, .release q ∉ l)
    (h2 : ∀ q, .releaseIfSet q ∉ l) : r ∈ (replay l).live := by
  have key : ∀ (l : List Op) (s : Shared), (∀ q, Op.release q ∉ l) → (∀ q, Op.releaseIfSet q ∉ l) →
      (r ∈ s.live ∨ Op.acquire r ∈ l) → r ∈ (l.foldl eff s).live := by
    intro l
    induction l with
    | nil => intro s _ _ h; simpa using h
    | cons o l ih =>
      intro s h1 h2 h
      rw [List.foldl_cons]
      apply ih _ (fun j hj => h1 j (List.mem_cons_of_mem _ hj)) (fun j hj => h2 j (List.mem_cons_of_mem _ hj))
      rcases h with h | h
      · left
        cases o with
        | listen => dsimp only [eff]; split <;> exact h
        | acquire j => exact List.mem_cons_of_mem _ h
        | release j => exact absurd (by simp) (h1 j)
        | releaseIfSet j => exact absurd (by simp) (h2 j)
        | _ => exact h
      · rcases List.mem_cons.1 h with e | h
        · left; rw [← e]; simp [eff]
        · exact Or.inr h
  exact key l shared0 h1 h2 (Or.inr h)

theorem foldl_probes (l : List Op) (s : Shared) (h1 : .closeProbes ∉ l) (h2 : ∀ b, .setAlive b ∉ l)
    (hp : s.probes = true) (ha : s.alive = true) : (l.foldl eff s).probes = true ∧ (l.foldl eff s).alive = true := by
  induction l generalizing s with
  | nil => exact ⟨hp, ha⟩
  | cons o l ih =>
    rw [List.foldl_cons]
    apply ih _ (fun h => h1 (List.mem_cons_of_mem _ h)) (fun b h => h2 b (List.mem_cons_of_mem _ h))
    · cases o with
      | listen => dsimp only [eff]; split <;> exact hp
      | closeProbes => exact absurd (by simp) h1
      | openProbes => rfl
      | _ => exact hp
    · cases o with
      | listen => dsimp only [eff]; split <;> exact ha
      | setAlive b => exact absurd (by simp) (h2 b)
      | openProbes => rfl
      | _ => exact ha

/-- The probes are served until the last operation of `Stop`. -/
theorem foldl_noProbes (l : List Op) (s : Shared) (h1 : .openProbes ∉ l) (hp : s.probes = false) :
    (l.foldl eff s).probes = false := by
  induction l generalizing s with
  | nil => exact hp
  | cons o l ih =>
    rw [List.foldl_cons]
    apply ih _ (fun h => h1 (List.mem_cons_of_mem _ h))
    cases o with
    | listen => dsimp only [eff]; split <;> exact hp
    | openProbes => exact absurd (by simp) h1
    | closeProbes => rfl
    | _ => exact hp

theorem replay_noProbes (base l : List Op) (h : .closeProbes ∈ l) (h1 : .openProbes ∉ l) :
    (replay (base ++ l)).probes = false := by
  obtain ⟨a, b, e⟩ := List.append_of_mem h
  subst e
  unfold replay
  rw [List.foldl_append, List.foldl_append, List.foldl_cons]
  exact foldl_noProbes _ _ (fun h => h1 (by simp [h])) rfl

theorem foldl_ready (l : List Op) (s : Shared) (h : ∀ b, .setReady b ∉ l) (hr : (l.foldl eff s).ready = true) :
    s.ready = true := by
  induction l generalizing s with
  | nil => exact hr
  | cons o l ih =>
    rw [List.foldl_cons] at hr
    have := ih _ (fun b hb => h b (List.mem_cons_of_mem _ hb)) hr
    cases o with
    | listen => dsimp only [eff] at this; split at this <;> exact this
    | setReady b => exact absurd (by simp) (h b)
    | openProbes => cases this
    | _ => exact this

/-! ## Components that set their readiness themselves -/

/-- `SetReady(true)` is the last operation of `StartX`, `SetReady(false)` the
first of `Stop`, and no other goroutine sets it. -/
structure Honest (c : Comp) : Prop where
  start : ∃ a, c.start = .openProbes :: a ++ [.setReady true] ∧ (∀ b, .setReady b ∉ a) ∧ .closeProbes ∉ a ∧
    (∀ b, .setAlive b ∉ a) ∧ .openProbes ∉ a
  stop : ∃ z, c.stop = .setReady false :: z ∧ ∀ b, .setReady b ∉ z
  body : ∀ g b, .setReady b ∉ c.body g

theorem ready_replay {c : Comp} (wf : WF c) (hon : Honest c) {s : St} (h : Reach c s) :
    s.sh.ready = (replay s.did).ready := by
  induction h with
  | init => rfl
  | @step s s' l hr hs ih =>
    have inv := reach_inv wf hr
    rcases step_cases hs with ⟨-, hp, rfl⟩ | ⟨good, o, rest, -, hm, hok, rfl⟩ | ⟨good, o, rest, -, hm, hfl, rfl⟩ |
      ⟨i, g, o, rest, good, -, hi, hok, rfl⟩
    · exact ih
    · rw [finish_sh, finish_did]
      simp only
      rw [replay_snoc]
      cases o with
      | listen => dsimp only [eff]; split <;> split <;> exact ih
      | setReady b => rfl
      | openProbes => rfl
      | _ => exact ih
    · rw [finish_sh, finish_did]; exact ih
    · have hob := mem_body inv.suffix hi
      simp only
      rw [← ih]
      cases o with
      | listen => dsimp only [eff]; split <;> rfl
      | setReady b => exact absurd hob (hon.body g b)
      | openProbes => have := wf.body_op g _ hob; cases this
      | _ => rfl

/-- Ready means that `StartX` is complete and that `Stop` has done nothing yet. -/
theorem ready_settled {c : Comp} (wf : WF c) (hon : Honest c) {s : St} (h : Reach c s) (hr : s.sh.ready = true) :
    s.did = c.start ∧ (s.phase = .running ∨ (s.phase = .stopping ∧ s.main = c.stop)) := by
  have inv := reach_inv wf h
  rw [ready_replay wf hon h] at hr
  obtain ⟨a, ea, h1, -, -, -⟩ := hon.start
  obtain ⟨z, ez, h2⟩ := hon.stop
  have hstop : ∀ (base d m : List Op), d ++ m = c.stop → (replay (base ++ d)).ready = true → d = [] := by
    intro base d m e hh
    cases d with
    | nil => rfl
    | cons o d =>
      exfalso
      rw [ez, List.cons_append] at e
      injection e with e1 e2
      subst e1
      unfold replay at hh
      rw [List.foldl_append, List.foldl_cons] at hh
      have := foldl_ready d _ (fun b hb => h2 b (by rw [← e2]; simp [hb])) hh
      cases this
  have hstart : ∀ (pre post : List Op), post ≠ [] → c.start = pre ++ post → (replay pre).ready = true → False := by
    intro pre post hne e hh
    rw [ea] at e
    rcases List.eq_nil_or_concat post with rfl | ⟨p, o, rfl⟩
    · exact hne rfl
    · rw [List.concat_eq_append, ← List.append_assoc] at e
      have e' := List.append_inj_left' e rfl
      have hno : ∀ b, Op.setReady b ∉ pre := by
        intro b hb
        have : Op.setReady b ∈ Op.openProbes :: a := by rw [e']; simp [hb]
        rcases List.mem_cons.1 this with e | e
        · cases e
        · exact h1 b e
      have := foldl_ready pre shared0 hno hh
      cases this
  have hsh := inv.shape
  generalize hd : s.did = d at hsh hr
  generalize hm : s.main = m at hsh
  generalize hp : s.phase = p at hsh
  cases hsh with
  | starting hne e => exact absurd hr (fun h => hstart d m hne e.symm h)
  | running => exact ⟨rfl, Or.inl rfl⟩
  | @stopping d' _ hne e =>
    have := hstop _ _ _ e hr
    subst this
    exact ⟨by simp, Or.inr ⟨rfl, by simpa using e⟩⟩
  | stopped =>
    have := hstop c.start c.stop [] (by simp) hr
    exact absurd this wf.stop_ne
  | @failing pre d' _ hf hdef hne e =>
    have := hstop _ _ _ e hr
    subst this
    rw [List.append_nil] at hr
    obtain ⟨o, post, e', -⟩ := hf
    exact absurd hr (fun h => hstart pre (o :: post) (by simp) e' h)
  | @failed pre hf hdef =>
    have := hstop pre c.stop [] (by simp) hr
    exact absurd this wf.stop_ne
  | leaked hf hdef =>
    obtain ⟨o, post, e', -⟩ := hf
    exact absurd hr (fun h => hstart d (o :: post) (by simp) e' h)

/-- From the return of `StartX` until `Stop` is called the probes say ready and alive. -/
theorem running_ready {c : Comp} (wf : WF c) (hon : Honest c) {s : St} (h : Reach c s) (hp : s.phase = .running) :
    s.sh.probes = true ∧ s.sh.ready = true ∧ s.sh.alive = true := by
  have inv := reach_inv wf h
  have hd := running_did inv hp
  obtain ⟨a, ea, h1, h2, h3, h4⟩ := hon.start
  have hrep : (replay c.start).probes = true ∧ (replay c.start).alive = true := by
    rw [ea]
    unfold replay
    rw [List.cons_append, List.foldl_cons]
    apply foldl_probes
    · simp [h2]
    · simp [h3]
    · rfl
    · rfl
  refine ⟨?_, ?_, ?_⟩
  · rw [inv.agree.probes, hd]; exact hrep.1
  · rw [ready_replay wf hon h, hd, ea, replay_snoc]; rfl
  · rw [inv.agree.alive, hd]; exact hrep.2

/-! ## Before `stop` is closed -/

/-- Goroutines close things only after `stop` is closed. -/
def ClosesLate (c : Comp) : Prop :=
  ∀ g r, .release r ∈ c.body g → ∃ p q, c.body g = p ++ .awaitStop :: q ∧ .release r ∉ p ∧ .awaitStop ∉ q

theorem live_before {c : Comp} (wf : WF c) (hcl : ClosesLate c) {s : St} (h : Reach c s) :
    s.sh.stopped = false → s.sh.live = (replay s.did).live := by
  induction h with
  | init => intro _; rfl
  | @step s s' l hr hs ih =>
    have inv := reach_inv wf hr
    rcases step_cases hs with ⟨-, hp, rfl⟩ | ⟨good, o, rest, -, hm, hok, rfl⟩ | ⟨good, o, rest, -, hm, hfl, rfl⟩ |
      ⟨i, g, o, rest, good, -, hi, hok, rfl⟩
    · exact ih
    · rw [finish_sh, finish_did]
      simp only
      intro hst
      have hst' : s.sh.stopped = false := by
        cases hq : s.sh.stopped with
        | false => rfl
        | true =>
          have : (eff s.sh o).stopped = true := by
            cases o with
            | listen => dsimp only [eff]; split <;> exact hq
            | closeStop => rfl
            | _ => exact hq
          rw [this] at hst
          cases hst
      have ih' := ih hst'
      rw [replay_snoc]
      cases o with
      | listen => dsimp only [eff]; split <;> split <;> exact ih'
      | acquire r => simp only [eff, ih']
      | release r => simp only [eff, ih']
      | releaseIfSet r => simp only [eff, ih']
      | _ => exact ih'
    · rw [finish_sh, finish_did]; exact ih
    · have hob := mem_body inv.suffix hi
      have htm : (g, o :: rest) ∈ s.threads := List.mem_of_getElem? hi
      simp only
      intro hst
      have hst' : s.sh.stopped = false := by
        have h1 := inv.agree.stopped
        have h2 := (inv.agree.thread (wf.body_op g o hob)).stopped
        rw [h1, ← h2]; exact hst
      rw [← ih hst']
      cases o with
      | listen => dsimp only [eff]; split <;> rfl
      | release r =>
        exfalso
        obtain ⟨p, q, e, hp, hq⟩ := hcl g r hob
        have haw := inv.awaiting hst' _ htm (by rw [e]; simp)
        obtain ⟨p', e'⟩ := inv.suffix _ htm
        simp only at e' haw
        rw [e] at e'
        have haw : .awaitStop ∈ rest := by
          rcases List.mem_cons.1 haw with e | e
          · cases e
          · exact e
        -- p ++ awaitStop :: q = p' ++ release r :: rest
        rcases List.append_eq_append_iff.1 e' with ⟨x, hx1, hx2⟩ | ⟨x, hx1, hx2⟩
        · cases x with
          | nil =>
            rw [List.nil_append] at hx2
            injection hx2 with e1
            cases e1
          | cons y x =>
            rw [List.cons_append] at hx2
            injection hx2 with e1 e2
            apply hq
            rw [e2]
            simp [haw]
        · cases x with
          | nil =>
            rw [List.nil_append] at hx2
            injection hx2 with e1
            cases e1
          | cons y x =>
            rw [List.cons_append] at hx2
            injection hx2 with e1 e2
            apply hp
            rw [hx1, e1]
            simp
      | acquire r => have := wf.body_op g _ hob; cases this
      | releaseIfSet r => have := wf.body_op g _ hob; cases this
      | _ => rfl

/-- A goroutine that was started is in its loop until `stop` is closed. -/
theorem looping {c : Comp} (wf : WF c) {s : St} (h : Reach c s) (hst : s.sh.stopped = false) {g : Gid}
    (hg : .spawn g ∈ s.did) (ha : .awaitStop ∈ c.body g) : ∃ t ∈ s.threads, t.1 = g ∧ .awaitStop ∈ t.2 := by
  have inv := reach_inv wf h
  obtain ⟨t, ht, e⟩ := inv.spawned g hg
  exact ⟨t, ht, e, inv.awaiting hst t ht (by rw [e]; exact ha)⟩

/-- `stop` is not closed when only `StartX` has been executed. -/
theorem start_not_stopped {c : Comp} (wf : WF c) {s : St} (h : Reach c s) (hd : s.did = c.start) :
    s.sh.stopped = false := by
  have inv := reach_inv wf h
  cases hq : s.sh.stopped with
  | false => rfl
  | true =>
    exfalso
    rw [inv.agree.stopped, replay_stopped, hd] at hq
    obtain ⟨a, b, hab⟩ := List.append_of_mem hq
    exact (AllPos_at wf.pos hab).noStop.1 rfl

end Spout.Lifecycle
