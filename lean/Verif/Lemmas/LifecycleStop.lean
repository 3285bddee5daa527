import Verif.Lemmas.Lifecycle

/-! # Consequences of the invariant: no panics, `Stop` returns, what is left -/

set_option linter.unusedSimpArgs false

namespace Spout.Lifecycle

/-- What has been executed is the beginning of `StartX` followed by the beginning of `Stop`. -/
theorem Shape.base {c : Comp} (wf : WF c) {ph : Phase} {did main : List Op} (h : Shape c ph did main) :
    ∃ base d post dpost, did = base ++ d ∧ c.start = base ++ post ∧ c.stop = d ++ dpost ∧
      0 ≤ bal c base ∧ (d ≠ [] → post = [] ∨ .deferStop ∈ base) ∧ (post = [] ∨ d = [] ∨ FailedAt c base) := by
  have nn : ∀ base post : List Op, c.start = base ++ post → 0 ≤ bal c base := by
    intro base post e
    rcases List.eq_nil_or_concat base with rfl | ⟨a, o, rfl⟩
    · simp [bal]
    · rw [List.concat_eq_append] at e ⊢
      have := (AllPos_at wf.pos (a := a) (o := o) (b := post) (by rw [e]; simp)).nonneg
      rw [bal_append]
      simpa [bal] using this
  cases h with
  | starting hne e => exact ⟨did, [], main, c.stop, by simp, e.symm, rfl, nn _ _ e.symm, by simp, by simp⟩
  | running => exact ⟨c.start, [], [], c.stop, by simp, by simp, rfl, nn _ [] (by simp), by simp, by simp⟩
  | @stopping d _ hne e => exact ⟨c.start, d, [], main, rfl, by simp, e.symm, nn _ [] (by simp), by simp, by simp⟩
  | stopped => exact ⟨c.start, c.stop, [], [], rfl, by simp, by simp, nn _ [] (by simp), by simp, by simp⟩
  | @failing pre d _ hf hd hne e =>
    obtain ⟨o, post, e', hfa⟩ := hf
    exact ⟨pre, d, o :: post, main, rfl, e', e.symm, nn _ _ e', fun _ => Or.inr hd, Or.inr (Or.inr ⟨o, post, e', hfa⟩)⟩
  | @failed pre hf hd =>
    obtain ⟨o, post, e', hfa⟩ := hf
    exact ⟨pre, c.stop, o :: post, [], rfl, e', by simp, nn _ _ e', fun _ => Or.inr hd, Or.inr (Or.inr ⟨o, post, e', hfa⟩)⟩
  | leaked hf hd =>
    obtain ⟨o, post, e', hfa⟩ := hf
    exact ⟨did, [], o :: post, c.stop, by simp, e', rfl, nn _ _ e', by simp, by simp⟩

theorem bal_did {c : Comp} (wf : WF c) {s : St} (inv : Inv c s) : 0 ≤ bal c s.did := by
  obtain ⟨base, d, post, dpost, e1, -, e3, hb, -, -⟩ := inv.shape.base wf
  rw [e1, bal_append, bal_zero c d]
  · omega
  · intro o ho
    exact (wf.stop_plain o (by rw [e3]; simp [ho])).2.1

theorem mem_stop_spawn {c : Comp} (wf : WF c) (g : Gid) : .spawn g ∉ c.stop := by
  intro h
  have := (wf.stop_plain _ h).2.2.1
  simp [born] at this

theorem spawn_base {c : Comp} (wf : WF c) {s : St} (inv : Inv c s) {g : Gid} (h : .spawn g ∈ s.did) :
    ∃ pre post, c.start = pre ++ .spawn g :: post ∧ ∀ o ∈ pre, o ∈ s.did := by
  obtain ⟨base, d, post, dpost, e1, e2, e3, -⟩ := inv.shape.base wf
  rw [e1] at h
  rcases List.mem_append.1 h with h | h
  · obtain ⟨a, b, hab⟩ := List.append_of_mem h
    refine ⟨a, b ++ post, by rw [e2, hab]; simp, ?_⟩
    intro o ho
    rw [e1, hab]
    simp [ho]
  · exact absurd (by rw [e3]; simp [h]) (mem_stop_spawn wf g)

theorem tsum_pos {f : List Op → Nat} {l : List (Gid × List Op)} {t : Gid × List Op} (h : t ∈ l) : f t.2 ≤ tsum f l := by
  induction l with
  | nil => cases h
  | cons a l ih =>
    rcases List.mem_cons.1 h with rfl | h
    · simp [tsum]
    · have := ih h
      simp only [tsum]
      omega

/-- Outcomes that are a panic. -/
theorem outcome_panic {sh : Shared} {good : Bool} {o : Op} (h : outcome sh good o = .panic) :
    (∃ r, o = .release r ∧ r ∉ sh.made) ∨ (∃ n, o = .add n ∧ sh.wg + n < 0) ∨ (o = .done ∧ sh.wg < 1) ∨
      (o = .closeStop ∧ sh.stopped = true) := by
  by_cases hf : fallible o = true
  · unfold outcome at h
    rw [if_pos hf] at h
    split at h <;> cases h
  · unfold outcome at h
    rw [if_neg hf] at h
    cases o with
    | release r =>
      simp only at h
      split at h
      · cases h
      · exact Or.inl ⟨r, rfl, by assumption⟩
    | add n =>
      simp only at h
      split at h
      · exact Or.inr (Or.inl ⟨n, rfl, by assumption⟩)
      · cases h
    | done =>
      simp only at h
      split at h
      · exact Or.inr (Or.inr (Or.inl ⟨rfl, by omega⟩))
      · cases h
    | closeStop =>
      simp only at h
      split at h
      · exact Or.inr (Or.inr (Or.inr ⟨rfl, by assumption⟩))
      · cases h
    | wait => simp only at h; split at h <;> cases h
    | awaitStop => simp only at h; split at h <;> cases h
    | serve => simp only at h; split at h <;> cases h
    | listen =>
      simp only at h
      split at h
      · cases h
      · split at h <;> cases h
    | _ => simp only at h; cases h

theorem no_panic {c : Comp} (wf : WF c) {s : St} (inv : Inv c s) (l : Label) : step c s l ≠ .panic := by
  have hbd := bal_did wf inv
  have hsum : (0 : Int) ≤ (tsum dones s.threads : Int) := by omega
  intro h
  cases l with
  | callStop => dsimp only [step] at h; split at h <;> cases h
  | main good =>
    dsimp only [step] at h
    have hsh := inv.shape
    cases hm : s.main with
    | nil => rw [hm] at h; cases h
    | cons o rest =>
      rw [hm] at h hsh
      dsimp only at h
      cases ho : outcome s.sh good o with
      | ok => rw [ho] at h; cases h
      | fail => rw [ho] at h; cases h
      | blocked => rw [ho] at h; cases h
      | exit => rw [ho] at h; cases h
      | panic =>
        have hnext := hsh.next wf
        rcases outcome_panic ho with ⟨r, rfl, hr⟩ | ⟨n, rfl, hn⟩ | ⟨rfl, -⟩ | ⟨rfl, hc⟩
        · rcases hnext with ⟨-, -, hp⟩ | ⟨hp, base, d, e1, e2, -, -, -, hb⟩
          · exact hp.noStop.2.2.2.2.2.2.2 r rfl
          · apply hr
            rw [inv.agree.made, replay_made, e1]
            apply List.mem_append_left
            rcases hb with ⟨-, rfl⟩ | ⟨-, ⟨o', post, e', -⟩, hd⟩
            · exact wf.stop_rel' r hp
            · exact wf.stop_rel r hp _ _ _ e' hd
        · rw [inv.wg] at hn
          rcases hnext with ⟨-, -, hp⟩ | ⟨hp, -⟩
          · have := hp.nonneg
            simp only [delta] at this
            omega
          · have := (wf.stop_plain _ hp).2.1
            simp only [delta] at this
            omega
        · rcases hnext with ⟨-, -, hp⟩ | ⟨hp, -⟩
          · exact hp.noStop.2.2.2.1 rfl
          · exact (wf.stop_plain _ hp).2.2.2.1 rfl
        · rcases hnext with ⟨-, -, hp⟩ | ⟨hp, base, d, e1, e2, -, hcb, -, -⟩
          · exact hp.noStop.1 rfl
          · rw [inv.agree.stopped, replay_stopped, e1] at hc
            rcases List.mem_append.1 hc with hc | hc
            · exact hcb hc
            · obtain ⟨a, b, hab, h1, h2, h3, h4⟩ := wf.stop_split
              obtain ⟨d1, d2, hd⟩ := List.append_of_mem hc
              -- closeStop occurs twice in `Stop`
              have hcount : c.stop.count .closeStop = 1 := by
                rw [hab, List.count_append, List.count_eq_zero.2 h1, List.count_cons, List.count_cons,
                  List.count_eq_zero.2 h3]
                decide
              rw [← e2, hd, List.count_append, List.count_append, List.count_cons, List.count_cons] at hcount
              simp only [beq_self_eq_true, if_true] at hcount
              omega
  | go i good =>
    dsimp only [step] at h
    cases ht : s.threads[i]? with
    | none => rw [ht] at h; cases h
    | some t =>
      obtain ⟨g, rem⟩ := t
      cases rem with
      | nil => rw [ht] at h; cases h
      | cons o rest =>
        rw [ht] at h
        dsimp only at h
        have htm : (g, o :: rest) ∈ s.threads := List.mem_of_getElem? ht
        have hob := mem_body inv.suffix ht
        have hto := wf.body_op g o hob
        cases ho : outcome s.sh good o with
        | ok => rw [ho] at h; cases h
        | fail => rw [ho] at h; cases h
        | blocked => rw [ho] at h; cases h
        | exit => rw [ho] at h; cases h
        | panic =>
          rcases outcome_panic ho with ⟨r, rfl, hr⟩ | ⟨n, rfl, hn⟩ | ⟨rfl, hw⟩ | ⟨rfl, hc⟩
          · apply hr
            rw [inv.agree.made, replay_made]
            rcases inv.origin _ htm with h1 | ⟨g', h1⟩
            · obtain ⟨pre, post, e, hsub⟩ := spawn_base wf inv h1
              exact hsub _ (wf.body_rel g r hob pre post e)
            · exact absurd hob ((wf.inner g' g h1).2.1 r)
          · cases hto
          · rw [inv.wg] at hw
            have := tsum_pos (f := dones) htm
            simp only [dones_cons, if_true] at this
            omega
          · cases hto

/-- What a step of `StartX` or `Stop` cannot do. -/
theorem outcome_main_start {c : Comp} (wf : WF c) {s : St} (inv : Inv c s) (hp : s.phase = .starting)
    {o : Op} {rest : List Op} (hm : s.main = o :: rest) (good : Bool) :
    outcome s.sh good o = .ok ∨ (good = false ∧ outcome s.sh good o = .fail) := by
  have hsh := inv.shape
  rw [hm] at hsh
  have hnp := no_panic wf inv (.main good)
  have hno : outcome s.sh good o ≠ .panic := by
    intro h
    apply hnp
    dsimp only [step]
    rw [hm]
    dsimp only
    rw [h]
  rcases hsh.next wf with ⟨-, -, hpos⟩ | ⟨-, base, d, e1, e2, -, -, -, hb⟩
  · obtain ⟨n1, n2, n3, n4, n5, n6, n7, n8⟩ := hpos.noStop
    by_cases hf : fallible o = true
    · unfold outcome
      rw [if_pos hf]
      cases good
      · exact Or.inr ⟨rfl, rfl⟩
      · exact Or.inl rfl
    · left
      revert hno
      unfold outcome
      rw [if_neg hf]
      cases o with
      | wait => exact absurd rfl n2
      | awaitStop => exact absurd rfl n3
      | listen => exact absurd rfl n5
      | serve => exact absurd rfl n6
      | release r => intro hno; simp only at hno ⊢; split at hno <;> simp_all
      | add n => intro hno; simp only at hno ⊢; split at hno <;> simp_all
      | done => exact absurd rfl n4
      | closeStop => exact absurd rfl n1
      | _ => intro _; rfl
  · rcases hb with ⟨h, -⟩ | ⟨h, -⟩ <;> rw [hp] at h <;> cases h

/-- A counted goroutine that is not finished can go on once `stop` is closed. -/
theorem thread_can {c : Comp} (wf : WF c) {s : St} (inv : Inv c s) (hst : s.sh.stopped = true)
    {t : Gid × List Op} (ht : t ∈ s.threads) (hne : t.2 ≠ []) (hserve : .serve ∉ t.2 ∨ s.sh.serverClosed = true) :
    ∃ i s', step c s (.go i true) = .ok s' := by
  obtain ⟨g, rem⟩ := t
  cases rem with
  | nil => exact absurd rfl hne
  | cons o rest =>
    obtain ⟨i, hi⟩ := List.getElem?_of_mem ht
    have hob := mem_body inv.suffix hi
    have hto := wf.body_op g o hob
    have hnp := no_panic wf inv (.go i true)
    refine ⟨i, { s with sh := eff s.sh o, threads := s.threads.set i (g, rest) ++ born c o }, ?_⟩
    have hok : outcome s.sh true o = .ok := by
      have hno : outcome s.sh true o ≠ .panic := by
        intro h
        apply hnp
        dsimp only [step]
        rw [hi]
        dsimp only
        rw [h]
      cases o with
      | setReady b => rfl
      | awaitStop => unfold outcome; simp [fallible, hst]
      | release r =>
        revert hno; unfold outcome; simp only [fallible]; intro hno
        split
        · simp_all
        · simp_all
      | done =>
        revert hno; unfold outcome; simp only [fallible]; intro hno
        split
        · simp_all
        · simp_all
      | spawn g => rfl
      | listen => unfold outcome; simp [fallible]
      | serve =>
        rcases hserve with h | h
        · exact absurd (by simp) h
        · unfold outcome; simp [fallible, h]
      | closeServer => rfl
      | _ => cases hto
    dsimp only [step]
    rw [hi]
    dsimp only
    rw [hok]

/-- `Stop`, or the deferred call of `StartX`, is not stuck. -/
theorem stop_can {c : Comp} (wf : WF c) {s : St} (inv : Inv c s) (hp : s.phase = .stopping ∨ s.phase = .failing) :
    ∃ l s', step c s l = .ok s' := by
  have hsh := inv.shape
  have hne : s.main ≠ [] := by
    generalize s.did = d at hsh
    generalize s.main = m at hsh
    rcases hp with hp | hp <;> rw [hp] at hsh <;> cases hsh <;> assumption
  cases hm : s.main with
  | nil => exact absurd hm hne
  | cons o rest =>
    rw [hm] at hsh
    rcases hsh.next wf with ⟨h, -⟩ | ⟨ho, base, d, e1, e2, hb, -, -, -⟩
    · rcases hp with hp | hp <;> rw [hp] at h <;> cases h
    · have hpl := wf.stop_plain o ho
      have hnp := no_panic wf inv (.main true)
      have hno : outcome s.sh true o ≠ .panic := by
        intro h
        apply hnp
        dsimp only [step]
        rw [hm]
        dsimp only
        rw [h]
      by_cases hok : outcome s.sh true o = .ok
      · refine ⟨.main true, finish { s with sh := eff s.sh o, main := rest, threads := s.threads ++ born c o,
                                            did := s.did ++ [o] }, ?_⟩
        dsimp only [step]
        rw [hm]
        dsimp only
        rw [hok]
      · -- only `wait` blocks
        have hw : o = .wait ∧ s.sh.wg ≠ 0 := by
          revert hok hno
          unfold outcome
          rw [hpl.1]
          simp only [Bool.false_eq_true, if_false]
          cases o with
          | wait =>
            intro hno hok
            refine ⟨rfl, ?_⟩
            intro hz
            simp only [hz, if_true] at hok
            exact hok trivial
          | awaitStop => exact absurd rfl hpl.2.2.2.2.1
          | listen => exact absurd rfl hpl.2.2.2.2.2.1
          | serve => exact absurd rfl hpl.2.2.2.2.2.2.1
          | release r => simp only; intro hno hok; split at hno <;> simp_all
          | add n => simp only; intro hno hok; split at hno <;> simp_all
          | done => exact absurd rfl hpl.2.2.2.1
          | closeStop => simp only; intro hno hok; split at hno <;> simp_all
          | _ => intro _ hok; exact absurd rfl hok
        obtain ⟨rfl, hz⟩ := hw
        have hbd : bal c s.did = 0 := by
          rw [e1, bal_append, hb, bal_zero c d]
          · rfl
          · intro o ho
            exact (wf.stop_plain o (by rw [← e2]; simp [ho])).2.1
        have hsum : tsum dones s.threads ≠ 0 := by
          intro h0
          apply hz
          rw [inv.wg, hbd, h0]
          rfl
        have hex : ∃ t ∈ s.threads, dones t.2 ≠ 0 := by
          apply Classical.byContradiction
          intro hcon
          apply hsum
          rw [tsum_zero]
          intro t ht
          apply Classical.byContradiction
          intro h
          exact hcon ⟨t, ht, h⟩
        obtain ⟨t, ht, htd⟩ := hex
        have hdone : .done ∈ t.2 := by
          apply Classical.byContradiction
          intro h
          exact htd ((dones_zero _).2 h)
        have hbody : ∀ o ∈ t.2, o ∈ c.body t.1 := by
          obtain ⟨p, e⟩ := inv.suffix t ht
          intro o ho
          rw [e]
          simp [ho]
        have hst : s.sh.stopped = true := by
          rw [inv.agree.stopped, replay_stopped, e1]
          apply List.mem_append_right
          obtain ⟨a, b, hab, h1, h2, h3, h4⟩ := wf.stop_split
          rw [hab] at e2
          -- d ++ wait :: rest = a ++ closeStop :: wait :: b
          rw [show a ++ .closeStop :: .wait :: b = (a ++ [.closeStop]) ++ .wait :: b by simp] at e2
          rcases List.append_eq_append_iff.1 e2 with ⟨x, hx1, hx2⟩ | ⟨x, hx1, hx2⟩
          · cases x with
            | nil =>
              rw [List.append_nil] at hx1
              rw [← hx1]
              simp
            | cons y x =>
              rw [List.cons_append] at hx2
              injection hx2 with hx2 hx3
              subst hx2
              have : Op.wait ∈ a ++ [Op.closeStop] := by rw [hx1]; simp
              rcases List.mem_append.1 this with h | h
              · exact absurd h h2
              · simp at h
          · rw [hx1]
            simp
        obtain ⟨i, s', hs'⟩ := thread_can wf inv hst ht (by intro h; rw [h] at hdone; cases hdone)
          (Or.inl (fun h => wf.body_serve t.1 (hbody _ hdone) (hbody _ h)))
        exact ⟨_, s', hs'⟩

/-! ## Counting steps -/

/-- Steps of a goroutine. -/
def cost1 (c : Comp) : List Op → Nat
  | [] => 0
  | .spawn g :: rest => 1 + (c.body g).length + cost1 c rest
  | _ :: rest => 1 + cost1 c rest

/-- The steps that are left once `Stop` runs. -/
def work (c : Comp) (s : St) : Nat := s.main.length + tsum (cost1 c) s.threads

theorem cost1_cons (c : Comp) (o : Op) (rest : List Op) :
    cost1 c (o :: rest) = 1 + tsum List.length (born c o) + cost1 c rest := by
  cases o <;> simp [cost1, born, tsum]

theorem cost1_plain (c : Comp) (l : List Op) (h : ∀ g, .spawn g ∉ l) : cost1 c l = l.length := by
  induction l with
  | nil => rfl
  | cons o l ih =>
    have e : tsum List.length (born c o) = 0 := by
      cases o with
      | spawn g => exact absurd (by simp) (h g)
      | _ => rfl
    rw [cost1_cons, ih (fun g hg => h g (List.mem_cons_of_mem _ hg)), e, List.length_cons]
    omega

theorem work_born {c : Comp} (wf : WF c) {g : Gid} {o : Op} (h : o ∈ c.body g) :
    tsum (cost1 c) (born c o) = tsum List.length (born c o) := by
  cases o with
  | spawn g' =>
    simp only [born, tsum, Nat.add_zero]
    exact cost1_plain c _ (wf.inner g g' h).2.2
  | _ => rfl

theorem work_step {c : Comp} (wf : WF c) {s s' : St} {l : Label} (inv : Inv c s)
    (hp : s.phase ≠ .starting ∧ s.phase ≠ .running) (h : step c s l = .ok s') :
    work c s' + 1 = work c s ∧ s'.phase ≠ .starting ∧ s'.phase ≠ .running := by
  rcases step_cases h with ⟨-, hr, rfl⟩ | ⟨good, o, rest, -, hm, hok, rfl⟩ | ⟨good, o, rest, -, hm, hfl, rfl⟩ |
    ⟨i, g, o, rest, good, -, hi, hok, rfl⟩
  · exact absurd hr hp.2
  · have hsh := inv.shape
    rw [hm] at hsh
    rcases hsh.next wf with ⟨h, -⟩ | ⟨ho, -, -, -, -, -, -, -, -⟩
    · exact absurd h hp.1
    · refine ⟨?_, ?_⟩
      · unfold work
        rw [finish_main, finish_threads, hm]
        simp only [(wf.stop_plain o ho).2.2.1, List.append_nil, List.length_cons]
        omega
      · unfold finish
        split
        · split
          · exact absurd (by assumption) hp.1
          · simp
          · simp
          · exact hp
        · exact hp
  · have hsh := inv.shape
    rw [hm] at hsh
    rcases hsh.next wf with ⟨h, -⟩ | ⟨ho, -⟩
    · exact absurd h hp.1
    · have := outcome_fail hfl
      rw [(wf.stop_plain o ho).1] at this
      cases this
  · refine ⟨?_, hp⟩
    unfold work
    have hob := mem_body inv.suffix hi
    have := tsum_set (cost1 c) s.threads i (g, o :: rest) (g, rest) hi
    simp only [cost1_cons] at this
    simp only [tsum_append, work_born wf hob]
    omega

theorem run_inv {c : Comp} (wf : WF c) {s s' : St} {ls : List Label} (inv : Inv c s) (h : run c s ls = .ok s') :
    Inv c s' := by
  induction ls generalizing s with
  | nil => injection h with h; subst h; exact inv
  | cons l ls ih =>
    unfold run at h
    cases hs : step c s l with
    | ok s1 => rw [hs] at h; exact ih (inv_step wf inv hs) h
    | blocked => rw [hs] at h; cases h
    | panic => rw [hs] at h; cases h
    | exit => rw [hs] at h; cases h

theorem run_work {c : Comp} (wf : WF c) {s s' : St} {ls : List Label} (inv : Inv c s)
    (hp : s.phase ≠ .starting ∧ s.phase ≠ .running) (h : run c s ls = .ok s') :
    ls.length ≤ work c s ∧ s'.phase ≠ .starting ∧ s'.phase ≠ .running := by
  induction ls generalizing s with
  | nil => injection h with h; subst h; exact ⟨by simp, hp⟩
  | cons l ls ih =>
    unfold run at h
    cases hs : step c s l with
    | ok s1 =>
      rw [hs] at h
      have hw := work_step wf inv hp hs
      have := ih (inv_step wf inv hs) hw.2 h
      rw [List.length_cons]
      exact ⟨by omega, this.2⟩
    | blocked => rw [hs] at h; cases h
    | panic => rw [hs] at h; cases h
    | exit => rw [hs] at h; cases h

/-- `Stop` stays `Stop` and a failed start stays a failed start. -/
theorem phase_step {c : Comp} (wf : WF c) {s s' : St} {l : Label} (inv : Inv c s) (h : step c s l = .ok s') :
    ((s.phase = .stopping ∨ s.phase = .stopped) → (s'.phase = .stopping ∨ s'.phase = .stopped)) ∧
    ((s.phase = .failing ∨ s.phase = .failed) → (s'.phase = .failing ∨ s'.phase = .failed)) := by
  rcases step_cases h with ⟨-, hr, rfl⟩ | ⟨good, o, rest, -, hm, hok, rfl⟩ | ⟨good, o, rest, -, hm, hfl, rfl⟩ |
    ⟨i, g, o, rest, good, -, hi, hok, rfl⟩
  · rw [hr]; constructor <;> intro h <;> rcases h with h | h <;> cases h
  · unfold finish
    simp only
    constructor <;> intro hh <;> rcases hh with hh | hh <;> rw [hh] <;> split <;> simp
  · have hsh := inv.shape
    rw [hm] at hsh
    rcases hsh.next wf with ⟨h, -⟩ | ⟨ho, -⟩
    · rw [h]; constructor <;> intro hh <;> rcases hh with hh | hh <;> cases hh
    · have := outcome_fail hfl
      rw [(wf.stop_plain o ho).1] at this
      cases this
  · exact ⟨id, id⟩

/-! ## What is left -/

theorem replay_live (l : List Op) (r : Resource) (h : r ∈ (replay l).live) : .acquire r ∈ l := by
  have key : ∀ (l : List Op) (s : Shared), r ∈ (l.foldl eff s).live → r ∈ s.live ∨ Op.acquire r ∈ l := by
    intro l
    induction l with
    | nil => intro s h; exact Or.inl h
    | cons o l ih =>
      intro s h
      rw [List.foldl_cons] at h
      rcases ih _ h with h | h
      · rcases live_eff _ _ _ h with h | h
        · exact Or.inl h
        · exact Or.inr (by rw [h]; simp)
      · exact Or.inr (List.mem_cons_of_mem _ h)
  rcases key l shared0 h with h | h
  · cases h
  · exact h

theorem replay_released (base l : List Op) (r : Resource) (hl : .acquire r ∉ l)
    (hr : .release r ∈ l ∨ .releaseIfSet r ∈ l) : r ∉ (replay (base ++ l)).live := by
  have none : ∀ (l : List Op) (s : Shared), Op.acquire r ∉ l → r ∉ s.live → r ∉ (l.foldl eff s).live := by
    intro l
    induction l with
    | nil => intro s _ h; exact h
    | cons o l ih =>
      intro s h1 h2
      rw [List.foldl_cons]
      apply ih _ (fun h => h1 (List.mem_cons_of_mem _ h))
      intro h
      rcases live_eff _ _ _ h with h | h
      · exact h2 h
      · exact h1 (by rw [h]; simp)
  unfold replay
  rw [List.foldl_append]
  rcases hr with hr | hr
  · obtain ⟨a, b, e⟩ := List.append_of_mem hr
    subst e
    rw [List.foldl_append, List.foldl_cons]
    apply none _ _ (fun h => hl (by simp [h]))
    intro h
    exact (live_eff_rel _ _ _ h).1 rfl
  · obtain ⟨a, b, e⟩ := List.append_of_mem hr
    subst e
    rw [List.foldl_append, List.foldl_cons]
    apply none _ _ (fun h => hl (by simp [h]))
    intro h
    exact (live_eff_rel _ _ _ h).2 rfl

theorem thread_done {c : Comp} (wf : WF c) {s : St} (inv : Inv c s) (hw : .wait ∈ s.did) {t : Gid × List Op}
    (ht : t ∈ s.threads) (hd : .done ∈ c.body t.1) : t.2 = [] := by
  have h1 := inv.waited hw t ht
  obtain ⟨p, e⟩ := inv.suffix t ht
  rcases wf.body_done t.1 with h | ⟨q, e2, -⟩
  · exact absurd hd h
  · rcases List.eq_nil_or_concat t.2 with h | ⟨a, o, h⟩
    · exact h
    · exfalso
      rw [List.concat_eq_append] at h
      rw [h, e2, ← List.append_assoc] at e
      have := List.append_inj_right' e rfl
      injection this with this
      apply h1
      rw [h, ← this]
      simp

theorem all_released {c : Comp} (wf : WF c) {s : St} (inv : Inv c s) {base : List Op}
    (hd : s.did = base ++ c.stop) (own : Own c base) : s.sh.live = [] := by
  cases hl : s.sh.live with
  | nil => rfl
  | cons r rs =>
    exfalso
    have hr : r ∈ s.sh.live := by rw [hl]; simp
    obtain ⟨h1, h2⟩ := inv.live r hr
    have hnoacq : .acquire r ∉ c.stop := by
      intro h
      have := (wf.stop_plain _ h).1
      cases this
    have hacq := replay_live _ _ h1
    rw [hd] at hacq h1
    have hacq : .acquire r ∈ base := by
      rcases List.mem_append.1 hacq with h | h
      · exact h
      · exact absurd h hnoacq
    have hwait : .wait ∈ s.did := by
      rw [hd]
      obtain ⟨a, b, hab, -⟩ := wf.stop_split
      rw [hab]; simp
    rcases own r hacq with h | h | ⟨g, hg1, hg2, hg3⟩
    · exact replay_released base c.stop r hnoacq (Or.inl h) h1
    · exact replay_released base c.stop r hnoacq (Or.inr h) h1
    · obtain ⟨t, ht, e⟩ := inv.spawned g (by rw [hd]; simp [hg1])
      have hnil := thread_done wf inv hwait ht (by rw [e]; exact hg3)
      have := h2 t ht (by rw [e]; exact hg2)
      rw [hnil] at this
      cases this

/-! ## The HTTP server -/

/-- Servers are closed by the goroutine that started them, which `Stop` waits for. -/
structure WFS (c : Comp) : Prop where
  inner_serve : ∀ g g', .spawn g' ∈ c.body g → .serve ∈ c.body g' → .closeServer ∈ c.body g ∧ .done ∈ c.body g
  outer : ∀ g, .spawn g ∈ c.start → .serve ∉ c.body g ∧ .listen ∉ c.body g

structure InvS (c : Comp) (s : St) : Prop where
  closed : ∀ t ∈ s.threads, .closeServer ∈ c.body t.1 → .closeServer ∈ t.2 ∨ s.sh.serverClosed = true
  unbound : s.sh.serverClosed = true → s.sh.listening = false
  parent : ∀ t ∈ s.threads, .spawn t.1 ∈ s.did ∨ ∃ t' ∈ s.threads, .spawn t.1 ∈ c.body t'.1

theorem serverClosed_eff (sh : Shared) (o : Op) :
    (sh.serverClosed = true → (eff sh o).serverClosed = true) ∧
    ((sh.serverClosed = true → sh.listening = false) → ((eff sh o).serverClosed = true → (eff sh o).listening = false)) := by
  cases o with
  | listen =>
    dsimp only [eff]
    split
    · exact ⟨id, id⟩
    · rename_i h
      exact ⟨id, fun _ h' => absurd h' h⟩
  | closeServer => exact ⟨fun _ => rfl, fun _ _ => rfl⟩
  | _ => exact ⟨id, id⟩

theorem invS_step {c : Comp} {s s' : St} {l : Label} (inv0 : Inv c s) (inv : InvS c s) (h : step c s l = .ok s') : InvS c s' := by
  rcases step_cases h with ⟨-, hr, rfl⟩ | ⟨good, o, rest, -, hm, hok, rfl⟩ | ⟨good, o, rest, -, hm, hfl, rfl⟩ |
    ⟨i, g, o, rest, good, -, hi, hok, rfl⟩
  · exact ⟨inv.closed, inv.unbound, inv.parent⟩
  · constructor
    · rw [finish_sh, finish_threads]
      intro t ht hb
      rcases List.mem_append.1 ht with ht | ht
      · rcases inv.closed t ht hb with h1 | h1
        · exact Or.inl h1
        · exact Or.inr ((serverClosed_eff s.sh o).1 h1)
      · left; rw [(mem_born ht).2]; exact hb
    · rw [finish_sh]
      exact (serverClosed_eff s.sh o).2 inv.unbound
    · rw [finish_threads, finish_did]
      intro t ht
      rcases List.mem_append.1 ht with ht | ht
      · rcases inv.parent t ht with h1 | ⟨t', h1, h2⟩
        · exact Or.inl (List.mem_append_left _ h1)
        · exact Or.inr ⟨t', List.mem_append_left _ h1, h2⟩
      · left
        rw [(mem_born ht).1]
        simp
  · refine ⟨?_, ?_, ?_⟩
    · rw [finish_sh, finish_threads]; exact inv.closed
    · rw [finish_sh]; exact inv.unbound
    · rw [finish_threads, finish_did]; exact inv.parent
  · have htm : (g, o :: rest) ∈ s.threads := List.mem_of_getElem? hi
    constructor
    · intro t ht hb
      rcases List.mem_append.1 ht with ht | ht
      · rcases mem_set_cases ht with rfl | ht
        · rcases inv.closed _ htm hb with h1 | h1
          · rcases List.mem_cons.1 h1 with e | e
            · right; rw [← e]; rfl
            · exact Or.inl e
          · exact Or.inr ((serverClosed_eff s.sh o).1 h1)
        · rcases inv.closed t ht hb with h1 | h1
          · exact Or.inl h1
          · exact Or.inr ((serverClosed_eff s.sh o).1 h1)
      · left; rw [(mem_born ht).2]; exact hb
    · exact (serverClosed_eff s.sh o).2 inv.unbound
    · have key : ∀ g', (∃ t ∈ s.threads, .spawn g' ∈ c.body t.1) →
          ∃ t ∈ s.threads.set i (g, rest) ++ born c o, .spawn g' ∈ c.body t.1 := by
        rintro g' ⟨t', h1, h2⟩
        obtain ⟨t2, h3, h4⟩ := (gid_set (rest := rest) hi t'.1).2 ⟨t', h1, rfl⟩
        exact ⟨t2, List.mem_append_left _ h3, by rw [h4]; exact h2⟩
      intro t ht
      have hpar : ∀ t0 ∈ s.threads, t0.1 = t.1 → Op.spawn t.1 ∈ s.did ∨
          ∃ t' ∈ s.threads.set i (g, rest) ++ born c o, .spawn t.1 ∈ c.body t'.1 := by
        intro t0 h0 e
        rcases inv.parent t0 h0 with h1 | h1
        · rw [e] at h1; exact Or.inl h1
        · rw [e] at h1; exact Or.inr (key _ h1)
      rcases List.mem_append.1 ht with ht | ht
      · rcases mem_set_cases ht with rfl | ht
        · exact hpar _ htm rfl
        · exact hpar t ht rfl
      · right
        apply key
        refine ⟨_, htm, ?_⟩
        rw [← (mem_born ht).1]
        exact mem_body inv0.suffix hi

theorem reach_invS {c : Comp} (wf : WF c) {s : St} (h : Reach c s) : InvS c s := by
  induction h with
  | init => exact ⟨by simp [init], by simp [init, shared0], by simp [init]⟩
  | step l hr hs ih => exact invS_step (reach_inv wf hr) ih hs

/-- After `wg.Wait()` every goroutine can go on to its end. -/
theorem rest_can {c : Comp} (wf : WF c) (wfs : WFS c) {s : St} (inv : Inv c s) (invS : InvS c s) {base : List Op}
    (hd : s.did = base ++ c.stop) {t : Gid × List Op} (ht : t ∈ s.threads) (hne : t.2 ≠ []) :
    ∃ l s', step c s l = .ok s' := by
  obtain ⟨a, b, hab, -⟩ := wf.stop_split
  have hwait : .wait ∈ s.did := by rw [hd, hab]; simp
  have hst : s.sh.stopped = true := by
    rw [inv.agree.stopped, replay_stopped, hd, hab]; simp
  have hserve : .serve ∉ t.2 ∨ s.sh.serverClosed = true := by
    apply Classical.byContradiction
    intro hcon
    have h1 : .serve ∈ t.2 := Classical.byContradiction (fun h => hcon (Or.inl h))
    have h2 : s.sh.serverClosed ≠ true := fun h => hcon (Or.inr h)
    have hb : .serve ∈ c.body t.1 := by
      obtain ⟨p, e⟩ := inv.suffix t ht
      rw [e]; simp [h1]
    rcases invS.parent t ht with h | ⟨t', ht', h⟩
    · obtain ⟨pre, post, e, -⟩ := spawn_base wf inv h
      exact (wfs.outer t.1 (by rw [e]; simp)).1 hb
    · obtain ⟨h3, h4⟩ := wfs.inner_serve _ _ h hb
      have hnil := thread_done wf inv hwait ht' h4
      rcases invS.closed t' ht' h3 with h5 | h5
      · rw [hnil] at h5; cases h5
      · exact h2 h5
  obtain ⟨i, s', h⟩ := thread_can wf inv hst ht hne hserve
  exact ⟨_, s', h⟩

/-- The server is closed when `Stop` returns. -/
theorem unbound {c : Comp} (wf : WF c) {s : St} (inv : Inv c s) (invS : InvS c s) {base : List Op}
    (hd : s.did = base ++ c.stop) (g : Gid) (hg : .spawn g ∈ base) (hcs : .closeServer ∈ c.body g)
    (hdn : .done ∈ c.body g) : s.sh.serverClosed = true ∧ s.sh.listening = false := by
  obtain ⟨a, b, hab, -⟩ := wf.stop_split
  have hwait : .wait ∈ s.did := by rw [hd, hab]; simp
  obtain ⟨t, ht, e⟩ := inv.spawned g (by rw [hd]; simp [hg])
  have hnil := thread_done wf inv hwait ht (by rw [e]; exact hdn)
  rcases invS.closed t ht (by rw [e]; exact hcs) with h | h
  · rw [hnil] at h; cases h
  · exact ⟨h, invS.unbound h⟩

/-- What has been executed when `Stop`, or a start that cleans up, has returned. -/
theorem stopped_did {c : Comp} {s : St} (inv : Inv c s) (hp : s.phase = .stopped) : s.did = c.start ++ c.stop := by
  have hsh := inv.shape
  rw [hp] at hsh
  generalize s.did = d at hsh
  generalize s.main = m at hsh
  cases hsh
  rfl

theorem failed_did {c : Comp} {s : St} (inv : Inv c s) (hp : s.phase = .failed) :
    (∃ pre, FailedAt c pre ∧ .deferStop ∈ pre ∧ s.did = pre ++ c.stop) ∨ (FailedAt c s.did ∧ .deferStop ∉ s.did) := by
  have hsh := inv.shape
  rw [hp] at hsh
  generalize s.did = d at hsh
  generalize s.main = m at hsh
  cases hsh with
  | failed h1 h2 => exact Or.inl ⟨_, h1, h2, rfl⟩
  | leaked h1 h2 => exact Or.inr ⟨h1, h2⟩

theorem running_did {c : Comp} {s : St} (inv : Inv c s) (hp : s.phase = .running) : s.did = c.start := by
  have hsh := inv.shape
  rw [hp] at hsh
  generalize s.did = d at hsh
  generalize s.main = m at hsh
  cases hsh
  rfl

end Spout.Lifecycle
