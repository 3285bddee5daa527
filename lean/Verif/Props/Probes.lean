import Verif.Model.Probes

/-! # Properties of the probes (C64) -/

namespace Spout.Probes

/-! ## Specification -/

/-- The last value given to `SetReady`, initially false. -/
def lastReady : List Step → Bool
  | [] => false
  | s :: ss => ss.foldl (fun v s => match s with | .setReady b => b | _ => v)
      (match s with | .setReady b => b | _ => false)

/-- The last value given to `SetAlive`, initially true. -/
def lastAlive : List Step → Bool
  | [] => true
  | s :: ss => ss.foldl (fun v s => match s with | .setAlive b => b | _ => v)
      (match s with | .setAlive b => b | _ => true)

/-- The status that a request for `path` should get at a moment, given the calls so far. -/
def due (path : Bytes) (sofar : List Step) : Nat :=
  if path = b!"/healthz" then (if lastAlive sofar then 200 else 503)
  else if path = b!"/readyz" then (if lastReady sofar then 200 else 503)
  else 404

/-- Request `id` for `path` arrived in the history and is due status `st` at
some moment between its arrival and the end of the history. -/
def Due (hist : List Step) (id : Nat) (st : Nat) : Prop :=
  ∃ path before during after, hist = before ++ .arrive id path :: (during ++ after) ∧
    st = due path (before ++ .arrive id path :: during)

/-! ## Proofs -/

theorem lastReady_snoc (h : List Step) (s : Step) :
    lastReady (h ++ [s]) = match s with | .setReady b => b | _ => lastReady h := by
  cases h with
  | nil => cases s <;> rfl
  | cons a h => cases s <;> simp [lastReady, List.foldl_append]

theorem lastAlive_snoc (h : List Step) (s : Step) :
    lastAlive (h ++ [s]) = match s with | .setAlive b => b | _ => lastAlive h := by
  cases h with
  | nil => cases s <;> rfl
  | cons a h => cases s <;> simp [lastAlive, List.foldl_append]

theorem take_mem {α : Type} {id : Nat} {l rest : List (Nat × α)} {a : α} (h : take id l = some (a, rest)) :
    (id, a) ∈ l ∧ ∀ x ∈ rest, x ∈ l := by
  induction l generalizing a rest with
  | nil => cases h
  | cons e l ih =>
    obtain ⟨k, b⟩ := e
    unfold take at h
    by_cases hk : k = id
    · rw [if_pos hk] at h
      injection h with h
      injection h with h1 h2
      subst h1; subst h2; subst hk
      exact ⟨by simp, fun x hx => List.mem_cons_of_mem _ hx⟩
    · rw [if_neg hk] at h
      cases ht : take id l with
      | none => rw [ht] at h; cases h
      | some q =>
        obtain ⟨c, r'⟩ := q
        rw [ht] at h
        simp only [Option.some.injEq, Prod.mk.injEq] at h
        obtain ⟨rfl, rfl⟩ := h
        obtain ⟨g1, g2⟩ := ih ht
        refine ⟨List.mem_cons_of_mem _ g1, ?_⟩
        intro x hx
        rcases List.mem_cons.1 hx with rfl | hx
        · simp
        · exact List.mem_cons_of_mem _ (g2 x hx)

/-- What holds of the listener after a history. -/
structure Inv (hist : List Step) (l : Listener) : Prop where
  alive : l.alive = lastAlive hist
  ready : l.ready = lastReady hist
  arrived : ∀ x ∈ l.arrived, ∃ before after, hist = before ++ .arrive x.1 x.2 :: after
  loaded : ∀ x ∈ l.loaded, Due hist x.1 x.2
  answers : ∀ x ∈ l.answers, Due hist x.1 x.2

theorem Due.snoc {hist : List Step} {id st : Nat} (h : Due hist id st) (s : Step) : Due (hist ++ [s]) id st := by
  obtain ⟨path, b, d, a, h1, h2⟩ := h
  exact ⟨path, b, d, a ++ [s], by rw [h1]; simp, h2⟩

theorem arrived_snoc {hist : List Step} {id : Nat} {path : Bytes} (s : Step)
    (h : ∃ before after, hist = before ++ .arrive id path :: after) :
    ∃ before after, hist ++ [s] = before ++ .arrive id path :: after := by
  obtain ⟨b, a, e⟩ := h
  exact ⟨b, a ++ [s], by rw [e]; simp⟩

theorem inv_step {hist : List Step} {l l' : Listener} (h : Inv hist l) (s : Step) (hs : stepListener l s = some l') :
    Inv (hist ++ [s]) l' := by
  have harr : ∀ x ∈ l.arrived, ∃ before after, hist ++ [s] = before ++ .arrive x.1 x.2 :: after :=
    fun x hx => arrived_snoc s (h.arrived x hx)
  have hld : ∀ x ∈ l.loaded, Due (hist ++ [s]) x.1 x.2 := fun x hx => (h.loaded x hx).snoc s
  have han : ∀ x ∈ l.answers, Due (hist ++ [s]) x.1 x.2 := fun x hx => (h.answers x hx).snoc s
  cases s with
  | setAlive b =>
    injection hs with hs; subst hs
    exact ⟨by rw [lastAlive_snoc], by rw [lastReady_snoc]; exact h.ready, harr, hld, han⟩
  | setReady b =>
    injection hs with hs; subst hs
    exact ⟨by rw [lastAlive_snoc]; exact h.alive, by rw [lastReady_snoc], harr, hld, han⟩
  | close =>
    injection hs with hs; subst hs
    exact ⟨by rw [lastAlive_snoc]; exact h.alive, by rw [lastReady_snoc]; exact h.ready, by simp, by simp, han⟩
  | arrive id path =>
    dsimp only [stepListener] at hs
    split at hs
    · injection hs with hs; subst hs
      refine ⟨by rw [lastAlive_snoc]; exact h.alive, by rw [lastReady_snoc]; exact h.ready, ?_, hld, han⟩
      intro x hx
      rcases List.mem_append.1 hx with hx | hx
      · exact harr x hx
      · rw [List.mem_singleton] at hx
        subst hx
        exact ⟨hist, [], rfl⟩
    · cases hs
  | load id =>
    dsimp only [stepListener] at hs
    cases ht : take id l.arrived with
    | none => rw [ht] at hs; cases hs
    | some q =>
      obtain ⟨path, rest⟩ := q
      rw [ht] at hs
      injection hs with hs; subst hs
      obtain ⟨g1, g2⟩ := take_mem ht
      refine ⟨by rw [lastAlive_snoc]; exact h.alive, by rw [lastReady_snoc]; exact h.ready,
        fun x hx => harr x (g2 x hx), ?_, han⟩
      intro x hx
      rcases List.mem_append.1 hx with hx | hx
      · exact hld x hx
      · rw [List.mem_singleton] at hx
        subst hx
        obtain ⟨b, a, e⟩ := h.arrived _ g1
        refine ⟨path, b, a, [.load id], by rw [e]; simp, ?_⟩
        rw [← e]
        show status l path = due path hist
        unfold status due
        rw [h.alive, h.ready]
  | answer id =>
    dsimp only [stepListener] at hs
    cases ht : take id l.loaded with
    | none => rw [ht] at hs; cases hs
    | some q =>
      obtain ⟨st, rest⟩ := q
      rw [ht] at hs
      injection hs with hs; subst hs
      obtain ⟨g1, g2⟩ := take_mem ht
      refine ⟨by rw [lastAlive_snoc]; exact h.alive, by rw [lastReady_snoc]; exact h.ready, harr,
        fun x hx => hld x (g2 x hx), ?_⟩
      intro x hx
      rcases List.mem_append.1 hx with hx | hx
      · exact han x hx
      · rw [List.mem_singleton] at hx
        subst hx
        exact hld _ g1

theorem run_cons (l : Listener) (s : Step) (ss : List Step) :
    run (.listener l) (s :: ss) = (stepListener l s).bind (fun l' => run (.listener l') ss) := by
  show (match (stepListener l s).map Probes.listener with
    | none => none
    | some p => run p ss) = _
  cases stepListener l s <;> rfl

theorem run_inv (hist rest : List Step) (l : Listener) (h : Inv hist l) (p : Probes)
    (hr : run (.listener l) rest = some p) : ∃ l', p = .listener l' ∧ Inv (hist ++ rest) l' := by
  induction rest generalizing hist l with
  | nil =>
    injection hr with hr
    exact ⟨l, hr.symm, by rw [List.append_nil]; exact h⟩
  | cons s ss ih =>
    rw [run_cons] at hr
    cases hs : stepListener l s with
    | none => rw [hs] at hr; cases hr
    | some l1 =>
      rw [hs] at hr
      obtain ⟨l', e, hl'⟩ := ih (hist ++ [s]) l1 (inv_step h s hs) hr
      exact ⟨l', e, by rw [List.append_assoc] at hl'; exact hl'⟩

/-- **C64.** With a positive port, in every execution each answer given is
200, 503 or 404 according to the last state set at some moment between the
request's arrival and its answer. -/
theorem C64_answers (port : Int) (hp : 0 < port) (hist : List Step) (p : Probes)
    (h : run (listen port) hist = some p) :
    ∃ l, p = .listener l ∧ ∀ id st, (id, st) ∈ l.answers → Due hist id st := by
  unfold listen at h
  rw [if_neg (by omega)] at h
  obtain ⟨l, e, hl⟩ := run_inv [] hist _ ⟨rfl, rfl, by simp, by simp, by simp⟩ p h
  exact ⟨l, e, fun id st hm => hl.answers _ hm⟩

/-- **C64.** A request made while no state is being set gets the state last
set: 200 from `/readyz` exactly if the last `SetReady` was true. -/
theorem C64_last_state (port : Int) (hp : 0 < port) (hist : List Step) (p : Probes)
    (h : run (listen port) hist = some p) (id : Nat) (path : Bytes) (hid : ∀ x, .arrive id x ∉ hist)
    (hopen : .close ∉ hist) :
    ∃ l, run p [.arrive id path, .load id, .answer id] = some (.listener l) ∧
      l.answers.getLast? = some (id, due path hist) := by
  unfold listen at h
  rw [if_neg (by omega)] at h
  obtain ⟨l, rfl, hl⟩ := run_inv [] hist _ ⟨rfl, rfl, by simp, by simp, by simp⟩ p h
  rw [List.nil_append] at hl
  -- the server still serves
  have hserv : l.serving = true := by
    have key : ∀ (ss : List Step) (l0 l1 : Listener), .close ∉ ss → l0.serving = true →
        run (.listener l0) ss = some (.listener l1) → l1.serving = true := by
      intro ss
      induction ss with
      | nil => intro l0 l1 _ h0 hr; injection hr with hr; injection hr with hr; subst hr; exact h0
      | cons s ss ih =>
        intro l0 l1 hc h0 hr
        rw [run_cons] at hr
        cases hs : stepListener l0 s with
        | none => rw [hs] at hr; cases hr
        | some l2 =>
          rw [hs] at hr
          refine ih l2 l1 (fun hm => hc (List.mem_cons_of_mem _ hm)) ?_ hr
          cases s with
          | setAlive b => injection hs with hs; subst hs; exact h0
          | setReady b => injection hs with hs; subst hs; exact h0
          | close => exact absurd (by simp) hc
          | arrive i pth =>
            dsimp only [stepListener] at hs
            rw [if_pos h0] at hs
            injection hs with hs; subst hs; exact h0
          | load i =>
            dsimp only [stepListener] at hs
            split at hs
            · cases hs
            · injection hs with hs; subst hs; exact h0
          | answer i =>
            dsimp only [stepListener] at hs
            split at hs
            · cases hs
            · injection hs with hs; subst hs; exact h0
    exact key hist _ l hopen rfl h
  have hfresh : ∀ (xs : List (Nat × Bytes)), (∀ x ∈ xs, x.1 ≠ id) → take id (xs ++ [(id, path)]) = some (path, xs) := by
    intro xs
    induction xs with
    | nil => intro _; simp [take]
    | cons x xs ih =>
      intro hx
      obtain ⟨k, b⟩ := x
      have hk : k ≠ id := hx (k, b) (by simp)
      rw [List.cons_append]
      unfold take
      rw [if_neg hk, ih (fun y hy => hx y (List.mem_cons_of_mem _ hy))]
  have hfresh2 : ∀ (st : Nat) (xs : List (Nat × Nat)), (∀ x ∈ xs, x.1 ≠ id) → take id (xs ++ [(id, st)]) = some (st, xs) := by
    intro st xs
    induction xs with
    | nil => intro _; simp [take]
    | cons x xs ih =>
      intro hx
      obtain ⟨k, b⟩ := x
      have hk : k ≠ id := hx (k, b) (by simp)
      rw [List.cons_append]
      unfold take
      rw [if_neg hk, ih (fun y hy => hx y (List.mem_cons_of_mem _ hy))]
  have ha : ∀ x ∈ l.arrived, x.1 ≠ id := by
    rintro ⟨k, pth⟩ hx e
    obtain ⟨b, a, e2⟩ := hl.arrived _ hx
    simp only at e e2
    exact hid pth (by rw [e2, e]; simp)
  have hlo : ∀ x ∈ l.loaded, x.1 ≠ id := by
    rintro ⟨k, st⟩ hx e
    obtain ⟨pth, b, d, a, e2, -⟩ := hl.loaded _ hx
    simp only at e e2
    exact hid pth (by rw [e2, e]; simp)
  let l1 : Listener := { l with arrived := l.arrived ++ [(id, path)] }
  let l2 : Listener := { l with loaded := l.loaded ++ [(id, status l path)] }
  let l3 : Listener := { l with answers := l.answers ++ [(id, status l path)] }
  have s1 : stepListener l (.arrive id path) = some l1 := by
    dsimp only [stepListener]
    rw [if_pos hserv]
  have s2 : stepListener l1 (.load id) = some l2 := by
    show (match take id (l.arrived ++ [(id, path)]) with
      | none => none
      | some (path, rest) => some { l1 with arrived := rest, loaded := l1.loaded ++ [(id, status l1 path)] }) = _
    rw [hfresh _ ha]
    rfl
  have s3 : stepListener l2 (.answer id) = some l3 := by
    show (match take id (l.loaded ++ [(id, status l path)]) with
      | none => none
      | some (st, rest) => some { l2 with loaded := rest, answers := l2.answers ++ [(id, st)] }) = _
    rw [hfresh2 _ _ hlo]
  refine ⟨l3, ?_, ?_⟩
  · simp only [run, step, s1, s2, s3, Option.map_some]
  · show (l.answers ++ [(id, status l path)]).getLast? = _
    rw [List.getLast?_append]
    simp only [List.getLast?_singleton, Option.some_or]
    unfold status due
    rw [hl.alive, hl.ready]

/-- **C64.** With port 0 or less nothing is served and calls have no effect. -/
theorem C64_disabled (port : Int) (hp : port ≤ 0) (hist : List Step) (p : Probes)
    (h : run (listen port) hist = some p) : p = .null ∧ ∀ id path, .arrive id path ∉ hist := by
  have e : listen port = .null := by unfold listen; rw [if_pos hp]
  rw [e] at h
  clear e hp
  induction hist with
  | nil => injection h with h; exact ⟨h.symm, by simp⟩
  | cons s ss ih =>
    unfold run at h
    cases s with
    | setAlive b => obtain ⟨h1, h2⟩ := ih h; exact ⟨h1, fun id path hm => by
        rcases List.mem_cons.1 hm with e | e
        · cases e
        · exact h2 id path e⟩
    | setReady b => obtain ⟨h1, h2⟩ := ih h; exact ⟨h1, fun id path hm => by
        rcases List.mem_cons.1 hm with e | e
        · cases e
        · exact h2 id path e⟩
    | close => obtain ⟨h1, h2⟩ := ih h; exact ⟨h1, fun id path hm => by
        rcases List.mem_cons.1 hm with e | e
        · cases e
        · exact h2 id path e⟩
    | arrive i q => cases h
    | load i => cases h
    | answer i => cases h

/-- **C64.** After `Close` no request is accepted or answered. -/
theorem C64_closed (l : Listener) (rest : List Step) (p : Probes)
    (h : run (.listener l) (.close :: rest) = some p) :
    ∃ l', p = .listener l' ∧ l'.answers = l.answers ∧ ∀ id path, .arrive id path ∉ rest := by
  have key : ∀ (ss : List Step) (l0 : Listener), l0.serving = false → l0.arrived = [] → l0.loaded = [] →
      run (.listener l0) ss = some p →
      ∃ l', p = .listener l' ∧ l'.answers = l0.answers ∧ ∀ id path, Step.arrive id path ∉ ss := by
    intro ss
    induction ss with
    | nil => intro l0 _ _ _ hr; injection hr with hr; exact ⟨l0, hr.symm, rfl, by simp⟩
    | cons s ss ih =>
      intro l0 h1 h2 h3 hr
      rw [run_cons] at hr
      cases s with
      | setAlive b =>
        obtain ⟨l', g1, g2, g3⟩ := ih { l0 with alive := b } h1 h2 h3 hr
        exact ⟨l', g1, g2, fun id path hm => by
          rcases List.mem_cons.1 hm with e | e
          · cases e
          · exact g3 id path e⟩
      | setReady b =>
        obtain ⟨l', g1, g2, g3⟩ := ih { l0 with ready := b } h1 h2 h3 hr
        exact ⟨l', g1, g2, fun id path hm => by
          rcases List.mem_cons.1 hm with e | e
          · cases e
          · exact g3 id path e⟩
      | close =>
        obtain ⟨l', g1, g2, g3⟩ := ih { l0 with serving := false, arrived := [], loaded := [] } rfl rfl rfl hr
        exact ⟨l', g1, g2, fun id path hm => by
          rcases List.mem_cons.1 hm with e | e
          · cases e
          · exact g3 id path e⟩
      | arrive i q =>
        dsimp only [stepListener] at hr
        rw [h1] at hr
        cases hr
      | load i =>
        dsimp only [stepListener] at hr
        rw [h2] at hr
        cases hr
      | answer i =>
        dsimp only [stepListener] at hr
        rw [h3] at hr
        cases hr
  exact key rest { l with serving := false, arrived := [], loaded := [] } rfl rfl rfl h

/-- Test: two requests that overlap a call of `SetReady`. -/
example : (run (listen 8080) [.arrive 1 b!"/readyz", .arrive 2 b!"/healthz", .setReady true, .load 1, .load 2,
      .setReady false, .answer 1, .answer 2]).map (fun p => match p with | .listener l => l.answers | .null => [])
    = some [(1, 200), (2, 200)] := by decide

end Spout.Probes
