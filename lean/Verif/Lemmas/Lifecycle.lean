import Verif.Model.Lifecycle

/-! # Invariants of starting and stopping, for every well formed component -/

set_option linter.unusedSimpArgs false

namespace Spout.Lifecycle

/-- Operations that goroutines other than the caller's execute. -/
def threadOp : Op → Bool
  | .setReady _ => true
  | .awaitStop => true
  | .release _ => true
  | .done => true
  | .spawn _ => true
  | .listen => true
  | .serve => true
  | .closeServer => true
  | _ => false

/-- `wg.Done()` calls in a program. -/
def dones (l : List Op) : Nat := l.countP (fun o => o = .done)

/-- What an operation of the caller does to the number of `Done` calls owed. -/
def delta (c : Comp) : Op → Int
  | .add n => n
  | .spawn g => - (dones (c.body g) : Int)
  | _ => 0

def bal (c : Comp) : List Op → Int
  | [] => 0
  | o :: rest => delta c o + bal c rest

theorem bal_append (c : Comp) (a b : List Op) : bal c (a ++ b) = bal c a + bal c b := by
  induction a with
  | nil => simp [bal]
  | cons o a ih => simp only [List.cons_append, bal, ih]; omega

theorem bal_zero (c : Comp) (l : List Op) (h : ∀ o ∈ l, delta c o = 0) : bal c l = 0 := by
  induction l with
  | nil => rfl
  | cons o l ih =>
    simp only [bal]
    rw [h o (by simp), ih (fun o ho => h o (by simp [ho]))]; rfl

/-- What was acquired is released by `Stop` or by a goroutine that `Stop` waits for. -/
def Own (c : Comp) (pre : List Op) : Prop :=
  ∀ r, .acquire r ∈ pre → .release r ∈ c.stop ∨ .releaseIfSet r ∈ c.stop ∨
    ∃ g, .spawn g ∈ pre ∧ .release r ∈ c.body g ∧ .done ∈ c.body g

/-- What has to hold of every operation of `StartX` and those before it. -/
structure Pos (c : Comp) (pre : List Op) (o : Op) : Prop where
  owed : fallible o = true → bal c pre = 0
  nonneg : 0 ≤ bal c pre + delta c o
  acq : ∀ r, o = .acquire r → ∀ g, .spawn g ∈ pre → .release r ∉ c.body g
  noStop : o ≠ .closeStop ∧ o ≠ .wait ∧ o ≠ .awaitStop ∧ o ≠ .done ∧ o ≠ .listen ∧ o ≠ .serve ∧ o ≠ .closeServer
    ∧ ∀ r, o ≠ .release r
  /-- what a goroutine closes was opened before it is started -/
  rel : ∀ g, o = .spawn g → ∀ r, .release r ∈ c.body g → .acquire r ∈ pre
  /-- an unguarded `Close` in `Stop` is of something opened before `defer` -/
  stopRel : ∀ r, .release r ∈ c.stop → .deferStop ∈ pre → .acquire r ∈ pre

/-- A property of every operation of a program and those before it. -/
def AllPos (P : List Op → Op → Prop) : List Op → List Op → Prop
  | _, [] => True
  | pre, o :: rest => P pre o ∧ AllPos P (pre ++ [o]) rest

theorem AllPos_append (P : List Op → Op → Prop) (pre a b : List Op) :
    AllPos P pre (a ++ b) ↔ AllPos P pre a ∧ AllPos P (pre ++ a) b := by
  induction a generalizing pre with
  | nil => simp [AllPos]
  | cons o a ih =>
    simp only [List.cons_append, AllPos, ih, and_assoc, List.append_assoc, List.singleton_append, List.cons_append, List.nil_append]

theorem AllPos_at {P : List Op → Op → Prop} {l : List Op} {a b : List Op} {o : Op}
    (h : AllPos P [] l) (e : l = a ++ o :: b) : P a o := by
  rw [e, AllPos_append] at h
  have := h.2.1
  simpa using this

/-- Well formed components. -/
structure WF (c : Comp) : Prop where
  start_ne : c.start ≠ []
  stop_ne : c.stop ≠ []
  pos : AllPos (Pos c) [] c.start
  balEnd : bal c c.start = 0
  stop_split : ∃ a b, c.stop = a ++ .closeStop :: .wait :: b ∧ .closeStop ∉ a ∧ .wait ∉ a ∧ .closeStop ∉ b ∧ .wait ∉ b
  stop_plain : ∀ o ∈ c.stop, fallible o = false ∧ delta c o = 0 ∧ born c o = [] ∧
    o ≠ .done ∧ o ≠ .awaitStop ∧ o ≠ .listen ∧ o ≠ .serve ∧ o ≠ .deferStop
  stop_rel' : ∀ r, .release r ∈ c.stop → .acquire r ∈ c.start
  body_op : ∀ g, ∀ o ∈ c.body g, threadOp o = true
  body_done : ∀ g, .done ∉ c.body g ∨ ∃ p, c.body g = p ++ [.done] ∧ .done ∉ p
  body_serve : ∀ g, .done ∈ c.body g → .serve ∉ c.body g
  inner : ∀ g g', .spawn g' ∈ c.body g → .done ∉ c.body g' ∧ (∀ r, .release r ∉ c.body g') ∧
    ∀ g'', .spawn g'' ∉ c.body g'

theorem WF.stop_rel {c : Comp} (wf : WF c) (r : Resource) (h : .release r ∈ c.stop) (pre : List Op) (o : Op)
    (post : List Op) (e : c.start = pre ++ o :: post) (hd : .deferStop ∈ pre) : .acquire r ∈ pre :=
  (AllPos_at wf.pos e).stopRel r h hd

theorem WF.body_rel {c : Comp} (wf : WF c) (g : Gid) (r : Resource) (h : .release r ∈ c.body g) (pre post : List Op)
    (e : c.start = pre ++ .spawn g :: post) : .acquire r ∈ pre :=
  (AllPos_at wf.pos e).rel g rfl r h

/-! ## Steps -/

/-- What a step is. -/
theorem step_cases {c : Comp} {s s' : St} {l : Label} (h : step c s l = .ok s') :
    (l = .callStop ∧ s.phase = .running ∧ s' = { s with phase := .stopping, main := c.stop }) ∨
    (∃ good o rest, l = .main good ∧ s.main = o :: rest ∧ outcome s.sh good o = .ok ∧
      s' = finish { s with sh := eff s.sh o, main := rest, threads := s.threads ++ born c o, did := s.did ++ [o] }) ∨
    (∃ good o rest, l = .main good ∧ s.main = o :: rest ∧ outcome s.sh good o = .fail ∧
      s' = finish { s with phase := .failing, main := if s.sh.deferred then c.stop else [] }) ∨
    (∃ i g o rest good, l = .go i good ∧ s.threads[i]? = some (g, o :: rest) ∧ outcome s.sh good o = .ok ∧
      s' = { s with sh := eff s.sh o, threads := s.threads.set i (g, rest) ++ born c o }) := by
  cases l with
  | callStop =>
    left
    dsimp only [step] at h
    split at h
    · injection h with h
      exact ⟨rfl, by assumption, h.symm⟩
    · cases h
  | main good =>
    right
    dsimp only [step] at h
    cases hm : s.main with
    | nil => rw [hm] at h; cases h
    | cons o rest =>
      rw [hm] at h
      dsimp only at h
      cases ho : outcome s.sh good o with
      | ok =>
        rw [ho] at h
        injection h with h
        exact Or.inl ⟨good, o, rest, rfl, rfl, ho, h.symm⟩
      | fail =>
        rw [ho] at h
        injection h with h
        exact Or.inr (Or.inl ⟨good, o, rest, rfl, rfl, ho, h.symm⟩)
      | blocked => rw [ho] at h; cases h
      | panic => rw [ho] at h; cases h
      | exit => rw [ho] at h; cases h
  | go i good =>
    right; right; right
    dsimp only [step] at h
    cases ht : s.threads[i]? with
    | none => rw [ht] at h; cases h
    | some t =>
      obtain ⟨g, rem⟩ := t
      cases rem with
      | nil => rw [ht] at h; cases h
      | cons o rest =>
        rw [ht] at h
        dsimp only at h
        cases ho : outcome s.sh good o with
        | ok =>
          rw [ho] at h
          injection h with h
          exact ⟨i, g, o, rest, good, rfl, ht, ho, h.symm⟩
        | fail => rw [ho] at h; cases h
        | blocked => rw [ho] at h; cases h
        | panic => rw [ho] at h; cases h
        | exit => rw [ho] at h; cases h

theorem finish_sh (s : St) : (finish s).sh = s.sh := by
  unfold finish; split
  · split <;> rfl
  · rfl

theorem finish_main (s : St) : (finish s).main = s.main := by
  unfold finish; split
  · split <;> rfl
  · rfl

theorem finish_threads (s : St) : (finish s).threads = s.threads := by
  unfold finish; split
  · split <;> rfl
  · rfl

theorem finish_did (s : St) : (finish s).did = s.did := by
  unfold finish; split
  · split <;> rfl
  · rfl

theorem outcome_fail {sh : Shared} {good : Bool} {o : Op} (h : outcome sh good o = .fail) : fallible o = true := by
  by_cases hf : fallible o = true
  · exact hf
  · unfold outcome at h
    rw [if_neg hf] at h
    cases o <;> simp only at h <;> first | contradiction | (split at h <;> first | contradiction | (split at h <;> contradiction))

/-! ## Where `StartX` and `Stop` are -/

/-- An operation of `StartX` returned an error after `pre`. -/
def FailedAt (c : Comp) (pre : List Op) : Prop :=
  ∃ o post, c.start = pre ++ o :: post ∧ fallible o = true

/-- What the caller has executed and what is left. -/
inductive Shape (c : Comp) : Phase → List Op → List Op → Prop where
  | starting {did main : List Op} : main ≠ [] → did ++ main = c.start → Shape c .starting did main
  | running : Shape c .running c.start []
  | stopping {d main : List Op} : main ≠ [] → d ++ main = c.stop → Shape c .stopping (c.start ++ d) main
  | stopped : Shape c .stopped (c.start ++ c.stop) []
  | failing {pre d main : List Op} : FailedAt c pre → .deferStop ∈ pre → main ≠ [] → d ++ main = c.stop →
      Shape c .failing (pre ++ d) main
  | failed {pre : List Op} : FailedAt c pre → .deferStop ∈ pre → Shape c .failed (pre ++ c.stop) []
  | leaked {pre : List Op} : FailedAt c pre → .deferStop ∉ pre → Shape c .failed pre []

/-- Fields that only the caller's goroutine changes. -/
structure Agree (a b : Shared) : Prop where
  probes : a.probes = b.probes
  alive : a.alive = b.alive
  deferred : a.deferred = b.deferred
  made : a.made = b.made
  subs : a.subs = b.subs
  limited : a.limited = b.limited
  flushed : a.flushed = b.flushed
  stopped : a.stopped = b.stopped

theorem Agree.refl (a : Shared) : Agree a a := ⟨rfl, rfl, rfl, rfl, rfl, rfl, rfl, rfl⟩

theorem Agree.eff {a b : Shared} (h : Agree a b) (o : Op) : Agree (eff a o) (eff b o) := by
  obtain ⟨h1, h2, h3, h4, h5, h6, h7, h8⟩ := h
  cases o with
  | listen =>
    dsimp only [Lifecycle.eff]
    split <;> split <;> exact ⟨h1, h2, h3, h4, h5, h6, h7, h8⟩
  | _ => constructor <;> simp only [Lifecycle.eff, *]

theorem Agree.thread {a b : Shared} (h : Agree a b) {o : Op} (ho : threadOp o = true) : Agree (Lifecycle.eff a o) b := by
  obtain ⟨h1, h2, h3, h4, h5, h6, h7, h8⟩ := h
  cases o with
  | listen =>
    dsimp only [Lifecycle.eff]
    split <;> exact ⟨h1, h2, h3, h4, h5, h6, h7, h8⟩
  | setReady b => exact ⟨h1, h2, h3, h4, h5, h6, h7, h8⟩
  | awaitStop => exact ⟨h1, h2, h3, h4, h5, h6, h7, h8⟩
  | release r => exact ⟨h1, h2, h3, h4, h5, h6, h7, h8⟩
  | done => exact ⟨h1, h2, h3, h4, h5, h6, h7, h8⟩
  | spawn g => exact ⟨h1, h2, h3, h4, h5, h6, h7, h8⟩
  | serve => exact ⟨h1, h2, h3, h4, h5, h6, h7, h8⟩
  | closeServer => exact ⟨h1, h2, h3, h4, h5, h6, h7, h8⟩
  | _ => cases ho

/-- The shared state if only the caller's operations had happened. -/
def replay (l : List Op) : Shared := l.foldl eff shared0

theorem replay_snoc (l : List Op) (o : Op) : replay (l ++ [o]) = eff (replay l) o := by
  simp [replay, List.foldl_append]

theorem replay_deferred (l : List Op) : (replay l).deferred = true ↔ .deferStop ∈ l := by
  have key : ∀ (l : List Op) (s : Shared), (l.foldl eff s).deferred = true ↔ s.deferred = true ∨ Op.deferStop ∈ l := by
    intro l
    induction l with
    | nil => simp
    | cons o l ih =>
      intro s
      rw [List.foldl_cons, ih]
      cases o with
      | listen => dsimp only [eff]; split <;> simp
      | deferStop => simp [eff]
      | _ => simp [eff]
  rw [replay, key]
  simp [shared0]

theorem replay_stopped (l : List Op) : (replay l).stopped = true ↔ .closeStop ∈ l := by
  have key : ∀ (l : List Op) (s : Shared), (l.foldl eff s).stopped = true ↔ s.stopped = true ∨ Op.closeStop ∈ l := by
    intro l
    induction l with
    | nil => simp
    | cons o l ih =>
      intro s
      rw [List.foldl_cons, ih]
      cases o with
      | listen => dsimp only [eff]; split <;> simp
      | closeStop => simp [eff]
      | _ => simp [eff]
  rw [replay, key]
  simp [shared0]

theorem replay_made (l : List Op) (r : Resource) : r ∈ (replay l).made ↔ .acquire r ∈ l := by
  have key : ∀ (l : List Op) (s : Shared), r ∈ (l.foldl eff s).made ↔ r ∈ s.made ∨ Op.acquire r ∈ l := by
    intro l
    induction l with
    | nil => simp
    | cons o l ih =>
      intro s
      rw [List.foldl_cons, ih]
      cases o with
      | listen => dsimp only [eff]; split <;> simp
      | acquire q =>
        simp only [eff, List.mem_cons, Op.acquire.injEq]
        constructor
        · rintro ((h | h) | h)
          · exact Or.inr (Or.inl h)
          · exact Or.inl h
          · exact Or.inr (Or.inr h)
        · rintro (h | h | h)
          · exact Or.inl (Or.inr h)
          · exact Or.inl (Or.inl h)
          · exact Or.inr h
      | _ => simp [eff]
  rw [replay, key]
  simp [shared0]

/-! ## Sums over the goroutines -/

def tsum (f : List Op → Nat) : List (Gid × List Op) → Nat
  | [] => 0
  | t :: ts => f t.2 + tsum f ts

theorem tsum_append (f : List Op → Nat) (a b : List (Gid × List Op)) : tsum f (a ++ b) = tsum f a + tsum f b := by
  induction a with
  | nil => simp [tsum]
  | cons t a ih => simp only [List.cons_append, tsum, ih]; omega

theorem tsum_set (f : List Op → Nat) (l : List (Gid × List Op)) (i : Nat) (t t' : Gid × List Op)
    (h : l[i]? = some t) : tsum f (l.set i t') + f t.2 = tsum f l + f t'.2 := by
  induction l generalizing i with
  | nil => simp at h
  | cons a l ih =>
    cases i with
    | zero =>
      simp only [List.getElem?_cons_zero, Option.some.injEq] at h
      subst h
      simp only [List.set_cons_zero, tsum]; omega
    | succ i =>
      simp only [List.getElem?_cons_succ] at h
      simp only [List.set_cons_succ, tsum]
      have := ih i h
      omega

theorem tsum_zero (f : List Op → Nat) (l : List (Gid × List Op)) : tsum f l = 0 ↔ ∀ t ∈ l, f t.2 = 0 := by
  induction l with
  | nil => simp [tsum]
  | cons a l ih =>
    simp only [tsum, List.mem_cons, forall_eq_or_imp, ← ih]
    omega

theorem dones_cons (o : Op) (l : List Op) : dones (o :: l) = dones l + (if o = .done then 1 else 0) := by
  simp [dones, List.countP_cons]

theorem dones_zero (l : List Op) : dones l = 0 ↔ .done ∉ l := by
  simp only [dones, List.countP_eq_zero, decide_eq_true_eq]
  constructor
  · intro h hm; exact h _ hm rfl
  · intro h o ho e; exact h (e ▸ ho)

theorem mem_set_cases {α : Type} {l : List α} {i : Nat} {a t : α} (h : t ∈ l.set i a) : t = a ∨ t ∈ l := by
  rcases List.mem_or_eq_of_mem_set h with h | h
  · exact Or.inr h
  · exact Or.inl h

/-- Goroutines change only in what is left of them. -/
theorem gid_set {l : List (Gid × List Op)} {i : Nat} {g : Gid} {rem rest : List Op}
    (h : l[i]? = some (g, rem)) (g' : Gid) :
    (∃ t ∈ l.set i (g, rest), t.1 = g') ↔ ∃ t ∈ l, t.1 = g' := by
  have key : (l.set i (g, rest)).map Prod.fst = l.map Prod.fst := by
    rw [List.map_set]
    apply List.ext_getElem?
    intro j
    by_cases hj : j = i
    · subst hj
      rw [List.getElem?_set_self', List.getElem?_map, h]
      rfl
    · rw [List.getElem?_set_ne (by omega)]
  have m : ∀ (l : List (Gid × List Op)), (∃ t ∈ l, t.1 = g') ↔ g' ∈ l.map Prod.fst := by
    intro l
    simp only [List.mem_map]
  rw [m, m, key]

/-! ## The invariant -/

structure Inv (c : Comp) (s : St) : Prop where
  shape : Shape c s.phase s.did s.main
  agree : Agree s.sh (replay s.did)
  suffix : ∀ t ∈ s.threads, ∃ p, c.body t.1 = p ++ t.2
  wg : s.sh.wg = bal c s.did + (tsum dones s.threads : Int)
  spawned : ∀ g, .spawn g ∈ s.did → ∃ t ∈ s.threads, t.1 = g
  origin : ∀ t ∈ s.threads, .spawn t.1 ∈ s.did ∨ ∃ g, .spawn t.1 ∈ c.body g
  awaiting : s.sh.stopped = false → ∀ t ∈ s.threads, .awaitStop ∈ c.body t.1 → .awaitStop ∈ t.2
  live : ∀ r ∈ s.sh.live, r ∈ (replay s.did).live ∧ ∀ t ∈ s.threads, .release r ∈ c.body t.1 → .release r ∈ t.2
  waited : .wait ∈ s.did → ∀ t ∈ s.threads, .done ∉ t.2

theorem Shape.finish {c : Comp} {s : St}
    (h : (s.main ≠ [] ∧ Shape c s.phase s.did s.main) ∨
      (s.main = [] ∧ ((s.phase = .starting ∧ s.did = c.start) ∨
        (s.phase = .stopping ∧ s.did = c.start ++ c.stop) ∨
        (s.phase = .failing ∧ ∃ pre, FailedAt c pre ∧ .deferStop ∈ pre ∧ s.did = pre ++ c.stop) ∨
        (s.phase = .failing ∧ FailedAt c s.did ∧ .deferStop ∉ s.did)))) :
    Shape c (Lifecycle.finish s).phase (Lifecycle.finish s).did (Lifecycle.finish s).main := by
  rcases h with ⟨h1, h2⟩ | ⟨h1, h2⟩
  · rw [Lifecycle.finish, if_neg h1]; exact h2
  · rw [finish_did, finish_main, h1]
    rw [Lifecycle.finish, if_pos h1]
    rcases h2 with ⟨e, h⟩ | ⟨e, h⟩ | ⟨e, pre, h, h', h''⟩ | ⟨e, h, h'⟩
    · rw [e, h]; exact .running
    · rw [e, h]; exact .stopped
    · rw [e, h'']; exact .failed h h'
    · rw [e]; exact .leaked h h'

/-- The operation executed next, in `StartX` or in `Stop`. -/
theorem Shape.next {c : Comp} (wf : WF c) {ph : Phase} {did rest : List Op} {o : Op}
    (h : Shape c ph did (o :: rest)) :
    (ph = .starting ∧ did ++ o :: rest = c.start ∧ Pos c did o) ∨
    (o ∈ c.stop ∧ ∃ base d, did = base ++ d ∧ d ++ o :: rest = c.stop ∧ bal c base = 0 ∧
      .closeStop ∉ base ∧ .wait ∉ base ∧
      ((ph = .stopping ∧ base = c.start) ∨ (ph = .failing ∧ FailedAt c base ∧ .deferStop ∈ base))) := by
  have nost : ∀ pre post : List Op, c.start = pre ++ post → .closeStop ∉ pre ∧ .wait ∉ pre := by
    intro pre post e
    constructor <;> intro hm <;> obtain ⟨a, b, hab⟩ := List.append_of_mem hm
    · have := AllPos_at wf.pos (a := a) (o := .closeStop) (b := b ++ post) (by rw [e, hab]; simp)
      exact this.noStop.1 rfl
    · have := AllPos_at wf.pos (a := a) (o := .wait) (b := b ++ post) (by rw [e, hab]; simp)
      exact this.noStop.2.1 rfl
  generalize hm : o :: rest = m at h
  cases h with
  | starting hne e => subst hm; exact Or.inl ⟨rfl, e, AllPos_at wf.pos e.symm⟩
  | running => cases hm
  | @stopping d _ hne e =>
    subst hm
    refine Or.inr ⟨by rw [← e]; simp, c.start, d, rfl, e, wf.balEnd, ?_, ?_, Or.inl ⟨rfl, rfl⟩⟩
    · exact (nost c.start [] (by simp)).1
    · exact (nost c.start [] (by simp)).2
  | stopped => cases hm
  | @failing pre d _ hf hd hne e =>
    subst hm
    obtain ⟨o', post, e', hfa⟩ := hf
    refine Or.inr ⟨by rw [← e]; simp, pre, d, rfl, e, (AllPos_at wf.pos e').owed hfa, ?_, ?_,
      Or.inr ⟨rfl, ⟨o', post, e', hfa⟩, hd⟩⟩
    · exact (nost pre _ e').1
    · exact (nost pre _ e').2
  | failed => cases hm
  | leaked => cases hm

theorem inv_init (c : Comp) (wf : WF c) : Inv c (init c) where
  shape := .starting wf.start_ne rfl
  agree := Agree.refl _
  suffix := by simp [init]
  wg := rfl
  spawned := by simp [init]
  origin := by simp [init]
  awaiting := by simp [init]
  live := by simp [init, shared0]
  waited := by simp [init]

theorem mem_born {c : Comp} {o : Op} {t : Gid × List Op} (h : t ∈ born c o) : o = .spawn t.1 ∧ t.2 = c.body t.1 := by
  cases o with
  | spawn g => rw [born, List.mem_singleton] at h; subst h; exact ⟨rfl, rfl⟩
  | _ => simp [born] at h

theorem live_eff (sh : Shared) (o : Op) (r : Resource) (h : r ∈ (eff sh o).live) :
    r ∈ sh.live ∨ o = .acquire r := by
  cases o with
  | listen => dsimp only [eff] at h; split at h <;> exact Or.inl h
  | acquire q =>
    simp only [eff, List.mem_cons] at h
    rcases h with h | h
    · right; rw [h]
    · exact Or.inl h
  | release q => simp only [eff, List.mem_filter] at h; exact Or.inl h.1
  | releaseIfSet q => simp only [eff, List.mem_filter] at h; exact Or.inl h.1
  | _ => exact Or.inl h

theorem live_eff_rel (sh : Shared) (o : Op) (r : Resource) (h : r ∈ (eff sh o).live) :
    o ≠ .release r ∧ o ≠ .releaseIfSet r := by
  constructor
  · rintro rfl; simp [eff] at h
  · rintro rfl; simp [eff] at h

theorem live_eff_mono {a b : Shared} {r : Resource} (h : r ∈ a.live → r ∈ b.live) (o : Op)
    (hr : r ∈ (eff a o).live) : r ∈ (eff b o).live := by
  cases o with
  | listen =>
    dsimp only [eff] at hr ⊢
    split at hr <;> split <;> exact h hr
  | acquire q =>
    simp only [eff, List.mem_cons] at hr ⊢
    rcases hr with hr | hr
    · exact Or.inl hr
    · exact Or.inr (h hr)
  | release q => simp only [eff, List.mem_filter] at hr ⊢; exact ⟨h hr.1, hr.2⟩
  | releaseIfSet q => simp only [eff, List.mem_filter] at hr ⊢; exact ⟨h hr.1, hr.2⟩
  | _ => exact h hr

theorem wg_eff (sh : Shared) (o : Op) (h : o ≠ .done) (c : Comp) :
    (eff sh o).wg = sh.wg + delta c o + (tsum dones (born c o) : Int) := by
  cases o with
  | listen => dsimp only [eff]; split <;> simp [delta, born, tsum]
  | done => exact absurd rfl h
  | add n => simp [eff, delta, born, tsum]
  | spawn g => simp only [eff, delta, born, tsum]; omega
  | _ => simp [eff, delta, born, tsum]

theorem tsum_born_inner {c : Comp} (wf : WF c) {g : Gid} {o : Op} (h : o ∈ c.body g) : tsum dones (born c o) = 0 := by
  cases o with
  | spawn g' =>
    simp only [born, tsum, Nat.add_zero]
    exact (dones_zero _).2 (wf.inner g g' h).1
  | _ => simp [born, tsum]

theorem wg_eff_thread (sh : Shared) (o : Op) (h : threadOp o = true) :
    (eff sh o).wg = sh.wg - (if o = .done then 1 else 0) := by
  cases o with
  | listen => dsimp only [eff]; split <;> simp
  | done => simp [eff]
  | _ => first | (cases h; done) | simp [eff]

theorem mem_body {c : Comp} {s : St} (h : ∀ t ∈ s.threads, ∃ p, c.body t.1 = p ++ t.2) {i : Nat} {g : Gid} {o : Op}
    {rest : List Op} (hi : s.threads[i]? = some (g, o :: rest)) : o ∈ c.body g := by
  obtain ⟨p, e⟩ := h (g, o :: rest) (List.mem_of_getElem? hi)
  simp only at e
  rw [e]
  simp

theorem inv_step {c : Comp} (wf : WF c) {s s' : St} {l : Label} (inv : Inv c s) (h : step c s l = .ok s') :
    Inv c s' := by
  rcases step_cases h with ⟨-, hp, rfl⟩ | ⟨good, o, rest, -, hm, hok, rfl⟩ | ⟨good, o, rest, -, hm, hfl, rfl⟩ |
    ⟨i, g, o, rest, good, -, hi, hok, rfl⟩
  · -- `Stop` is called
    have hs := inv.shape
    rw [hp] at hs
    have hd : s.did = c.start := by
      generalize s.main = m at hs
      generalize s.did = d at hs
      cases hs; rfl
    refine ⟨?_, inv.agree, inv.suffix, inv.wg, inv.spawned, inv.origin, inv.awaiting, inv.live, inv.waited⟩
    show Shape c .stopping s.did c.stop
    rw [hd]
    have := @Shape.stopping c [] c.stop wf.stop_ne rfl
    rw [List.append_nil] at this
    exact this
  · -- the caller executes an operation
    have hs := inv.shape
    rw [hm] at hs
    have hnext := hs.next wf
    have hnd : o ≠ .done := by
      rcases hnext with ⟨-, -, hp⟩ | ⟨hp, -⟩
      · exact hp.noStop.2.2.2.1
      · exact (wf.stop_plain o hp).2.2.2.1
    have hborn : ∀ t ∈ born c o, ∃ pre post, c.start = pre ++ .spawn t.1 :: post ∧ pre = s.did := by
      intro t ht
      rcases hnext with ⟨-, e, hp⟩ | ⟨hp, -⟩
      · have := mem_born ht
        rw [this.1] at e
        exact ⟨s.did, rest, e.symm, rfl⟩
      · rw [(wf.stop_plain o hp).2.2.1] at ht
        cases ht
    constructor
    · -- shape
      apply Shape.finish
      simp only
      rcases hnext with ⟨hph, e, hp⟩ | ⟨ho, base, d, e1, e2, -, -, -, hb⟩
      · by_cases hr : rest = []
        · right
          subst hr
          exact ⟨rfl, Or.inl ⟨hph, e⟩⟩
        · left
          refine ⟨hr, ?_⟩
          rw [hph]
          exact .starting hr (by rw [← e]; simp)
      · by_cases hr : rest = []
        · right
          subst hr
          refine ⟨rfl, ?_⟩
          rcases hb with ⟨hph, rfl⟩ | ⟨hph, hf, hd⟩
          · exact Or.inr (Or.inl ⟨hph, by rw [e1, ← e2]; simp⟩)
          · exact Or.inr (Or.inr (Or.inl ⟨hph, base, hf, hd, by rw [e1, ← e2]; simp⟩))
        · left
          refine ⟨hr, ?_⟩
          rcases hb with ⟨hph, rfl⟩ | ⟨hph, hf, hd⟩
          · rw [hph, e1, List.append_assoc]
            exact .stopping hr (by rw [← e2]; simp)
          · rw [hph, e1, List.append_assoc]
            exact .failing hf hd hr (by rw [← e2]; simp)
    · rw [finish_sh, finish_did]
      simp only
      rw [replay_snoc]
      exact inv.agree.eff o
    · rw [finish_threads]
      intro t ht
      rcases List.mem_append.1 ht with ht | ht
      · exact inv.suffix t ht
      · exact ⟨[], by rw [(mem_born ht).2]; rfl⟩
    · rw [finish_sh, finish_did, finish_threads]
      simp only
      rw [wg_eff s.sh o hnd c, inv.wg, bal_append, tsum_append]
      simp only [bal]
      omega
    · rw [finish_threads, finish_did]
      intro g hg
      simp only at hg ⊢
      rcases List.mem_append.1 hg with hg | hg
      · obtain ⟨t, ht, e⟩ := inv.spawned g hg
        exact ⟨t, List.mem_append_left _ ht, e⟩
      · rw [List.mem_singleton] at hg
        subst hg
        exact ⟨(g, c.body g), by simp [born], rfl⟩
    · rw [finish_threads, finish_did]
      intro t ht
      simp only at ht ⊢
      rcases List.mem_append.1 ht with ht | ht
      · rcases inv.origin t ht with h1 | h1
        · exact Or.inl (List.mem_append_left _ h1)
        · exact Or.inr h1
      · left
        rw [(mem_born ht).1]
        simp
    · rw [finish_threads, finish_sh]
      intro hst t ht hb
      simp only at hst ht
      have hst' : s.sh.stopped = false := by
        cases hq : s.sh.stopped with
        | false => rfl
        | true =>
          have : (eff s.sh o).stopped = true := by
            cases o with
            | listen => dsimp only [eff]; split <;> exact hq
            | closeStop => rfl
            | _ => exact hq
          rw [this] at hst
          cases hst
      rcases List.mem_append.1 ht with ht | ht
      · exact inv.awaiting hst' t ht hb
      · rw [(mem_born ht).2]; exact hb
    · rw [finish_threads, finish_did, finish_sh]
      intro r hr
      simp only at hr ⊢
      refine ⟨?_, ?_⟩
      · rw [replay_snoc]
        exact live_eff_mono (fun hh => (inv.live r hh).1) o hr
      · intro t ht hb
        rcases List.mem_append.1 ht with ht | ht
        · rcases live_eff _ _ _ hr with hl | he
          · exact (inv.live r hl).2 t ht hb
          · exfalso
            rcases hnext with ⟨-, -, hp⟩ | ⟨hp, -⟩
            · rcases inv.origin t ht with h1 | ⟨g, h1⟩
              · exact hp.acq r he t.1 h1 hb
              · exact (wf.inner g t.1 h1).2.1 r hb
            · have := (wf.stop_plain o hp).1
              rw [he] at this
              cases this
        · rw [(mem_born ht).2]; exact hb
    · rw [finish_threads, finish_did]
      intro hw t ht
      simp only at hw ht
      rcases List.mem_append.1 hw with hw | hw
      · rcases List.mem_append.1 ht with ht | ht
        · exact inv.waited hw t ht
        · exfalso
          rcases hnext with ⟨-, e, hp⟩ | ⟨hp, -⟩
          · obtain ⟨a, b, hab⟩ := List.append_of_mem hw
            have := AllPos_at wf.pos (a := a) (o := .wait) (b := b ++ o :: rest) (by rw [← e, hab]; simp)
            exact this.noStop.2.1 rfl
          · rw [(wf.stop_plain o hp).2.2.1] at ht
            cases ht
      · rw [List.mem_singleton] at hw
        subst hw
        have hz : s.sh.wg = 0 := by
          unfold outcome at hok
          simp only [fallible] at hok
          by_cases hz : s.sh.wg = 0
          · exact hz
          · rw [if_neg hz] at hok; simp at hok
        rcases hnext with ⟨-, -, hp⟩ | ⟨hp, base, d, e1, e2, hb, -⟩
        · exact absurd rfl hp.noStop.2.1
        · have hbd : bal c s.did = 0 := by
            rw [e1, bal_append, hb, bal_zero c d]
            · rfl
            · intro o ho
              exact (wf.stop_plain o (by rw [← e2]; simp [ho])).2.1
          have hsum : tsum dones s.threads = 0 := by
            have := inv.wg
            rw [hz, hbd] at this
            omega
          rw [tsum_zero] at hsum
          rcases List.mem_append.1 ht with ht | ht
          · exact (dones_zero _).1 (hsum t ht)
          · simp [born] at ht
  · -- an operation of `StartX` fails
    have hs := inv.shape
    rw [hm] at hs
    have hfa := outcome_fail hfl
    rcases hs.next wf with ⟨hph, e, hp⟩ | ⟨hp, -⟩
    · have hdef : s.sh.deferred = true ↔ .deferStop ∈ s.did := by
        rw [inv.agree.deferred, replay_deferred]
      have hF : FailedAt c s.did := ⟨o, rest, e.symm, hfa⟩
      constructor
      · apply Shape.finish
        simp only
        by_cases hd : s.sh.deferred = true
        · rw [if_pos hd]
          left
          refine ⟨wf.stop_ne, ?_⟩
          have := @Shape.failing c s.did [] c.stop hF (hdef.1 hd) wf.stop_ne rfl
          rw [List.append_nil] at this
          exact this
        · rw [if_neg hd]
          right
          exact ⟨rfl, Or.inr (Or.inr (Or.inr ⟨trivial, hF, fun hh => hd (hdef.2 hh)⟩))⟩
      · rw [finish_sh, finish_did]; exact inv.agree
      · rw [finish_threads]; exact inv.suffix
      · rw [finish_sh, finish_did, finish_threads]; exact inv.wg
      · rw [finish_did, finish_threads]; exact inv.spawned
      · rw [finish_did, finish_threads]; exact inv.origin
      · rw [finish_sh, finish_threads]; exact inv.awaiting
      · rw [finish_sh, finish_did, finish_threads]; exact inv.live
      · rw [finish_did, finish_threads]; exact inv.waited
    · rw [(wf.stop_plain o hp).1] at hfa
      cases hfa
  · -- a goroutine executes an operation
    have hob : o ∈ c.body g := mem_body inv.suffix hi
    have hto : threadOp o = true := wf.body_op g o hob
    have htm : (g, o :: rest) ∈ s.threads := List.mem_of_getElem? hi
    constructor
    · exact inv.shape
    · exact inv.agree.thread hto
    · intro t ht
      rcases List.mem_append.1 ht with ht | ht
      · rcases mem_set_cases ht with rfl | ht
        · obtain ⟨p, e⟩ := inv.suffix _ htm
          exact ⟨p ++ [o], by simp only at e ⊢; rw [e]; simp⟩
        · exact inv.suffix t ht
      · exact ⟨[], by rw [(mem_born ht).2]; rfl⟩
    · show (eff s.sh o).wg = _
      simp only
      rw [wg_eff_thread _ _ hto, tsum_append, tsum_born_inner wf hob, inv.wg]
      have := tsum_set dones s.threads i (g, o :: rest) (g, rest) hi
      simp only [dones_cons] at this
      split at this <;> split <;> first | omega | contradiction
    · intro g' hg'
      obtain ⟨t, ht, e⟩ := (gid_set (rest := rest) hi g').2 (inv.spawned g' hg')
      exact ⟨t, List.mem_append_left _ ht, e⟩
    · intro t ht
      rcases List.mem_append.1 ht with ht | ht
      · rcases mem_set_cases ht with rfl | ht
        · exact inv.origin (g, o :: rest) htm
        · exact inv.origin t ht
      · right
        exact ⟨g, by rw [← (mem_born ht).1]; exact hob⟩
    · intro hst t ht hb
      have hst' : s.sh.stopped = false := by
        have h1 := inv.agree.stopped
        have h2 := (inv.agree.thread hto).stopped
        rw [h1, ← h2]
        exact hst
      rcases List.mem_append.1 ht with ht | ht
      · rcases mem_set_cases ht with rfl | ht
        · have := inv.awaiting hst' _ htm hb
          rcases List.mem_cons.1 this with e | e
          · subst e
            unfold outcome at hok
            simp only [fallible, hst'] at hok
            simp at hok
          · exact e
        · exact inv.awaiting hst' t ht hb
      · rw [(mem_born ht).2]; exact hb
    · intro r hr
      simp only at hr
      have hrel := live_eff_rel _ _ _ hr
      rcases live_eff _ _ _ hr with hl | he
      · refine ⟨(inv.live r hl).1, ?_⟩
        intro t ht hb
        rcases List.mem_append.1 ht with ht | ht
        · rcases mem_set_cases ht with rfl | ht
          · have := (inv.live r hl).2 _ htm hb
            rcases List.mem_cons.1 this with e | e
            · exact absurd e.symm hrel.1
            · exact e
          · exact (inv.live r hl).2 t ht hb
        · rw [(mem_born ht).2]; exact hb
      · rw [he] at hto
        cases hto
    · intro hw t ht
      rcases List.mem_append.1 ht with ht | ht
      · rcases mem_set_cases ht with rfl | ht
        · exact fun hh => inv.waited hw _ htm (List.mem_cons_of_mem _ hh)
        · exact inv.waited hw t ht
      · have := mem_born ht
        rw [this.2]
        exact (wf.inner g t.1 (by rw [← this.1]; exact hob)).1

theorem reach_inv {c : Comp} (wf : WF c) {s : St} (h : Reach c s) : Inv c s := by
  induction h with
  | init => exact inv_init c wf
  | step l _ hs ih => exact inv_step wf ih hs

end Spout.Lifecycle
