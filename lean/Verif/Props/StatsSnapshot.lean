import Verif.Props.Stats

set_option linter.unusedSimpArgs false

/-! # Properties of counter snapshots, and of named counters (C60, C73) -/

namespace Spout.Counters

open Spout.Spec

/-! ## Values seen by calls -/

theorem valueDuring_mono {n : Nat} {H : List Ev} {e : Ev} {id i v : Nat} (h : ValueDuring n H id i v) :
    ValueDuring n (H ++ [e]) id i v := by
  obtain ⟨H1, H2, s, op, h1, h2, h3, h4, h5⟩ := h
  exact ⟨H1, H2 ++ [e], s, op, by rw [h1]; simp, h2, h3, h4, h5⟩

/-- The values read so far, one for each counter read. -/
def Seen (n : Nat) (H : List Ev) (id : Nat) (idxs vals : List Nat) : Prop :=
  vals.length = idxs.length ∧ ∀ x ∈ idxs.zip vals, ValueDuring n H id x.1 x.2

theorem seen_mono {n : Nat} {H : List Ev} {e : Ev} {id : Nat} {idxs vals : List Nat} (h : Seen n H id idxs vals) :
    Seen n (H ++ [e]) id idxs vals := ⟨h.1, fun x hx => valueDuring_mono (h.2 x hx)⟩

/-- The counter an operation is about. -/
def counterOf : Op → Option Nat
  | .get i => some i
  | .inc i => some i
  | .max i _ => some i
  | .snapshot _ => none

structure VInv (n : Nat) (H : List Ev) (s : St) : Prop where
  done : ∀ id r, s.pc id = some (.done (.val r)) → ∃ op i, .inv id op ∈ H ∧ counterOf op = some i ∧ ValueDuring n H id i r
  ret : ∀ id r, .ret id (.val r) ∈ H → ∃ op i, .inv id op ∈ H ∧ counterOf op = some i ∧ ValueDuring n H id i r
  snap : ∀ id todo out, s.pc id = some (.snap todo out) → ∃ read, .inv id (.snapshot (read ++ todo)) ∈ H ∧ Seen n H id read out
  doneS : ∀ id vs, s.pc id = some (.done (.vals vs)) → ∃ order, .inv id (.snapshot order) ∈ H ∧ Seen n H id order vs
  retS : ∀ id vs, .ret id (.vals vs) ∈ H → ∃ order, .inv id (.snapshot order) ∈ H ∧ Seen n H id order vs

theorem seqStep_value {c c' : List Nat} {op : Op} {r : Nat} (h : SeqStep c op r c') :
    ∃ i, counterOf op = some i ∧ c'[i]? = some r := by
  cases h with
  | get hj => exact ⟨_, rfl, hj⟩
  | inc hj => exact ⟨_, rfl, get_set_self hj⟩
  | max _ hj => exact ⟨_, rfl, get_set_self hj⟩

theorem exec_vinv {n : Nat} {H : List Ev} {s : St} (h : Exec (newAnon n) H s) : VInv n H s := by
  induction h with
  | nil =>
    refine ⟨?_, by simp, ?_, ?_, by simp⟩
    · intro id r h; simp [newAnon] at h
    · intro id t o h; simp [newAnon] at h
    · intro id vs h; simp [newAnon] at h
  | @snoc H s s' e hx hs ih =>
    obtain ⟨L, hi⟩ := exec_linv hx
    have hx' : Exec (newAnon n) (H ++ [e]) s' := .snoc hx hs
    have keepRet : ∀ id r, .ret id (.val r) ∈ H → ∃ op i, .inv id op ∈ H ++ [e] ∧ counterOf op = some i ∧
        ValueDuring n (H ++ [e]) id i r := by
      intro id r h
      obtain ⟨op, i, h1, h2, h3⟩ := ih.ret id r h
      exact ⟨op, i, by simp [h1], h2, valueDuring_mono h3⟩
    have keepRetS : ∀ id vs, .ret id (.vals vs) ∈ H → ∃ order, .inv id (.snapshot order) ∈ H ++ [e] ∧
        Seen n (H ++ [e]) id order vs := by
      intro id vs h
      obtain ⟨o, h1, h2⟩ := ih.retS id vs h
      exact ⟨o, by simp [h1], seen_mono h2⟩
    have keepDone : ∀ id r, s.pc id = some (.done (.val r)) → ∃ op i, .inv id op ∈ H ++ [e] ∧ counterOf op = some i ∧
        ValueDuring n (H ++ [e]) id i r := by
      intro id r h
      obtain ⟨op, i, h1, h2, h3⟩ := ih.done id r h
      exact ⟨op, i, by simp [h1], h2, valueDuring_mono h3⟩
    have keepSnap : ∀ id todo out, s.pc id = some (.snap todo out) → ∃ read, .inv id (.snapshot (read ++ todo)) ∈ H ++ [e] ∧
        Seen n (H ++ [e]) id read out := by
      intro id todo out h
      obtain ⟨o, h1, h2⟩ := ih.snap id todo out h
      exact ⟨o, by simp [h1], seen_mono h2⟩
    have keepDoneS : ∀ id vs, s.pc id = some (.done (.vals vs)) → ∃ order, .inv id (.snapshot order) ∈ H ++ [e] ∧
        Seen n (H ++ [e]) id order vs := by
      intro id vs h
      obtain ⟨o, h1, h2⟩ := ih.doneS id vs h
      exact ⟨o, by simp [h1], seen_mono h2⟩
    cases hs with
    | @inv id op hnone =>
      refine ⟨?_, ?_, ?_, ?_, ?_⟩
      · intro j r hj
        by_cases h : j = id
        · subst h; rw [at_pc_self] at hj; injection hj with hj; cases op <;> cases hj
        · rw [at_pc_ne _ _ h] at hj; exact keepDone j r hj
      · intro j r hj; exact keepRet j r (by simpa using hj)
      · intro j todo out hj
        by_cases h : j = id
        · subst h
          rw [at_pc_self] at hj
          injection hj with hj
          cases op with
          | snapshot o =>
            injection hj with h1 h2
            subst h1; subst h2
            exact ⟨[], by simp, rfl, by simp⟩
          | _ => cases hj
        · rw [at_pc_ne _ _ h] at hj; exact keepSnap j todo out hj
      · intro j vs hj
        by_cases h : j = id
        · subst h; rw [at_pc_self] at hj; injection hj with hj; cases op <;> cases hj
        · rw [at_pc_ne _ _ h] at hj; exact keepDoneS j vs hj
      · intro j vs hj; exact keepRetS j vs (by simpa using hj)
    | @ret id r hpc =>
      refine ⟨?_, ?_, ?_, ?_, ?_⟩
      · intro j r' hj
        by_cases h : j = id
        · subst h; rw [at_pc_self] at hj; injection hj with hj; cases hj
        · rw [at_pc_ne _ _ h] at hj; exact keepDone j r' hj
      · intro j v hj
        simp only [List.mem_append, List.mem_singleton, Ev.ret.injEq] at hj
        rcases hj with hj | ⟨rfl, rfl⟩
        · exact keepRet j v hj
        · exact keepDone j v hpc
      · intro j todo out hj
        by_cases h : j = id
        · subst h; rw [at_pc_self] at hj; injection hj with hj; cases hj
        · rw [at_pc_ne _ _ h] at hj; exact keepSnap j todo out hj
      · intro j vs hj
        by_cases h : j = id
        · subst h; rw [at_pc_self] at hj; injection hj with hj; cases hj
        · rw [at_pc_ne _ _ h] at hj; exact keepDoneS j vs hj
      · intro j vs hj
        simp only [List.mem_append, List.mem_singleton, Ev.ret.injEq] at hj
        rcases hj with hj | ⟨rfl, rfl⟩
        · exact keepRetS j vs hj
        · exact keepDoneS j vs hpc
    | @act id p p' counts' hpc hnd hng hact =>
      have hop : Open p := by
        cases p <;> simp [Open]
        · exact hnd _ rfl
        · exact hng rfl
      obtain ⟨op, hinv, hpl⟩ := hi.place id p hpc
      have hnr := hi.notRet id p hpc hng
      refine ⟨?_, ?_, ?_, ?_, ?_⟩
      · intro j r hj
        by_cases h : j = id
        · subst h
          rw [at_pc_self] at hj
          injection hj with hj
          subst hj
          rcases action_cases hop hpl hact with ⟨-, ho', -⟩ | ⟨r', hr', hseq⟩ | ⟨vs, o, -, -, hc⟩
          · exact absurd ho' (fun h => h)
          · injection hr' with hr'; injection hr' with hr'; subst hr'
            obtain ⟨i, h1, h2⟩ := seqStep_value hseq
            refine ⟨op, i, by simp [hinv], h1, H ++ [.act j], [], _, op, by simp, hx', by simp [hinv], ?_, h2⟩
            intro r'; simp [hnr r']
          · injection hc with hc; cases hc
        · rw [at_pc_ne _ _ h] at hj; exact keepDone j r hj
      · intro j r hj; exact keepRet j r (by simpa using hj)
      · intro j todo out hj
        by_cases h : j = id
        · subst h
          rw [at_pc_self] at hj
          injection hj with hj
          subst hj
          cases p with
          | snap todo' out' =>
            cases todo' with
            | nil => dsimp only [action] at hact; simp at hact
            | cons i todo' =>
              dsimp only [action] at hact
              cases hc : counter s.counts i with
              | panic => rw [hc] at hact; cases hact
              | ok v =>
                rw [hc] at hact
                simp at hact
                obtain ⟨rfl, rfl, rfl⟩ := hact
                obtain ⟨read, g1, g2, g3⟩ := ih.snap j (i :: todo') out' hpc
                refine ⟨read ++ [i], by simp [g1], by simp [g2], ?_⟩
                intro x hx2
                rw [List.zip_append g2.symm] at hx2
                rcases List.mem_append.1 hx2 with hx2 | hx2
                · exact valueDuring_mono (g3 x hx2)
                · simp at hx2
                  subst hx2
                  exact ⟨H, [.act j], s, _, rfl, hx, g1, hnr, counter_ok hc⟩
          | get i' =>
            dsimp only [action] at hact
            cases hc : counter s.counts i' <;> rw [hc] at hact <;> simp at hact <;> cases hact
          | inc i' =>
            dsimp only [action] at hact
            cases hc : counter s.counts i' <;> rw [hc] at hact <;> simp at hact <;> cases hact
          | maxCas i' v' cur' =>
            dsimp only [action] at hact
            cases hc : counter s.counts i' with
            | panic => rw [hc] at hact; cases hact
            | ok w =>
              rw [hc] at hact
              by_cases hw : w = cur' <;> simp [hw] at hact
          | maxLoad i' v' =>
            dsimp only [action] at hact
            cases hc : counter s.counts i' with
            | panic => rw [hc] at hact; cases hact
            | ok w =>
              rw [hc] at hact
              by_cases hw : v' ≤ w <;> simp [hw] at hact
          | done r => exact absurd rfl (hnd r)
          | gone => exact absurd rfl hng
        · rw [at_pc_ne _ _ h] at hj; exact keepSnap j todo out hj
      · intro j vs hj
        by_cases h : j = id
        · subst h
          rw [at_pc_self] at hj
          injection hj with hj
          subst hj
          rcases action_cases hop hpl hact with ⟨-, ho', -⟩ | ⟨r', hr', -⟩ | ⟨vs', o, -, ho2, -⟩
          · exact absurd ho' (fun h => h)
          · injection hr' with hr'; cases hr'
          · cases p with
            | snap todo' out' =>
              cases todo' with
              | nil =>
                dsimp only [action] at hact
                simp at hact
                obtain ⟨-, rfl⟩ := hact
                obtain ⟨read, g1, g2⟩ := ih.snap j [] out' hpc
                rw [List.append_nil] at g1
                exact ⟨read, by simp [g1], seen_mono g2⟩
              | cons i todo' =>
                dsimp only [action] at hact
                cases hc : counter s.counts i <;> rw [hc] at hact <;> simp at hact <;> cases hact
            | get i' => rw [ho2] at hpl; cases hpl
            | inc i' => rw [ho2] at hpl; cases hpl
            | maxLoad i' v' => rw [ho2] at hpl; cases hpl
            | maxCas i' v' c => rw [ho2] at hpl; cases hpl.1
            | done r => exact absurd rfl (hnd r)
            | gone => exact absurd rfl hng
        · rw [at_pc_ne _ _ h] at hj; exact keepDoneS j vs hj
      · intro j vs hj; exact keepRetS j vs (by simpa using hj)

/-- **C58, C59.** What `Get`, `Inc` or `Max` returns is the value the counter had
at some moment during the call. -/
theorem C59_result_is_a_value_of_the_counter {n : Nat} {H : List Ev} {s : St} (h : Exec (newAnon n) H s) {id i : Nat}
    {op : Op} {r : Res} (hop : op = .get i ∨ op = .inc i ∨ ∃ v, op = .max i v) (hinv : .inv id op ∈ H) (hret : .ret id r ∈ H) :
    ∃ v, r = .val v ∧ ValueDuring n H id i v := by
  have hns : ∀ o, op ≠ .snapshot o := by
    rcases hop with rfl | rfl | ⟨v, rfl⟩ <;> intro o <;> simp
  obtain ⟨v, rfl⟩ := ret_val h hinv hns hret
  obtain ⟨op', i', h1, h2, h3⟩ := (exec_vinv h).ret id v hret
  obtain ⟨L, hi⟩ := exec_linv h
  have := hi.one id _ _ h1 hinv
  subst this
  refine ⟨v, rfl, ?_⟩
  have : i' = i := by
    rcases hop with rfl | rfl | ⟨v, rfl⟩ <;> simp [counterOf] at h2 <;> exact h2.symm
  rw [← this]
  exact h3

/-! ## C60 -/

theorem ret_vals {n : Nat} {H : List Ev} {s : St} (h : Exec (newAnon n) H s) {id : Nat} {o : List Nat} {r : Res}
    (hinv : .inv id (.snapshot o) ∈ H) (hret : .ret id r ∈ H) : ∃ vs, r = .vals vs := by
  cases r with
  | vals vs => exact ⟨vs, rfl⟩
  | val v =>
    obtain ⟨op', i', h1, h2, -⟩ := (exec_vinv h).ret id v hret
    obtain ⟨L, hi⟩ := exec_linv h
    have := hi.one id _ _ h1 hinv
    subst this
    cases h2

/-- **C60.** A snapshot returns, for every counter it reads, a value that the
counter had at some moment during the call. -/
theorem C60_snapshot_values {n : Nat} {H : List Ev} {s : St} (h : Exec (newAnon n) H s) {id : Nat} {order : List Nat} {r : Res}
    (hinv : .inv id (.snapshot order) ∈ H) (hret : .ret id r ∈ H) :
    ∃ vs, r = .vals vs ∧ vs.length = order.length ∧ ∀ x ∈ order.zip vs, ValueDuring n H id x.1 x.2 := by
  obtain ⟨vs, rfl⟩ := ret_vals h hinv hret
  obtain ⟨o, h1, h2, h3⟩ := (exec_vinv h).retS id vs hret
  obtain ⟨L, hi⟩ := exec_linv h
  have := hi.one id _ _ h1 hinv
  injection this with this
  subst this
  exact ⟨vs, rfl, h2, h3⟩

theorem step_det {s s1 s2 : St} {e : Ev} (h1 : Step s e s1) (h2 : Step s e s2) : s1 = s2 := by
  cases h1 with
  | inv _ _ => cases h2; rfl
  | act hp _ _ ha =>
    cases h2 with
    | act hp' _ _ ha' =>
      rw [hp] at hp'; injection hp' with hp'; subst hp'
      rw [ha] at ha'; injection ha' with ha'; injection ha' with e1 e2
      subst e1; subst e2; rfl
  | ret _ => cases h2; rfl

theorem exec_det {s0 s1 s2 : St} {H : List Ev} (h1 : Exec s0 H s1) (h2 : Exec s0 H s2) : s1 = s2 := by
  induction h1 generalizing s2 with
  | nil =>
    generalize hx : ([] : List Ev) = X at h2
    cases h2 with
    | nil => rfl
    | @snoc H' _ _ e _ _ => cases H' <;> cases hx
  | snoc _ hs ih =>
    obtain ⟨sm, g1, g2⟩ := exec_snoc_inv h2
    rw [← ih g1] at g2
    exact step_det hs g2

/-- **C60.** If the counter has not overflowed, a value in a snapshot is at
least what the counter was before the call (at any moment before) and at most
what it is afterwards. -/
theorem C60_snapshot_bounds {n : Nat} {H H0 H' : List Ev} {s s0 : St} (h : Exec (newAnon n) H s) (h0 : Exec (newAnon n) H0 s0)
    (hpre : H = H0 ++ H') {id : Nat} {order vs : List Nat} (hinv : .inv id (.snapshot order) ∈ H')
    (hret : .ret id (.vals vs) ∈ H) {i v : Nat} (hx : (i, v) ∈ order.zip vs) (hi : i < n) (hw : NoWrap H i) :
    ∃ v0 v1, s0.counts[i]? = some v0 ∧ s.counts[i]? = some v1 ∧ v0 ≤ v ∧ v ≤ v1 := by
  obtain ⟨vs', e, -, h2⟩ := C60_snapshot_values h (order := order) (by rw [hpre]; simp [hinv]) hret
  injection e with e; subst e
  obtain ⟨H1, H2, sm, op, e1, g1, g2, g3, g4⟩ := h2 _ hx
  have hnot : ∀ o, .inv id o ∉ H0 := by
    intro o ho
    have hnd := exec_invIds_nodup h
    rw [hpre, show invIds (H0 ++ H') = invIds H0 ++ invIds H' by simp [invIds, List.filterMap_append], List.nodup_append] at hnd
    exact hnd.2.2 id (mem_invIds.2 ⟨o, ho⟩) id (mem_invIds.2 ⟨_, hinv⟩) rfl
  have hT : ∃ T, H1 = H0 ++ T := by
    rw [hpre] at e1
    rcases List.append_eq_append_iff.1 e1 with ⟨t, k1, k2⟩ | ⟨t, k1, k2⟩
    · exact ⟨t, k1⟩
    · exact absurd (by rw [k1]; simp [g2]) (hnot op)
  obtain ⟨T, rfl⟩ := hT
  subst e1
  obtain ⟨s1, v0, v0', k1, k2, k3, k4⟩ := C58_never_backwards g1 hi (noWrap_prefix hw)
  rw [exec_det k1 h0] at k2
  rw [g4] at k3; injection k3 with k3; subst k3
  obtain ⟨s2, v2, v1, j1, j2, j3, j4⟩ := C58_never_backwards h hi hw
  rw [exec_det j1 g1, g4] at j2
  injection j2 with j2; subst j2
  exact ⟨v0, v1, k2, j3, k4, j4⟩

/-- A snapshot that overlaps two increments. -/
def skew : List Ev :=
  [.inv 0 (.snapshot [0, 1]), .act 0, .inv 1 (.inc 0), .act 1, .ret 1 (.val 1), .inv 2 (.inc 1), .act 2, .ret 2 (.val 1),
   .act 0, .act 0, .ret 0 (.vals [0, 1])]

/-- Run a list of events. -/
def run? (s : St) : List Ev → Option St
  | [] => some s
  | .inv id op :: es => if s.pc id = none then run? (s.at id op.start) es else none
  | .act id :: es =>
    match s.pc id with
    | some p => match p with
      | .done _ => none
      | .gone => none
      | p => match action s.counts p with
        | .ok (c, p') => run? (({ s with counts := c } : St).at id p') es
        | .panic => none
    | none => none
  | .ret id r :: es => if s.pc id = some (.done r) then run? (s.at id .gone) es else none

theorem run?_exec {s0 s s' : St} {H es : List Ev} (h : Exec s0 H s) (hr : run? s es = some s') : Exec s0 (H ++ es) s' := by
  induction es generalizing s H with
  | nil => simp [run?] at hr; subst hr; simpa using h
  | cons e es ih =>
    rw [show H ++ e :: es = (H ++ [e]) ++ es by simp]
    cases e with
    | inv id op =>
      unfold run? at hr
      by_cases hc : s.pc id = none
      · rw [if_pos hc] at hr; exact ih (.snoc h (.inv op hc)) hr
      · rw [if_neg hc] at hr; cases hr
    | ret id r =>
      unfold run? at hr
      by_cases hc : s.pc id = some (.done r)
      · rw [if_pos hc] at hr; exact ih (.snoc h (.ret hc)) hr
      · rw [if_neg hc] at hr; cases hr
    | act id =>
      unfold run? at hr
      cases hp : s.pc id with
      | none => rw [hp] at hr; cases hr
      | some p =>
        rw [hp] at hr
        have hne : (∀ r, p ≠ .done r) ∧ p ≠ .gone := by
          constructor
          · intro r e; subst e; cases hr
          · intro e; subst e; cases hr
        cases ha : action s.counts p with
        | panic =>
          exfalso
          cases p <;> simp [ha] at hr
        | ok x =>
          obtain ⟨c, p'⟩ := x
          refine ih (.snoc h (.act hp hne.1 hne.2 ha)) ?_
          cases p <;> simp [ha] at hr <;> exact hr

/-- **C60 (remark).** A snapshot is not a picture of one moment: counter 1 is
incremented after counter 0, yet a snapshot may show only the second increment. -/
theorem C60_not_one_moment : ∃ s, Exec (newAnon 2) skew s ∧
    ∀ H1 H2 s1, skew = H1 ++ H2 → Exec (newAnon 2) H1 s1 → s1.counts ≠ [0, 1] := by
  have hsome : (run? (newAnon 2) skew).isSome = true := by decide +kernel
  obtain ⟨s, hs⟩ := Option.isSome_iff_exists.1 hsome
  refine ⟨s, by simpa using run?_exec (.nil) hs, ?_⟩
  intro H1 H2 s1 he hx
  have hpre : ∀ k ≤ 11, ((run? (newAnon 2) (skew.take k)).map (·.counts)) ≠ some [0, 1] ∧
      ((run? (newAnon 2) (skew.take k)).isSome = true) := by decide +kernel
  have hk : H1.length ≤ 11 := by
    have := congrArg List.length he
    rw [List.length_append, show skew.length = 11 from rfl] at this
    omega
  have hH1 : H1 = skew.take H1.length := by rw [he]; simp
  obtain ⟨k1, k2⟩ := hpre H1.length hk
  rw [← hH1] at k1 k2
  obtain ⟨s2, hs2⟩ := Option.isSome_iff_exists.1 k2
  have : Exec (newAnon 2) H1 s2 := by simpa using run?_exec (.nil) hs2
  rw [exec_det hx this]
  intro hc
  rw [hs2] at k1
  exact k1 (by simp [hc])

/-! ## No panics -/

/-- The counters a call uses exist. -/
def Valid (n : Nat) : Op → Prop
  | .get i => i < n
  | .inc i => i < n
  | .max i _ => i < n
  | .snapshot o => ∀ i ∈ o, i < n

/-- **C58.** A call on existing counters never panics and never blocks: at every
moment each call in progress can make its next step. -/
theorem C58_calls_proceed {n : Nat} {H : List Ev} {s : St} (h : Exec (newAnon n) H s)
    (hv : ∀ id op, .inv id op ∈ H → Valid n op) {id : Nat} {op : Op} (hinv : .inv id op ∈ H) (hnr : ∀ r, .ret id r ∉ H) :
    ∃ e s', Step s e s' ∧ (e = .act id ∨ ∃ r, e = .ret id r) := by
  obtain ⟨L, hi⟩ := exec_linv h
  have hget : ∀ i, i < n → ∃ v, counter s.counts i = .ok v := by
    intro i hlt
    have hl : i < s.counts.length := by rw [hi.size]; exact hlt
    exact ⟨s.counts[i], counter_of (by simp [hl])⟩
  cases hpc : s.pc id with
  | none => exact absurd hinv ((hi.fresh id hpc).1 op)
  | some p =>
    obtain ⟨op', h1, h2⟩ := hi.place id p hpc
    have := hi.one id _ _ h1 hinv
    subst this
    have hval := hv id _ hinv
    have go : ∀ {c' p'}, (∀ r, p ≠ .done r) → p ≠ .gone → action s.counts p = .ok (c', p') →
        ∃ e s', Step s e s' ∧ (e = .act id ∨ ∃ r, e = .ret id r) :=
      fun a b c => ⟨_, _, .act hpc a b c, Or.inl rfl⟩
    cases p with
    | get i =>
      cases h2
      obtain ⟨v, hc⟩ := hget i hval
      exact go (by simp) (by simp) (by dsimp only [action]; rw [hc]; rfl)
    | inc i =>
      cases h2
      obtain ⟨v, hc⟩ := hget i hval
      exact go (by simp) (by simp) (by dsimp only [action]; rw [hc]; rfl)
    | maxLoad i x =>
      cases h2
      obtain ⟨v, hc⟩ := hget i hval
      by_cases hle : x ≤ v
      · exact go (c' := s.counts) (p' := .done (.val v)) (by simp) (by simp) (by dsimp only [action]; rw [hc]; simp [hle])
      · exact go (c' := s.counts) (p' := .maxCas i x v) (by simp) (by simp) (by dsimp only [action]; rw [hc]; simp [hle])
    | maxCas i x cur =>
      obtain ⟨rfl, -⟩ := h2
      obtain ⟨v, hc⟩ := hget i hval
      by_cases hle : v = cur
      · exact go (c' := s.counts.set i x) (p' := .done (.val x)) (by simp) (by simp) (by dsimp only [action]; rw [hc]; simp [hle])
      · exact go (c' := s.counts) (p' := .maxLoad i x) (by simp) (by simp) (by dsimp only [action]; rw [hc]; simp [hle])
    | snap todo out =>
      cases todo with
      | nil => exact go (by simp) (by simp) (by dsimp only [action]; rfl)
      | cons i todo =>
        obtain ⟨read, g1, -⟩ := (exec_vinv h).snap id _ _ hpc
        have := hv id _ g1 i (by simp)
        obtain ⟨v, hc⟩ := hget i this
        exact go (by simp) (by simp) (by dsimp only [action]; rw [hc]; rfl)
    | done r => exact ⟨_, _, .ret hpc, Or.inr ⟨r, rfl⟩⟩
    | gone =>
      -- a call that is gone has returned
      have : ∀ {H : List Ev} {s : St}, Exec (newAnon n) H s → ∀ id, s.pc id = some .gone → ∃ r, .ret id r ∈ H := by
        intro H s h
        induction h with
        | nil => intro id hid; simp [newAnon] at hid
        | @snoc H s s' e hx hs ih =>
          intro id hid
          cases hs with
          | @inv j op hj =>
            by_cases h : id = j
            · subst h; rw [at_pc_self] at hid; injection hid with hid; cases op <;> cases hid
            · rw [at_pc_ne _ _ h] at hid; obtain ⟨r, hr⟩ := ih id hid; exact ⟨r, by simp [hr]⟩
          | @act j p p' c' hj hd hg ha =>
            by_cases h : id = j
            · subst h
              rw [at_pc_self] at hid; injection hid with hid; subst hid
              obtain ⟨L, hi⟩ := exec_linv hx
              obtain ⟨op, k1, k2⟩ := hi.place id p hj
              have hop : Open p := by
                cases p <;> simp [Open]
                · exact hd _ rfl
                · exact hg rfl
              rcases action_cases hop k2 ha with ⟨-, ho', -⟩ | ⟨r', hr', -⟩ | ⟨vs', o, -, -, ho2⟩
              · exact absurd ho' (fun h => h)
              · cases hr'
              · cases ho2
            · rw [at_pc_ne _ _ h] at hid; obtain ⟨r, hr⟩ := ih id hid; exact ⟨r, by simp [hr]⟩
          | @ret j r hj =>
            by_cases h : id = j
            · subst h; exact ⟨r, by simp⟩
            · rw [at_pc_ne _ _ h] at hid; obtain ⟨r', hr⟩ := ih id hid; exact ⟨r', by simp [hr]⟩
      obtain ⟨r, hr⟩ := this h id hpc
      exact absurd hr (hnr r)

/-! ## Named counters -/

theorem newIndex_fold (names : List Bytes) (k : Nat) (m : List (Bytes × Nat)) (hm : (m.map (·.1)).Nodup) :
    (((names.zipIdx k).foldl (fun m e => mset m e.1 e.2) m).map (·.1)).Nodup ∧
    ∀ name, mget ((names.zipIdx k).foldl (fun m e => mset m e.1 e.2) m) name =
      (if name ∈ names then mget ((names.zipIdx k).foldl (fun m e => mset m e.1 e.2) m) name else mget m name) ∧
      (name ∈ names → ∃ i, mget ((names.zipIdx k).foldl (fun m e => mset m e.1 e.2) m) name = some (k + i) ∧ names[i]? = some name) := by
  induction names generalizing k m with
  | nil => exact ⟨hm, fun name => ⟨by simp, by simp⟩⟩
  | cons n names ih =>
    rw [List.zipIdx_cons, List.foldl_cons]
    obtain ⟨h1, h2⟩ := ih (k + 1) (mset m n k) (mset_nodup m n k hm)
    refine ⟨h1, ?_⟩
    intro name
    obtain ⟨g1, g2⟩ := h2 name
    constructor
    · by_cases hn : name ∈ n :: names
      · rw [if_pos hn]
      · rw [if_neg hn]
        have hn1 : name ∉ names := fun h => hn (List.mem_cons_of_mem _ h)
        have hn2 : ¬ n = name := fun h => hn (by simp [h])
        rw [g1, if_neg hn1, mget_mset, if_neg hn2]
    · intro hn
      by_cases hn1 : name ∈ names
      · obtain ⟨i, k1, k2⟩ := g2 hn1
        exact ⟨i + 1, by rw [k1]; congr 1; omega, by simpa using k2⟩
      · have he : n = name := by
          rcases List.mem_cons.1 hn with h | h
          · exact h.symm
          · exact absurd h hn1
        refine ⟨0, ?_, by simp [he]⟩
        rw [g1, if_neg hn1, mget_mset, if_pos he]
        simp

/-- **C73.** Every name has a counter, and different names have different
counters; a name that was not given panics. -/
theorem C73_names_have_own_counters (names : List Bytes) :
    (∀ name ∈ names, ∃ i, lookup (newIndex names) name = .ok i ∧ i < names.length ∧
      ∀ name' ∈ names, lookup (newIndex names) name' = .ok i → name' = name) ∧
    (∀ name, name ∉ names → lookup (newIndex names) name = .panic) := by
  obtain ⟨-, h⟩ := newIndex_fold names 0 [] (by simp)
  have get : ∀ name ∈ names, ∃ i, lookup (newIndex names) name = .ok i ∧ names[i]? = some name := by
    intro name hn
    obtain ⟨i, k1, k2⟩ := (h name).2 hn
    rw [Nat.zero_add] at k1
    refine ⟨i, ?_, k2⟩
    unfold lookup newIndex
    rw [k1]
  constructor
  · intro name hn
    obtain ⟨i, k1, k2⟩ := get name hn
    refine ⟨i, k1, ?_, ?_⟩
    · obtain ⟨hl, -⟩ := List.getElem?_eq_some_iff.1 k2; exact hl
    · intro name' hn' he
      obtain ⟨j, j1, j2⟩ := get name' hn'
      rw [he] at j1; injection j1 with j1; subst j1
      rw [k2] at j2; injection j2 with j2; exact j2.symm
  · intro name hn
    have := (h name).1
    rw [if_neg hn] at this
    unfold lookup newIndex
    rw [this]
    rfl

theorem newIndex_keys (names : List Bytes) : ((newIndex names).map (·.1)).Nodup ∧ ∀ name, name ∈ (newIndex names).map (·.1) ↔ name ∈ names := by
  obtain ⟨h1, h2⟩ := newIndex_fold names 0 [] (by simp)
  refine ⟨h1, ?_⟩
  intro name
  rw [← mget_isSome]
  constructor
  · intro hs
    refine Classical.byContradiction fun hn => ?_
    have := (h2 name).1
    rw [if_neg hn] at this
    unfold newIndex at hs
    rw [this] at hs
    cases hs
  · intro hn
    obtain ⟨i, k1, -⟩ := (h2 name).2 hn
    unfold newIndex
    rw [k1]
    rfl

/-- **C73.** A snapshot of named counters lists every name exactly once, with a
value its own counter had during the call. -/
theorem C73_named_snapshot {names : List Bytes} {H : List Ev} {s : St} (h : Exec (newAnon names.length) H s) {id : Nat}
    (ord : MapOrder) {op : Op} {vs : List Nat} (hop : (NOp.snapshot ord).toOp (newIndex names) = .ok op)
    (hinv : .inv id op ∈ H) (hret : .ret id (.vals vs) ∈ H) :
    ((snapshotPairs (newIndex names) ord vs).map (·.1)).Nodup ∧
    (∀ name, name ∈ (snapshotPairs (newIndex names) ord vs).map (·.1) ↔ name ∈ names) ∧
    ∀ p ∈ snapshotPairs (newIndex names) ord vs, ∃ i, lookup (newIndex names) p.1 = .ok i ∧
      ValueDuring names.length H id i p.2 := by
  injection hop with hop
  subst hop
  obtain ⟨vs', e, h2, h3⟩ := C60_snapshot_values h hinv hret
  injection e with e; subst e
  obtain ⟨hk1, hk2⟩ := newIndex_keys names
  rw [List.length_map] at h2
  have hperm := (ord.perm (newIndex names)).map (·.1)
  have hfst : (snapshotPairs (newIndex names) ord vs).map (·.1) = (ord.order (newIndex names)).map (·.1) := by
    unfold snapshotPairs
    rw [List.map_fst_zip]
    rw [List.length_map, h2]
    exact Nat.le_refl _
  refine ⟨?_, ?_, ?_⟩
  · rw [hfst, hperm.nodup_iff]; exact hk1
  · intro name
    rw [hfst, hperm.mem_iff]
    exact hk2 name
  · intro p hp
    have gen : ∀ (l : List (Bytes × Nat)) (vs : List Nat) (p : Bytes × Nat), p ∈ (l.map (·.1)).zip vs →
        ∃ i, (p.1, i) ∈ l ∧ (i, p.2) ∈ (l.map (·.2)).zip vs := by
      intro l
      induction l with
      | nil => intro vs p hp; simp at hp
      | cons x l ih =>
        intro vs p hp
        cases vs with
        | nil => simp at hp
        | cons v vs =>
          rw [List.map_cons, List.zip_cons_cons] at hp
          rw [List.map_cons, List.zip_cons_cons]
          rcases List.mem_cons.1 hp with rfl | hp
          · exact ⟨x.2, by simp, by simp⟩
          · obtain ⟨i, g1, g2⟩ := ih vs p hp
            exact ⟨i, List.mem_cons_of_mem _ g1, List.mem_cons_of_mem _ g2⟩
    obtain ⟨i, g1, g2⟩ := gen _ _ p hp
    refine ⟨i, ?_, h3 _ g2⟩
    have : (p.1, i) ∈ newIndex names := (ord.perm (newIndex names)).mem_iff.1 g1
    unfold lookup
    rw [mget_of_mem hk1 this]

/-! ## Tests -/

/-- Three calls that overlap: `Max 5` reads before `Inc` and has to try again. -/
def overlap : List Ev :=
  [.inv 0 (.max 0 5), .act 0, .inv 1 (.inc 0), .act 1, .act 0, .ret 1 (.val 1), .act 0, .act 0, .ret 0 (.val 5),
   .inv 2 (.get 0), .act 2, .ret 2 (.val 5)]

example : ∃ s, Exec (newAnon 1) overlap s ∧ s.counts = [5] := by
  have hsome : (run? (newAnon 1) overlap).map (·.counts) = some [5] := by decide +kernel
  cases hr : run? (newAnon 1) overlap with
  | none => rw [hr] at hsome; cases hsome
  | some s =>
    rw [hr] at hsome
    injection hsome with hsome
    exact ⟨s, by simpa using run?_exec (.nil) hr, hsome⟩

example : stepsOf overlap 0 = 4 ∧ (changingCalls overlap 0).length = 2 := by decide

example : Before overlap 0 2 := ⟨overlap.take 8, [], overlap.drop 10, .val 5, .get 0, rfl⟩

example : NoWrap overlap 0 := by unfold NoWrap; decide

example : NoneInProgress overlap := by
  intro id op h
  simp only [overlap, List.mem_cons, List.not_mem_nil, or_false, reduceCtorEq, false_or, Ev.inv.injEq] at h
  rcases h with ⟨rfl, -⟩ | ⟨rfl, -⟩ | ⟨rfl, -⟩ <;> decide

example : newIndex [b!"a", b!"b", b!"a"] = [(b!"a", 2), (b!"b", 1)] := by decide

end Spout.Counters
