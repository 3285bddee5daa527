import Verif.Model.Pool
import Verif.Props.ListenerHTTP

/-! # Workers share the messages (C86) -/

namespace Spout.Pool
open Spout

/-! ## Interleavings -/

theorem interleave_step {α : Type} {ls : List (List α)} {i : Nat} {e : α} {l es : List α} (h1 : ls[i]? = some (e :: l))
    (h2 : Interleave (ls.set i l) es) : Interleave ls (e :: es) := by
  obtain ⟨hi, hg⟩ := List.getElem?_eq_some_iff.1 h1
  have e1 : ls = ls.take i ++ (e :: l) :: ls.drop (i + 1) := by
    rw [← hg, List.getElem_cons_drop, List.take_append_drop]
  have e2 : ls.set i l = ls.take i ++ l :: ls.drop (i + 1) := by
    rw [List.set_eq_take_append_cons_drop, if_pos hi]
  rw [e2] at h2
  rw [e1]
  exact .step _ e l _ es h2

theorem interleave_snoc {α : Type} {ls : List (List α)} {es : List α} (h : Interleave ls es) :
    ∀ {i : Nat} {l : List α} (e : α), ls[i]? = some l → Interleave (ls.set i (l ++ [e])) (es ++ [e]) := by
  induction h with
  | done ls hall =>
    intro i l e hl
    have hl0 : l = [] := hall l (List.mem_of_getElem? hl)
    subst hl0
    have hi := (List.getElem?_eq_some_iff.1 hl).1
    refine interleave_step (i := i) (l := []) (by rw [List.getElem?_set_self hi]; rfl) (.done _ ?_)
    intro x hx
    rw [List.set_set] at hx
    rcases List.mem_or_eq_of_mem_set hx with hx | hx
    · exact hall x hx
    · exact hx
  | step pre x l' post es h ih =>
    intro i l e hl
    have hk : (pre ++ (x :: l') :: post).set pre.length l' = pre ++ l' :: post := by
      rw [List.set_append_right _ _ (Nat.le_refl _)]; simp
    have hkl : pre.length < (pre ++ (x :: l') :: post).length := by simp
    have hget : (pre ++ (x :: l') :: post)[pre.length]? = some (x :: l') := by simp
    by_cases hi : i = pre.length
    · subst hi
      rw [hget] at hl
      injection hl with hl
      subst hl
      rw [List.cons_append]
      refine interleave_step (i := pre.length) (l := l' ++ [e]) (List.getElem?_set_self hkl) ?_
      rw [List.set_set]
      have := ih (i := pre.length) (l := l') e (by simp)
      rw [← hk, List.set_set] at this
      exact this
    · rw [List.cons_append]
      refine interleave_step (i := pre.length) (l := l') (by rw [List.getElem?_set_ne hi]; exact hget) ?_
      rw [List.set_comm _ _ hi, hk]
      refine ih e ?_
      rw [← hk, List.getElem?_set_ne (fun h => hi h.symm)]
      exact hl

theorem perm_flatten_set {α : Type} (ls : List (List α)) (i : Nat) (e : α) (l : List α) (h : ls[i]? = some (e :: l)) :
    ls.flatten.Perm (e :: (ls.set i l).flatten) := by
  induction ls generalizing i with
  | nil => cases h
  | cons x ls ih =>
    cases i with
    | zero =>
      simp only [List.getElem?_cons_zero, Option.some.injEq] at h
      subst h
      exact List.Perm.refl _
    | succ i =>
      simp only [List.getElem?_cons_succ] at h
      rw [List.set_cons_succ, List.flatten_cons, List.flatten_cons]
      exact ((ih i h).append_left x).trans List.perm_middle

theorem interleave_perm {α : Type} {ls : List (List α)} {es : List α} (h : Interleave ls es) : ls.flatten.Perm es := by
  induction h with
  | done ls h =>
    rw [List.flatten_eq_nil_iff.2 h]
  | step pre e l post es h ih =>
    have h1 : (pre ++ (e :: l) :: post)[pre.length]? = some (e :: l) := by simp
    refine (perm_flatten_set _ _ _ _ h1).trans ?_
    have : (pre ++ (e :: l) :: post).set pre.length l = pre ++ l :: post := by
      rw [List.set_append_right _ _ (Nat.le_refl _)]; simp
    rw [this]
    exact ih.cons e

theorem interleave_one {α : Type} {l es : List α} (h : Interleave [l] es) : l = es := by
  generalize hls : [l] = ls at h
  induction h generalizing l with
  | done ls h => subst hls; exact h l List.mem_cons_self
  | step pre e l' post es h ih =>
    have hlen := congrArg List.length hls
    simp at hlen
    have h1 : pre = [] := List.length_eq_zero_iff.1 (by omega)
    have h2 : post = [] := List.length_eq_zero_iff.1 (by omega)
    subst h1; subst h2
    simp only [List.nil_append, List.cons.injEq, and_true] at hls
    subst hls
    rw [ih rfl]

/-! ## The invariant -/

/-- The messages that have entered the channel for each subscription are `entered`; `order` is the
order in which they did; the workers have consumed a beginning of it. -/
structure Inv (s : Pool) (entered : List (List Bytes)) (consumed : List Bytes) : Prop where
  len : entered.length = s.arrived.length
  lenT : s.todo.length = s.arrived.length
  split : ∀ (i : Nat) (a e t : List Bytes), s.arrived[i]? = some a → entered[i]? = some e → s.todo[i]? = some t → a = e ++ t
  order : Interleave entered (consumed ++ s.jobs)
  got : Interleave s.got consumed
  cap : s.jobs.length ≤ capacity

theorem inv_start (subs workers : Nat) : Inv (start subs workers) (List.replicate subs []) [] where
  len := by simp [start]
  lenT := by simp [start]
  split := by
    intro i a e t h1 h2 h3
    have h1 := List.eq_of_mem_replicate (List.mem_of_getElem? h1)
    have h2 := List.eq_of_mem_replicate (List.mem_of_getElem? h2)
    have h3 := List.eq_of_mem_replicate (List.mem_of_getElem? h3)
    rw [h1, h2, h3]; rfl
  order := .done _ fun l hl => List.eq_of_mem_replicate hl
  got := .done _ fun l hl => List.eq_of_mem_replicate hl
  cap := Nat.zero_le _

theorem inv_step {s s' : Pool} {entered : List (List Bytes)} {consumed : List Bytes} (I : Inv s entered consumed) (h : Step s s') :
    ∃ entered' consumed', Inv s' entered' consumed' := by
  cases h with
  | arrive i as ms m ha hm =>
    refine ⟨entered, consumed, ?_, ?_, ?_, I.order, I.got, I.cap⟩
    · simpa using I.len
    · simpa using I.lenT
    · intro j a e t h1 h2 h3
      by_cases hj : i = j
      · subst hj
        have hi := (List.getElem?_eq_some_iff.1 ha).1
        have hi' := (List.getElem?_eq_some_iff.1 hm).1
        simp only [List.getElem?_set_self hi, List.getElem?_set_self hi', Option.some.injEq] at h1 h3
        rw [← h1, ← h3, I.split i as e ms ha h2 hm, List.append_assoc]
      · simp only [List.getElem?_set_ne hj] at h1 h3
        exact I.split j a e t h1 h2 h3
  | push i m ms hm hc =>
    have hi' := (List.getElem?_eq_some_iff.1 hm).1
    have hie : i < entered.length := by rw [I.len, ← I.lenT]; exact hi'
    have hia : i < s.arrived.length := by rw [← I.lenT]; exact hi'
    refine ⟨entered.set i (entered[i] ++ [m]), consumed, ?_, ?_, ?_, ?_, I.got, ?_⟩
    · simpa using I.len
    · simpa using I.lenT
    · intro j a e t h1 h2 h3
      by_cases hj : i = j
      · subst hj
        simp only [List.getElem?_set_self hi', List.getElem?_set_self hie, Option.some.injEq] at h2 h3
        have := I.split i a _ _ h1 (List.getElem?_eq_getElem hie) hm
        rw [this, ← h2, ← h3, List.append_assoc]; rfl
      · simp only [List.getElem?_set_ne hj] at h2 h3
        exact I.split j a e t h1 h2 h3
    · show Interleave _ (consumed ++ (s.jobs ++ [m]))
      rw [← List.append_assoc]
      exact interleave_snoc I.order m (List.getElem?_eq_getElem hie)
    · show (s.jobs ++ [m]).length ≤ capacity
      simp; omega
  | pop w m ms l hl hj hg =>
    refine ⟨entered, consumed ++ [m], I.len, I.lenT, I.split, ?_, ?_, ?_⟩
    · have := I.order; rw [hj] at this
      show Interleave entered (consumed ++ [m] ++ ms)
      rw [List.append_assoc]; exact this
    · exact interleave_snoc I.got m hg
    · have := I.cap; rw [hj] at this; simp at this ⊢; omega
  | close _ => exact ⟨entered, consumed, I.len, I.lenT, I.split, I.order, I.got, I.cap⟩
  | quit w _ _ => exact ⟨entered, consumed, I.len, I.lenT, I.split, I.order, I.got, I.cap⟩

theorem inv_run {subs workers : Nat} {s : Pool} (h : Run (start subs workers) s) : ∃ entered consumed, Inv s entered consumed := by
  induction h with
  | refl => exact ⟨_, _, inv_start subs workers⟩
  | step _ h ih => obtain ⟨e, c, I⟩ := ih; exact inv_step I h

theorem got_length {subs workers : Nat} {s : Pool} (h : Run (start subs workers) s) : s.got.length = workers ∧ s.live.length = workers := by
  induction h with
  | refl => simp [start]
  | step _ h ih => cases h <;> simp_all

/-! ## C86 -/

/-- **C86 (order).** At every moment: the messages of each subscription have entered the channel in the order of their arrival
(`entered`, a beginning of what arrived; the rest still waits in the callback), and the workers together have received a
beginning of the order of the channel, each of them in that order; what they have not received is in the channel. -/
theorem C86_nothing_lost_or_duplicated {subs workers : Nat} {s : Pool} (h : Run (start subs workers) s) :
    ∃ entered order consumed,
      Interleave entered order ∧ entered.length = s.arrived.length ∧
      (∀ (i : Nat) (a e t : List Bytes), s.arrived[i]? = some a → entered[i]? = some e → s.todo[i]? = some t → a = e ++ t) ∧
      order = consumed ++ s.jobs ∧ Interleave s.got consumed ∧ s.jobs.length ≤ 1024 := by
  obtain ⟨e, c, I⟩ := inv_run h
  exact ⟨e, _, c, I.order, I.len, I.split, rfl, I.got, I.cap⟩

theorem flatten_split : ∀ (as es ts : List (List Bytes)), es.length = as.length → ts.length = as.length →
    (∀ (i : Nat) (a e t : List Bytes), as[i]? = some a → es[i]? = some e → ts[i]? = some t → a = e ++ t) →
    as.flatten.Perm (es.flatten ++ ts.flatten)
  | [], [], [], _, _, _ => List.Perm.refl _
  | a :: as, e :: es, t :: ts, h1, h2, h => by
    have h0 := h 0 a e t rfl rfl rfl
    have ih := flatten_split as es ts (by simpa using h1) (by simpa using h2) fun i => h (i + 1)
    rw [List.flatten_cons, List.flatten_cons, List.flatten_cons, h0, List.append_assoc, List.append_assoc]
    refine List.Perm.append_left e ?_
    refine (ih.append_left t).trans ?_
    rw [← List.append_assoc, ← List.append_assoc]
    exact List.perm_append_comm.append_right _
  | [], _ :: _, _, h, _, _ => by cases h
  | [], [], _ :: _, _, h, _ => by cases h
  | _ :: _, [], _, h, _, _ => by cases h
  | _ :: _, _ :: _, [], _, h, _ => by cases h

/-- **C86 (each message once).** Every message that arrived is in exactly one place: it has been received by exactly one worker, or is in the
channel, or waits in a callback. -/
theorem C86_each_message_once {subs workers : Nat} {s : Pool} (h : Run (start subs workers) s) :
    s.arrived.flatten.Perm (s.got.flatten ++ s.jobs ++ s.todo.flatten) := by
  obtain ⟨e, c, I⟩ := inv_run h
  refine (flatten_split _ e s.todo I.len I.lenT I.split).trans (List.Perm.append_right _ ?_)
  exact (interleave_perm I.order).symm.symm.trans ((interleave_perm I.got).symm.append_right _)

/-- **C86 (one worker).** A single worker with a single subscription receives the messages in the order of their arrival. -/
theorem C86_one_worker_in_order {s : Pool} (h : Run (start 1 1) s) :
    ∃ a g t, s.arrived = [a] ∧ s.got = [g] ∧ s.todo = [t] ∧ a = g ++ s.jobs ++ t := by
  obtain ⟨e, c, I⟩ := inv_run h
  obtain ⟨hg, -⟩ := got_length h
  have ha : s.arrived.length = 1 := by
    clear I hg
    induction h with
    | refl => rfl
    | step _ h ih => cases h <;> simp_all
  obtain ⟨a, hA⟩ := List.length_eq_one_iff.1 ha
  obtain ⟨g, hG⟩ := List.length_eq_one_iff.1 hg
  obtain ⟨t, hT⟩ := List.length_eq_one_iff.1 (I.lenT.trans ha)
  obtain ⟨e', hE⟩ := List.length_eq_one_iff.1 (I.len.trans ha)
  subst hE
  have h1 := interleave_one I.order
  have h2 := I.got
  rw [hG] at h2
  have h2 := interleave_one h2
  refine ⟨a, g, t, hA, hG, hT, ?_⟩
  rw [I.split 0 a e' t (by rw [hA]; rfl) rfl (by rw [hT]; rfl), h1, ← h2]

/-- **C86 (progress).** As long as a worker runs, no message is stuck: if one waits in the channel or in a callback, a worker can receive
or a callback can hand over. -/
theorem C86_progress {subs workers : Nat} {s : Pool} (h : Run (start subs workers) s) (w : Nat) (hl : s.live[w]? = some true)
    (hm : s.jobs ≠ [] ∨ ∃ (i : Nat) (m : Bytes) (ms : List Bytes), s.todo[i]? = some (m :: ms)) :
    (∃ m ms l, s.jobs = m :: ms ∧ s.got[w]? = some l ∧ Step s { s with jobs := ms, got := s.got.set w (l ++ [m]) }) ∨
    (∃ (i : Nat) (m : Bytes) (ms : List Bytes), s.todo[i]? = some (m :: ms) ∧ Step s { s with todo := s.todo.set i ms, jobs := s.jobs ++ [m] }) := by
  obtain ⟨hg, hlv⟩ := got_length h
  have hw : w < s.got.length := by rw [hg, ← hlv]; exact (List.getElem?_eq_some_iff.1 hl).1
  cases hj : s.jobs with
  | cons m ms => exact Or.inl ⟨m, ms, _, rfl, List.getElem?_eq_getElem hw, .pop s w m ms _ hl hj (List.getElem?_eq_getElem hw)⟩
  | nil =>
    rcases hm with hm | ⟨i, m, ms, hm⟩
    · exact absurd hj hm
    · refine Or.inr ⟨i, m, ms, hm, ?_⟩
      have := Step.push s i m ms hm (by rw [hj]; decide)
      rw [hj] at this
      exact this

/-- **C86 (waiting is bounded by the queue).** A callback has to wait only if 1024 messages are in the channel. -/
theorem C86_waits_only_when_full {subs workers : Nat} {s : Pool} (_ : Run (start subs workers) s) (i : Nat) (m : Bytes) (ms : List Bytes)
    (hm : s.todo[i]? = some (m :: ms)) (hw : ¬ Step s { s with todo := s.todo.set i ms, jobs := s.jobs ++ [m] }) :
    1024 ≤ s.jobs.length := by
  refine Classical.byContradiction fun hlt => hw ?_
  exact .push s i m ms hm (Nat.lt_of_not_le hlt)

/-- **C86 (workers work until Stop).** Until Stop is called every worker runs. -/
theorem C86_running_until_stop {subs workers : Nat} {s : Pool} (h : Run (start subs workers) s) (hs : s.stop = false) :
    ∀ w < workers, s.live[w]? = some true := by
  induction h with
  | refl =>
    intro w hw
    show (List.replicate workers true)[w]? = some true
    rw [List.getElem?_replicate, if_pos hw]
  | step _ h ih =>
    cases h with
    | close _ => cases hs
    | quit w _ hs' => dsimp only at hs; rw [hs] at hs'; cases hs'
    | _ => exact ih hs

/-- The steps a message still has to go. -/
def ahead (s : Pool) : Nat := 2 * (s.todo.map List.length).sum + s.jobs.length

theorem sum_set (ls : List (List Bytes)) (i : Nat) (m : Bytes) (ms : List Bytes) (h : ls[i]? = some (m :: ms)) :
    (ls.map List.length).sum = ((ls.set i ms).map List.length).sum + 1 := by
  induction ls generalizing i with
  | nil => cases h
  | cons x ls ih =>
    cases i with
    | zero =>
      simp only [List.getElem?_cons_zero, Option.some.injEq] at h
      subst h
      simp; omega
    | succ i =>
      simp only [List.getElem?_cons_succ] at h
      have := ih i h
      simp only [List.set_cons_succ, List.map_cons, List.sum_cons]
      omega

/-- **C86 (everything is received).** Until Stop, with at least one worker: if nothing new arrives, the callbacks and workers can take
at most `2 * (messages in callbacks) + (messages in the channel)` steps, whatever the schedule, and when they can
take no more every message that arrived has been received. -/
theorem C86_everything_received {subs workers : Nat} {s : Pool} (h : Run (start subs workers) s) (hs : s.stop = false)
    (hw : 0 < workers) :
    (∀ s', Step s s' → s'.arrived = s.arrived → s'.stop = s.stop → ahead s' < ahead s) ∧
    ((∀ s', Step s s' → s'.arrived = s.arrived → s'.stop = s.stop → False) → s.arrived.flatten.Perm s.got.flatten) := by
  constructor
  · intro s' hst ha hs'
    cases hst with
    | arrive i as ms m h1 h2 =>
      exfalso
      have hi := (List.getElem?_eq_some_iff.1 h1).1
      have : (s.arrived.set i (as ++ [m]))[i]? = s.arrived[i]? := congrArg (·[i]?) ha
      rw [List.getElem?_set_self hi, h1] at this
      injection this with this
      exact absurd (congrArg List.length this) (by simp)
    | push i m ms hm hc =>
      have := sum_set s.todo i m ms hm
      show 2 * ((s.todo.set i ms).map List.length).sum + (s.jobs ++ [m]).length < 2 * (s.todo.map List.length).sum + s.jobs.length
      rw [List.length_append]
      simp only [List.length_cons, List.length_nil]
      omega
    | pop w m ms l hl hj hg =>
      show 2 * (s.todo.map List.length).sum + ms.length < 2 * (s.todo.map List.length).sum + s.jobs.length
      rw [hj, List.length_cons]
      omega
    | close h => rw [hs] at hs'; cases hs'
    | quit w hl h => rw [hs] at h; cases h
  · intro hno
    have hl := C86_running_until_stop h hs 0 hw
    have hnone : ¬ (s.jobs ≠ [] ∨ ∃ (i : Nat) (m : Bytes) (ms : List Bytes), s.todo[i]? = some (m :: ms)) := by
      intro hm
      rcases C86_progress h 0 hl hm with ⟨m, ms, l, -, -, hst⟩ | ⟨i, m, ms, -, hst⟩
      · exact hno _ hst rfl rfl
      · exact hno _ hst rfl rfl
    have hj : s.jobs = [] := Classical.byContradiction fun h => hnone (Or.inl h)
    have ht : s.todo.flatten = [] := by
      rw [List.flatten_eq_nil_iff]
      intro l hl
      obtain ⟨i, hi⟩ := List.getElem?_of_mem hl
      cases l with
      | nil => rfl
      | cons m ms => exact absurd (Or.inr ⟨i, m, ms, hi⟩) hnone
    have := C86_each_message_once h
    rw [hj, ht, List.append_nil, List.append_nil] at this
    exact this

/-! ## After Stop -/

/-- A callback that has `n + 1` messages for one worker that has returned. -/
def stuckAt (n : Nat) : Pool := ⟨[List.replicate n []], [List.replicate n []], [], [[]], [false], true⟩

theorem run_trans {a b c : Pool} (h1 : Run a b) (h2 : Run b c) : Run a c := by
  induction h2 with
  | refl => exact h1
  | step _ h ih => exact .step ih h

theorem run_arrivals (n : Nat) : Run ⟨[[]], [[]], [], [[]], [false], true⟩ (stuckAt n) := by
  induction n with
  | zero => exact .refl
  | succ n ih =>
    have h := Step.arrive (stuckAt n) 0 (List.replicate n []) (List.replicate n []) [] rfl rfl
    have : Run _ _ := .step ih h
    simpa [stuckAt, List.replicate_succ'] using this

theorem run_pushes (n k : Nat) (a : List (List Bytes)) (hk : k + n ≤ 1024) (m : Nat) :
    Run ⟨a, [List.replicate (n + m) []], List.replicate k [], [[]], [false], true⟩
      ⟨a, [List.replicate m []], List.replicate (k + n) [], [[]], [false], true⟩ := by
  induction n generalizing k with
  | zero => simpa using Run.refl
  | succ n ih =>
    have h := Step.push ⟨a, [List.replicate (n + 1 + m) []], List.replicate k [], [[]], [false], true⟩ 0 []
      (List.replicate (n + m) []) (by
        show some (List.replicate (n + 1 + m) []) = _
        rw [show n + 1 + m = (n + m) + 1 from by omega, List.replicate_succ]) (by simp [capacity]; omega)
    refine run_trans (.step .refl h) ?_
    have := ih (k + 1) (by omega)
    simpa [List.replicate_succ', Nat.add_assoc, Nat.add_comm 1 n] using this

/-- The channel is full, the only worker has returned and the callback holds a message. -/
structure Stuck (J : List Bytes) (s : Pool) : Prop where
  jobs : s.jobs = J
  todo : ∃ ms, s.todo = [[] :: ms]
  live : s.live = [false]
  stop : s.stop = true

theorem stuck_step {J : List Bytes} (hJ : J.length = 1024) {s s' : Pool} (S : Stuck J s) (h : Step s s') : Stuck J s' := by
  obtain ⟨h1, ⟨ms, h2⟩, h3, h4⟩ := S
  cases h with
  | arrive i as ms' m ha hm =>
    refine ⟨h1, ?_, h3, h4⟩
    cases i with
    | zero =>
      rw [h2] at hm
      simp only [List.getElem?_cons_zero, Option.some.injEq] at hm
      subst hm
      refine ⟨ms ++ [m], ?_⟩
      show s.todo.set 0 _ = _
      rw [h2]; rfl
    | succ i => rw [h2] at hm; cases hm
  | push i m ms hm hc => rw [h1, hJ] at hc; exact absurd hc (Nat.lt_irrefl _)
  | pop w m ms l hl hj hg => rw [h3] at hl; cases w <;> cases hl
  | close h => rw [h4] at h; cases h
  | quit w hl h => rw [h3] at hl; cases w <;> cases hl

theorem stuck_run {J : List Bytes} (hJ : J.length = 1024) {s s' : Pool} (S : Stuck J s) (h : Run s s') : Stuck J s' := by
  induction h with
  | refl => exact S
  | step _ h ih => exact stuck_step hJ ih h

/-- **C86 (limit).** After Stop a callback can be blocked for ever: the workers have returned, the channel is full, and the message the callback holds is
never taken. -/
theorem C86_callback_blocked_after_stop :
    ∃ s, Run (start 1 1) s ∧ s.stop = true ∧ s.todo = [[[]]] ∧ s.jobs.length = 1024 ∧
      ∀ s', Run s s' → s'.jobs = s.jobs ∧ ∃ ms, s'.todo = [[] :: ms] := by
  have hlen : (List.replicate (0 + 1024) ([] : Bytes)).length = 1024 := List.length_replicate
  refine ⟨⟨[List.replicate 1025 []], [List.replicate 1 []], List.replicate (0 + 1024) [], [[]], [false], true⟩, ?_, rfl, rfl, hlen, ?_⟩
  · have h1 : Run (start 1 1) ⟨[[]], [[]], [], [[]], [true], true⟩ := .step .refl (Step.close (start 1 1) rfl)
    have h2 : Run (start 1 1) ⟨[[]], [[]], [], [[]], [false], true⟩ := .step h1 (Step.quit ⟨[[]], [[]], [], [[]], [true], true⟩ 0 rfl rfl)
    exact run_trans (run_trans h2 (run_arrivals 1025)) (run_pushes 1024 0 _ (by decide) 1)
  · intro s' h
    have S := stuck_run (J := List.replicate (0 + 1024) []) hlen ⟨rfl, ⟨[], rfl⟩, rfl, rfl⟩ h
    exact ⟨S.jobs, S.todo⟩

/-- Two subscriptions and two workers: three messages, one still in the channel. -/
example : ∃ s, Run (start 2 2) s ∧ s.arrived = [[b!"a", b!"b"], [b!"c"]] ∧ s.got = [[b!"c"], [b!"a"]] ∧ s.jobs = [b!"b"] := by
  refine ⟨⟨[[b!"a", b!"b"], [b!"c"]], [[], []], [b!"b"], [[b!"c"], [b!"a"]], [true, true], false⟩, ?_, rfl, rfl, rfl⟩
  have r0 : Run (start 2 2) ⟨[[], []], [[], []], [], [[], []], [true, true], false⟩ := .refl
  have r1 := Run.step r0 (.arrive _ 0 [] [] b!"a" rfl rfl)
  have r2 := Run.step r1 (.arrive _ 0 [b!"a"] [b!"a"] b!"b" rfl rfl)
  have r3 := Run.step r2 (.arrive _ 1 [] [] b!"c" rfl rfl)
  have r4 := Run.step r3 (.push _ 0 b!"a" [b!"b"] rfl (by decide))
  have r5 := Run.step r4 (.push _ 1 b!"c" [] rfl (by decide))
  have r6 := Run.step r5 (.pop _ 1 b!"a" [b!"c"] [] rfl rfl rfl)
  have r7 := Run.step r6 (.push _ 0 b!"b" [] rfl (by decide))
  have r8 := Run.step r7 (.pop _ 0 b!"c" [b!"b"] [] rfl rfl rfl)
  exact r8

end Spout.Pool
