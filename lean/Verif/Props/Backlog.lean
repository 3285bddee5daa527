import Verif.Props.Pool
import Verif.Spec.Backlog

/-! # C107: the backlog is bounded, and messages are dropped only when it is full -/

namespace Spout.Backlog
open Spout Spout.Pool Spout.Spec

theorem bytesOf_append (a b : List Bytes) : bytesOf (a ++ b) = bytesOf a + bytesOf b := by
  unfold bytesOf
  rw [List.map_append, List.sum_append]

theorem bytesOf_cons (m : Bytes) (b : List Bytes) : bytesOf (m :: b) = m.length + bytesOf b := by
  unfold bytesOf
  rw [List.map_cons, List.sum_cons]

theorem bytesOf_one (m : Bytes) : bytesOf [m] = m.length := by
  rw [bytesOf_cons]; rfl

theorem bytesOf_nil : bytesOf [] = 0 := rfl

/-- The state of a subscription: `a` accepted, `t` waiting. -/
structure SubInv (l0 : Limits) (size : Nat) (b : NSub) (a t : List Bytes) : Prop where
  bytes : b.pBytes = (bytesOf t + b.counted.getD 0 : Nat)
  calling : b.calling = true → b.counted = none
  dropped : b.dropped = (b.lost.length : Nat)
  incoming : Interleave [a, b.lost] b.incoming
  limits : b.limits = l0 ∨ configuredLimits size = some b.limits

structure Inv (l0 : Limits) (size : Nat) (p : Proc) : Prop where
  lenT : p.q.todo.length = p.subs.length
  lenA : p.q.arrived.length = p.subs.length
  subs : ∀ (i : Nat) (b : NSub) (a t : List Bytes), p.subs[i]? = some b → p.q.arrived[i]? = some a → p.q.todo[i]? = some t → SubInv l0 size b a t

variable {l0 : Limits} {size n workers : Nat} {p p' : Proc}

theorem inv_start : Inv l0 size (start l0 n workers) := by
  refine ⟨by simp [start, Pool.start], by simp [start, Pool.start], ?_⟩
  intro i b a t hb ha ht
  have hb := List.eq_of_mem_replicate (List.mem_of_getElem? hb)
  have ha := List.eq_of_mem_replicate (List.mem_of_getElem? ha)
  have ht := List.eq_of_mem_replicate (List.mem_of_getElem? ht)
  subst hb ha ht
  exact ⟨rfl, (fun h => by cases h), rfl, .done _ (by simp), Or.inl rfl⟩

/-- Only subscription `i` changes. -/
theorem inv_set (I : Inv l0 size p) {i : Nat} {b b' : NSub} {a a' t t' : List Bytes} {q' : Pool} (hb : p.subs[i]? = some b) (ha : p.q.arrived[i]? = some a)
    (ht : p.q.todo[i]? = some t) (hq1 : q'.arrived = p.q.arrived.set i a') (hq2 : q'.todo = p.q.todo.set i t') (h : SubInv l0 size b' a' t') : Inv l0 size ⟨p.subs.set i b', q'⟩ := by
  obtain ⟨hi, -⟩ := List.getElem?_eq_some_iff.1 hb
  obtain ⟨hia, -⟩ := List.getElem?_eq_some_iff.1 ha
  obtain ⟨hit, -⟩ := List.getElem?_eq_some_iff.1 ht
  refine ⟨?_, ?_, ?_⟩
  · show q'.todo.length = (p.subs.set i b').length
    rw [hq2, List.length_set, List.length_set, I.lenT]
  · show q'.arrived.length = (p.subs.set i b').length
    rw [hq1, List.length_set, List.length_set, I.lenA]
  · intro j c a1 t1 h1 h2 h3
    have h1 : (p.subs.set i b')[j]? = some c := h1
    have h2 : q'.arrived[j]? = some a1 := h2
    have h3 : q'.todo[j]? = some t1 := h3
    rw [hq1] at h2
    rw [hq2] at h3
    by_cases hj : i = j
    · subst hj
      rw [List.getElem?_set_self hi] at h1
      rw [List.getElem?_set_self hia] at h2
      rw [List.getElem?_set_self hit] at h3
      injection h1 with h1
      injection h2 with h2
      injection h3 with h3
      subst h1 h2 h3
      exact h
    · rw [List.getElem?_set_ne hj] at h1 h2 h3
      exact I.subs j c a1 t1 h1 h2 h3

theorem set_same {α : Type} {l : List α} {i : Nat} {x : α} (h : l[i]? = some x) : l = l.set i x := by
  obtain ⟨hi, rfl⟩ := List.getElem?_eq_some_iff.1 h
  exact (List.set_getElem_self hi).symm

theorem get_arrived (I : Inv l0 size p) {i : Nat} {b : NSub} (hb : p.subs[i]? = some b) : ∃ a t, p.q.arrived[i]? = some a ∧ p.q.todo[i]? = some t := by
  obtain ⟨hi, -⟩ := List.getElem?_eq_some_iff.1 hb
  exact ⟨_, _, List.getElem?_eq_getElem (by rw [I.lenA]; exact hi), List.getElem?_eq_getElem (by rw [I.lenT]; exact hi)⟩

theorem inv_step (I : Inv l0 size p) (h : Step size p p') : Inv l0 size p' := by
  cases h with
  | receive i b as ms m hb ha ht hl =>
    have S := I.subs i b as ms hb ha ht
    refine inv_set I hb ha ht rfl rfl ⟨?_, S.calling, S.dropped, ?_, S.limits⟩
    · show b.pBytes + m.length = ((bytesOf (ms ++ [m]) + b.counted.getD 0 : Nat) : Int)
      rw [S.bytes, bytesOf_append, bytesOf_one]
      omega
    · exact interleave_snoc (i := 0) (l := as) S.incoming m rfl
  | drop i b m hb hl =>
    obtain ⟨a, t, ha, ht⟩ := get_arrived I hb
    have S := I.subs i b a t hb ha ht
    refine inv_set I hb ha ht (set_same ha) (set_same ht) ⟨S.bytes, S.calling, ?_, ?_, S.limits⟩
    · show b.dropped + 1 = (((b.lost ++ [m]).length : Nat) : Int)
      rw [S.dropped, List.length_append]
      rfl
    · exact interleave_snoc (i := 1) (l := b.lost) S.incoming m rfl
  | call i b m ms hb hc hn ht =>
    obtain ⟨a, t, ha, -⟩ := get_arrived I hb
    have S := I.subs i b a _ hb ha ht
    exact inv_set I hb ha ht (set_same ha) (set_same ht) ⟨S.bytes, fun _ => hn, S.dropped, S.incoming, S.limits⟩
  | push i b m ms hb hc ht hj =>
    obtain ⟨a, t, ha, -⟩ := get_arrived I hb
    have S := I.subs i b a _ hb ha ht
    refine inv_set I hb ha ht (set_same ha) rfl ⟨?_, (fun h => by cases h), S.dropped, S.incoming, S.limits⟩
    show b.pBytes = ((bytesOf ms + m.length : Nat) : Int)
    rw [S.bytes, S.calling hc, bytesOf_cons]
    simp only [Option.getD_none]
    omega
  | account i b n hb hc =>
    obtain ⟨a, t, ha, ht⟩ := get_arrived I hb
    have S := I.subs i b a t hb ha ht
    refine inv_set I hb ha ht (set_same ha) (set_same ht) ⟨?_, fun _ => rfl, S.dropped, S.incoming, S.limits⟩
    show b.pBytes - n = ((bytesOf t + 0 : Nat) : Int)
    rw [S.bytes, hc]
    simp only [Option.getD_some]
    omega
  | limits i b l hb hl =>
    obtain ⟨a, t, ha, ht⟩ := get_arrived I hb
    have S := I.subs i b a t hb ha ht
    exact inv_set I hb ha ht (set_same ha) (set_same ht) ⟨S.bytes, S.calling, S.dropped, S.incoming, Or.inr hl⟩
  | other q' h ha ht =>
    refine ⟨ht ▸ I.lenT, ha ▸ I.lenA, ?_⟩
    intro i b a t h1 h2 h3
    have h2 : q'.arrived[i]? = some a := h2
    have h3 : q'.todo[i]? = some t := h3
    rw [ha] at h2
    rw [ht] at h3
    exact I.subs i b a t h1 h2 h3

theorem inv_run (h : Run size (start l0 n workers) p) : Inv l0 size p := by
  induction h with
  | refl => exact inv_start
  | step _ h ih => exact inv_step ih h

/-- What the client counts is the load. -/
theorem load_eq (I : Inv l0 size p) {i : Nat} {b : NSub} (hb : p.subs[i]? = some b) : b.pBytes = (p.load i : Nat) := by
  obtain ⟨a, t, ha, ht⟩ := get_arrived I hb
  rw [(I.subs i b a t hb ha ht).bytes]
  unfold Proc.load Proc.waiting
  rw [ht, hb]
  rfl

theorem configured_eq (h1 : 0 < size) (h2 : size < 9223372036854775808) : configuredLimits size = some ⟨-1, size⟩ := by
  have : pendingLimit size = size := by
    unfold pendingLimit
    exact wrap64_of_inInt64 ⟨by omega, by omega⟩
  unfold configuredLimits setPendingLimits
  rw [this, if_neg (by omega)]

theorem exceeded_none {a b msgs bytes : Int} (ha : a ≤ 0) (hb : b ≤ 0) : Limits.exceeded ⟨a, b⟩ msgs bytes = false := by
  unfold Limits.exceeded
  rw [decide_eq_false (Int.not_lt.2 ha), decide_eq_false (Int.not_lt.2 hb)]
  rfl

theorem exceeded_bytes {l : Limits} {msgs bytes : Int} (h : l.exceeded msgs bytes = false) (h0 : 0 < l.bytes) : bytes ≤ l.bytes := by
  unfold Limits.exceeded at h
  simp only [Bool.or_eq_false_iff, Bool.and_eq_false_iff, decide_eq_false_iff_not] at h
  omega

theorem exceeded_size {s msgs bytes : Int} (h : Limits.exceeded ⟨-1, s⟩ msgs bytes = false) (h0 : 0 < s) : bytes ≤ s := exceeded_bytes h h0

/-! ## The theorems -/

/-- **C107.** `nats_max_pending_size` is the limit of each subscription, if it is positive and less than 2^63 bytes; with zero the component does not start; from 2^63 bytes on, there is no limit. -/
theorem C107_setting (size : Nat) (h : size < 18446744073709551616) :
    (size = 0 → configuredLimits size = none) ∧ (0 < size → size < 9223372036854775808 → configuredLimits size = some ⟨-1, size⟩) ∧
    (9223372036854775808 ≤ size → ∃ l, configuredLimits size = some l ∧ ∀ msgs bytes, l.exceeded msgs bytes = false) := by
  refine ⟨?_, configured_eq, ?_⟩
  · rintro rfl
    rfl
  · intro hs
    have hw : pendingLimit size < 0 := by
      unfold pendingLimit wrap64
      omega
    refine ⟨⟨-1, pendingLimit size⟩, ?_, ?_⟩
    · unfold configuredLimits setPendingLimits
      rw [if_neg (by omega)]
    · intro msgs bytes
      exact exceeded_none (Int.neg_nonpos_of_nonneg (by omega : (0 : Int) ≤ 1)) (Int.le_of_lt hw)

/-- What one step does to the load of a subscription that is limited. -/
theorem load_step (h : Step size p p') {i : Nat} {b b' : NSub} (hb : p.subs[i]? = some b) (hb' : p'.subs[i]? = some b') :
    (b'.pBytes ≤ b.pBytes ∨ b.limits.exceeded b'.pMsgs b'.pBytes = false) ∧ (b'.limits = b.limits ∨ configuredLimits size = some b'.limits) := by
  have same : ∀ {j : Nat} {c c' : NSub}, p.subs[j]? = some c → (p.subs.set j c')[i]? = some b' →
      ((c'.pBytes ≤ c.pBytes ∨ c.limits.exceeded c'.pMsgs c'.pBytes = false) ∧ (c'.limits = c.limits ∨ configuredLimits size = some c'.limits)) →
      ((b'.pBytes ≤ b.pBytes ∨ b.limits.exceeded b'.pMsgs b'.pBytes = false) ∧ (b'.limits = b.limits ∨ configuredLimits size = some b'.limits)) := by
    intro j c c' hc hc' hh
    by_cases hj : j = i
    · subst hj
      obtain ⟨hi, -⟩ := List.getElem?_eq_some_iff.1 hc
      rw [List.getElem?_set_self hi] at hc'
      rw [hb] at hc
      injection hc with hc
      injection hc' with hc'
      subst hc hc'
      exact hh
    · rw [List.getElem?_set_ne hj, hb] at hc'
      injection hc' with hc'
      subst hc'
      exact ⟨Or.inl (Int.le_refl _), Or.inl rfl⟩
  cases h with
  | receive j c as ms m hc ha ht hl => exact same hc hb' ⟨Or.inr hl, Or.inl rfl⟩
  | drop j c m hc hl => exact same hc hb' ⟨Or.inl (Int.le_refl _), Or.inl rfl⟩
  | call j c m ms hc _ _ ht => exact same hc hb' ⟨Or.inl (Int.le_refl _), Or.inl rfl⟩
  | push j c m ms hc _ ht hj => exact same hc hb' ⟨Or.inl (Int.le_refl _), Or.inl rfl⟩
  | account j c n hc hn => exact same hc hb' ⟨Or.inl (Int.sub_le_self _ (Int.natCast_nonneg n)), Or.inl rfl⟩
  | limits j c l hc hl => exact same hc hb' ⟨Or.inl (Int.le_refl _), Or.inr hl⟩
  | other q' h ha ht =>
    have : p.subs[i]? = some b' := hb'
    rw [hb] at this
    injection this with this
    subst this
    exact ⟨Or.inl (Int.le_refl _), Or.inl rfl⟩

theorem subs_step (h : Step size p p') : p'.subs.length = p.subs.length := by
  cases h <;> first | rfl | exact List.length_set

/-- **C107.** The backlog of a subscription never has more bytes than `nats_max_pending_size` (or than the client's default limit, if that is larger: it is in force for the moment between
subscribing and setting the limit). -/
theorem C107_backlog_bounded (l0 : Limits) (size n workers : Nat) (p : Proc) (hl : 0 < l0.bytes) (h1 : 0 < size) (h2 : size < 9223372036854775808)
    (h : Run size (start l0 n workers) p) (i : Nat) : (p.load i : Int) ≤ max l0.bytes size := by
  have hc := configured_eq h1 h2
  have key : ∀ b, p.subs[i]? = some b → b.pBytes ≤ max l0.bytes size := by
    induction h with
    | refl =>
      intro b hb
      have := List.eq_of_mem_replicate (List.mem_of_getElem? hb)
      rw [this]
      show (0 : Int) ≤ _
      omega
    | step hr hs ih =>
      rename_i p1 p2
      intro b' hb'
      have I := inv_run hr
      obtain ⟨hi, -⟩ := List.getElem?_eq_some_iff.1 hb'
      have hb := List.getElem?_eq_getElem (by rw [← subs_step hs]; exact hi : i < p1.subs.length)
      obtain ⟨a, t, ha, ht⟩ := get_arrived I hb
      have hlim := (I.subs i _ a t hb ha ht).limits
      rcases (load_step hs hb hb').1 with h | h
      · exact Int.le_trans h (ih _ hb)
      · rcases hlim with hlim | hlim
        · rw [hlim] at h
          exact Int.le_trans (exceeded_bytes h hl) (by omega)
        · rw [hc] at hlim
          injection hlim with hlim
          rw [← hlim] at h
          have := exceeded_size h (by omega)
          omega
  cases hb : p.subs[i]? with
  | none =>
    have I := inv_run h
    have : p.q.todo[i]? = none := by
      rw [List.getElem?_eq_none_iff] at hb ⊢
      rw [I.lenT]; exact hb
    unfold Proc.load Proc.waiting
    rw [this, hb]
    simp only [Option.getD_none, bytesOf_nil, Option.bind_none]
    omega
  | some b =>
    rw [← load_eq (inv_run h) hb]
    exact key b hb

/-- **C107.** Once the limit is in force and the backlog is within it, it stays within it. -/
theorem C107_stays_within_limit (l0 : Limits) (size n workers : Nat) (p p' : Proc) (h1 : 0 < size) (h2 : size < 9223372036854775808)
    (h : Run size (start l0 n workers) p) (i : Nat) (hlim : p.Limited i size) (hload : p.load i ≤ size) (h' : Run size p p') : p'.Limited i size ∧ p'.load i ≤ size := by
  have hc := configured_eq h1 h2
  induction h' with
  | refl => exact ⟨hlim, hload⟩
  | step hr hs ih =>
    rename_i p1 p2
    obtain ⟨⟨b, hb, hl⟩, hi⟩ := ih
    have I1 : Inv l0 size p1 := by
      clear hs hb hi
      induction hr with
      | refl => exact inv_run h
      | step _ hs ih => exact inv_step ih hs
    obtain ⟨hlt, -⟩ := List.getElem?_eq_some_iff.1 hb
    have hb' := List.getElem?_eq_getElem (by rw [subs_step hs]; exact hlt : i < p2.subs.length)
    obtain ⟨h3, h4⟩ := load_step hs hb hb'
    refine ⟨⟨_, hb', ?_⟩, ?_⟩
    · rcases h4 with h4 | h4
      · rw [h4, hl]
      · exact (Option.some.inj (hc.symm.trans h4)).symm
    · have e1 := load_eq I1 hb
      have e2 := load_eq (inv_step I1 hs) hb'
      rcases h3 with h3 | h3
      · omega
      · rw [hl] at h3
        have h5 := exceeded_size h3 (by omega)
        omega

/-- **C107.** A message is dropped only if the limit would be exceeded with it. -/
theorem C107_dropped_only_when_full (l0 : Limits) (size n workers : Nat) (p p' : Proc) (h : Run size (start l0 n workers) p) (hs : Step size p p') (i : Nat)
    (inc acc lost inc' acc' lost' : List Bytes) (dr dr' : Int) (hc : p.Counts i inc acc lost dr) (hc' : p'.Counts i inc' acc' lost' dr') (hlim : p.Limited i size) (hd : lost' ≠ lost) :
    ∃ m, inc' = inc ++ [m] ∧ lost' = lost ++ [m] ∧ acc' = acc ∧ dr' = dr + 1 ∧ size < p.load i + m.length := by
  obtain ⟨b, hb, rfl, ha, rfl, rfl⟩ := hc
  obtain ⟨b', hb', rfl, ha', rfl, rfl⟩ := hc'
  obtain ⟨b1, hb1, hl⟩ := hlim
  rw [hb] at hb1
  injection hb1 with hb1
  subst hb1
  have I := inv_run h
  have same : ∀ {j : Nat} {c c' : NSub}, p.subs[j]? = some c → (p.subs.set j c')[i]? = some b' → c'.lost = c.lost → b'.lost = b.lost := by
    intro j c c' hc hc' hh
    by_cases hj : j = i
    · subst hj
      obtain ⟨hi, -⟩ := List.getElem?_eq_some_iff.1 hc
      rw [List.getElem?_set_self hi] at hc'
      rw [hb] at hc
      injection hc with hc
      injection hc' with hc'
      subst hc hc'
      exact hh
    · rw [List.getElem?_set_ne hj, hb] at hc'
      injection hc' with hc'
      subst hc'
      rfl
  cases hs with
  | receive j c as ms m hc _ ht hl => exact absurd (same hc hb' rfl) hd
  | call j c m ms hc _ _ ht => exact absurd (same hc hb' rfl) hd
  | push j c m ms hc _ ht hj => exact absurd (same hc hb' rfl) hd
  | account j c n hc hn => exact absurd (same hc hb' rfl) hd
  | limits j c l hc hl => exact absurd (same hc hb' rfl) hd
  | other q' h ha ht =>
    have : p.subs[i]? = some b' := hb'
    rw [hb] at this
    injection this with this
    rw [this] at hd
    exact absurd rfl hd
  | drop j c m hc hx =>
    by_cases hj : j = i
    · subst hj
      obtain ⟨hi, -⟩ := List.getElem?_eq_some_iff.1 hc
      have hb2 : (p.subs.set j (c.drop m))[j]? = some b' := hb'
      rw [List.getElem?_set_self hi] at hb2
      rw [hb] at hc
      injection hc with hc
      injection hb2 with hb2
      subst hc hb2
      have ha2 : p.q.arrived[j]? = some acc' := ha'
      rw [ha] at ha2
      injection ha2 with ha2
      refine ⟨m, rfl, rfl, ha2.symm, rfl, ?_⟩
      have e := load_eq I hb
      rw [hl] at hx
      have hx : Limits.exceeded ⟨-1, size⟩ (b.pMsgs + 1) (b.pBytes + m.length) = true := hx
      unfold Limits.exceeded at hx
      simp only [Bool.or_eq_true, Bool.and_eq_true, decide_eq_true_eq] at hx
      omega
    · have hb2 : (p.subs.set j (c.drop m))[i]? = some b' := hb'
      rw [List.getElem?_set_ne hj, hb] at hb2
      injection hb2 with hb2
      rw [hb2] at hd
      exact absurd rfl hd

/-- **C107.** Every message that comes in is accepted or dropped, in order; `Dropped` is the number of those dropped. -/
theorem C107_accepted_or_dropped (l0 : Limits) (size n workers : Nat) (p : Proc) (h : Run size (start l0 n workers) p) (i : Nat) (hi : i < n) :
    ∃ inc acc lost dr, p.Counts i inc acc lost dr ∧ Interleave [acc, lost] inc ∧ dr = (lost.length : Nat) := by
  have I := inv_run h
  have hn : p.subs.length = n := by
    clear I
    induction h with
    | refl => simp [start]
    | step _ hs ih => rw [subs_step hs, ih]
  have hb := List.getElem?_eq_getElem (by rw [hn]; exact hi : i < p.subs.length)
  obtain ⟨a, t, ha, ht⟩ := get_arrived I hb
  have S := I.subs i _ a t hb ha ht
  exact ⟨_, a, _, _, ⟨_, hb, rfl, ha, rfl, rfl⟩, S.incoming, S.dropped⟩

/-- **C107.** What is accepted is passed to the workers as in C86: the queue of the component is a queue of `Model/Pool.lean`. -/
theorem C107_queue (l0 : Limits) (size n workers : Nat) (p : Proc) (h : Run size (start l0 n workers) p) : Pool.Run (Pool.start n workers) p.q := by
  induction h with
  | refl => exact .refl
  | step _ hs ih =>
    cases hs with
    | receive i b as ms m hb ha ht hl => exact .step ih (.arrive _ i as ms m ha ht)
    | push i b m ms hb hc ht hj => exact .step ih (.push _ i m ms ht hj)
    | other q' h ha ht => exact .step ih h
    | drop => exact ih
    | call => exact ih
    | account => exact ih
    | limits => exact ih

theorem jobs_bytes {p : Proc} {M : Nat} (hq : Pool.Run (Pool.start n workers) p.q) (hm : ∀ m ∈ p.q.jobs, m.length ≤ M) : bytesOf p.q.jobs ≤ 1024 * M := by
  obtain ⟨e, c, I⟩ := Pool.inv_run hq
  have hcap : p.q.jobs.length ≤ 1024 := I.cap
  refine Nat.le_trans (m := p.q.jobs.length * M) ?_ (Nat.mul_le_mul_right M hcap)
  clear I hcap hq
  generalize p.q.jobs = l at hm
  induction l with
  | nil => exact Nat.zero_le _
  | cons a l ih =>
    rw [bytesOf_cons, List.length_cons, Nat.succ_mul]
    have := hm a (by simp)
    have := ih fun m hm' => hm m (by simp [hm'])
    omega

theorem sum_le {l : List Nat} {B : Nat} (h : ∀ x ∈ l, x ≤ B) : l.sum ≤ l.length * B := by
  induction l with
  | nil => simp
  | cons a l ih =>
    rw [List.sum_cons, List.length_cons, Nat.succ_mul]
    have := h a (by simp)
    have := ih fun x hx => h x (by simp [hx])
    omega

/-- **C107.** The memory for waiting messages of a component with `n` subscriptions is bounded: the limit for each of them, and the queue of 1024 messages. -/
theorem C107_memory_bounded (l0 : Limits) (size n workers M : Nat) (p : Proc) (hl : 0 < l0.bytes) (h1 : 0 < size) (h2 : size < 9223372036854775808)
    (h : Run size (start l0 n workers) p) (hm : ∀ m ∈ p.q.jobs, m.length ≤ M) : (p.held : Int) ≤ n * max l0.bytes size + 1024 * M := by
  have hj := jobs_bytes (C107_queue l0 size n workers p h) hm
  have hn : p.q.todo.length = n := by
    have I := inv_run h
    rw [I.lenT]
    clear I hj hm
    induction h with
    | refl => simp [start]
    | step _ hs ih => rw [subs_step hs, ih]
  have hs : (p.q.todo.map bytesOf).sum ≤ n * (max l0.bytes size).toNat := by
    refine Nat.le_trans (sum_le (B := (max l0.bytes size).toNat) ?_) ?_
    · intro x hx
      obtain ⟨t, ht, rfl⟩ := List.mem_map.1 hx
      obtain ⟨i, hi⟩ := List.getElem?_of_mem ht
      have := C107_backlog_bounded l0 size n workers p hl h1 h2 h i
      unfold Proc.load Proc.waiting at this
      rw [hi] at this
      simp only [Option.getD_some] at this
      omega
    · rw [List.length_map, hn]
      exact Nat.le_refl _
  unfold Proc.held
  have e : (n * (max l0.bytes size).toNat : Nat) = (n : Int) * max l0.bytes size := by
    rw [Int.natCast_mul, Int.toNat_of_nonneg (by omega)]
  omega

/-! ## A filter with `nats_max_pending_size = 10` -/

def exL0 : Limits := ⟨65536, 67108864⟩

/-- The limit is set and a message of 6 bytes is waiting. -/
def exFull : Proc := ⟨[⟨⟨-1, 10⟩, false, none, 1, 6, 0, [b!"m f=1\n"], []⟩], ⟨[[b!"m f=1\n"]], [[b!"m f=1\n"]], [], [[]], [true], false⟩⟩

/-- The next message of 6 bytes has been dropped. -/
def exDropped : Proc := ⟨[⟨⟨-1, 10⟩, false, none, 1, 6, 1, [b!"m f=1\n", b!"m f=2\n"], [b!"m f=2\n"]⟩], exFull.q⟩

/-- The first is in the queue, a third has been accepted. -/
def exLater : Proc := ⟨[⟨⟨-1, 10⟩, false, none, 1, 6, 1, [b!"m f=1\n", b!"m f=2\n", b!"m f=3\n"], [b!"m f=2\n"]⟩],
  ⟨[[b!"m f=1\n", b!"m f=3\n"]], [[b!"m f=3\n"]], [b!"m f=1\n"], [[]], [true], false⟩⟩

theorem ex_full : Run 10 (start exL0 1 1) exFull := by
  have r1 : Run 10 (start exL0 1 1) _ := Run.step .refl (Step.limits _ 0 _ ⟨-1, 10⟩ rfl rfl)
  exact Run.step r1 (Step.receive _ 0 ⟨⟨-1, 10⟩, false, none, 0, 0, 0, [], []⟩ [] [] b!"m f=1\n" rfl rfl rfl (by decide))

theorem ex_drop : Step 10 exFull exDropped := Step.drop exFull 0 _ b!"m f=2\n" rfl (by decide)

theorem ex_later : Run 10 exDropped exLater := by
  have r1 : Run 10 exDropped _ := Run.step .refl (Step.call _ 0 _ b!"m f=1\n" [] rfl rfl rfl rfl)
  have r2 : Run 10 exDropped _ := Run.step r1 (Step.push _ 0 ⟨⟨-1, 10⟩, true, none, 1, 6, 1, [b!"m f=1\n", b!"m f=2\n"], [b!"m f=2\n"]⟩ b!"m f=1\n" [] rfl rfl rfl (by decide))
  have r3 : Run 10 exDropped _ := Run.step r2 (Step.account _ 0 ⟨⟨-1, 10⟩, false, some 6, 1, 6, 1, [b!"m f=1\n", b!"m f=2\n"], [b!"m f=2\n"]⟩ 6 rfl rfl)
  exact Run.step r3 (Step.receive _ 0 ⟨⟨-1, 10⟩, false, none, 0, 0, 1, [b!"m f=1\n", b!"m f=2\n"], [b!"m f=2\n"]⟩ [b!"m f=1\n"] [] b!"m f=3\n" rfl rfl rfl (by decide))

/-- A message is dropped as 6 + 6 > 10. -/
example : ∃ m, (10 : Nat) < exFull.load 0 + m.length ∧ m = b!"m f=2\n" := by
  obtain ⟨m, -, h2, -, -, h5⟩ := C107_dropped_only_when_full exL0 10 1 1 exFull exDropped ex_full ex_drop 0 [b!"m f=1\n"] [b!"m f=1\n"] [] [b!"m f=1\n", b!"m f=2\n"] [b!"m f=1\n"]
    [b!"m f=2\n"] 0 1 ⟨_, rfl, rfl, rfl, rfl, rfl⟩ ⟨_, rfl, rfl, rfl, rfl, rfl⟩ ⟨_, rfl, rfl⟩ (by decide)
  exact ⟨m, h5, by simpa using h2.symm⟩

/-- Later the backlog still is within the limit. -/
example : exLater.Limited 0 10 ∧ exLater.load 0 ≤ 10 :=
  C107_stays_within_limit exL0 10 1 1 exDropped exLater (by decide) (by decide) (.step ex_full ex_drop) 0 ⟨_, rfl, rfl⟩ (by decide) ex_later

theorem run_trans {a b c : Proc} (h : Run size a b) (h' : Run size b c) : Run size a c := by
  induction h' with
  | refl => exact h
  | step _ hs ih => exact ih.step hs

example : (exLater.held : Int) ≤ 1 * max 67108864 10 + 1024 * 6 :=
  C107_memory_bounded exL0 10 1 1 6 exLater (by decide) (by decide) (by decide) (run_trans (.step ex_full ex_drop) ex_later) (by decide)

/-- The default, 200 MB. -/
example : configuredLimits 209715200 = some ⟨-1, 209715200⟩ := (C107_setting 209715200 (by decide)).2.1 (by decide) (by decide)

end Spout.Backlog
