import Verif.Spec.Writer

set_option linter.unusedSimpArgs false

/-! # Lemmas about the retry queue and its histories -/

namespace Spout
open Spec

/-! ## Responses -/

theorem writeError_none (r : Resp) : writeError r = none ↔ Spec.Resp.Ok r := by
  cases r with
  | badRequest => simp [writeError, Spec.Resp.Ok]
  | transport => simp [writeError, Spec.Resp.Ok]
  | status code =>
    by_cases hs : isHTTPPOSTSuccess code = true
    · rw [show writeError (.status code) = none by simp [writeError, hs]]
      simp [isHTTPPOSTSuccess] at hs
      exact ⟨fun _ => ⟨code, rfl, by omega, by omega⟩, fun _ => rfl⟩
    · rw [show writeError (.status code) = some ⟨isHTTPClientError code⟩ by simp [writeError, hs]]
      simp [isHTTPPOSTSuccess] at hs
      constructor
      · intro h; cases h
      · rintro ⟨c, h1, h2, h3⟩
        injection h1 with h1
        subst h1
        have := hs h2
        omega

theorem isPermanentError_iff (r : Resp) : isPermanentError (writeError r) = true ↔ Spec.Resp.Permanent r := by
  cases r with
  | badRequest => simp [writeError, Spec.Resp.Permanent, isPermanentError]
  | transport => simp [writeError, Spec.Resp.Permanent, isPermanentError]
  | status code =>
    by_cases hs : isHTTPPOSTSuccess code = true
    · rw [show writeError (.status code) = none by simp [writeError, hs]]
      simp [isHTTPPOSTSuccess] at hs
      constructor
      · intro h; simp [isPermanentError] at h
      · rintro (h | ⟨c, h1, h2, h3⟩)
        · cases h
        · injection h1 with h1; omega
    · rw [show writeError (.status code) = some ⟨isHTTPClientError code⟩ by simp [writeError, hs]]
      simp only [isPermanentError, isHTTPClientError, Bool.and_eq_true, decide_eq_true_eq]
      constructor
      · rintro ⟨h1, h2⟩; exact Or.inr ⟨code, rfl, by omega, by omega⟩
      · rintro (h | ⟨c, h1, h2, h3⟩)
        · cases h
        · injection h1 with h1; omega

theorem not_ok_and_permanent (r : Resp) : ¬ (Spec.Resp.Ok r ∧ Spec.Resp.Permanent r) := by
  rintro ⟨⟨c, rfl, h1, h2⟩, h | ⟨c', h, h3, h4⟩⟩
  · cases h
  · injection h with h; omega

/-! ## The queue -/

theorem oldestIdx_some (q : List RItem) (i k : Nat) (m : Int) :
    (oldestIdx i (some (k, m)) q = some k ∧ ∀ x ∈ q, m ≤ x.ttl) ∨
    ∃ a g b, q = a ++ g :: b ∧ oldestIdx i (some (k, m)) q = some (i + a.length) ∧ g.ttl < m ∧ ∀ x ∈ q, g.ttl ≤ x.ttl := by
  induction q generalizing i k m with
  | nil => exact Or.inl ⟨rfl, by simp⟩
  | cons x q ih =>
    rw [oldestIdx]
    by_cases hx : x.ttl < m
    · rw [if_pos hx]
      right
      rcases ih (i + 1) i x.ttl with ⟨h1, h2⟩ | ⟨a, g, b, h1, h2, h3, h4⟩
      · exact ⟨[], x, q, rfl, h1, hx, by
          intro y hy
          rcases List.mem_cons.1 hy with rfl | hy
          · omega
          · exact h2 y hy⟩
      · refine ⟨x :: a, g, b, by rw [h1]; rfl, ?_, by omega, ?_⟩
        · rw [h2]; simp; omega
        · intro y hy
          rcases List.mem_cons.1 hy with rfl | hy
          · omega
          · exact h4 y hy
    · rw [if_neg hx]
      rcases ih (i + 1) k m with ⟨h1, h2⟩ | ⟨a, g, b, h1, h2, h3, h4⟩
      · left
        refine ⟨h1, ?_⟩
        intro y hy
        rcases List.mem_cons.1 hy with rfl | hy
        · omega
        · exact h2 y hy
      · right
        refine ⟨x :: a, g, b, by rw [h1]; rfl, ?_, h3, ?_⟩
        · rw [h2]; simp; omega
        · intro y hy
          rcases List.mem_cons.1 hy with rfl | hy
          · omega
          · exact h4 y hy

theorem removeOldest_spec (q : List RItem) (h : q ≠ []) :
    ∃ a g b, q = a ++ g :: b ∧ removeOldest q = (a ++ b, some g) ∧ ∀ x ∈ q, g.ttl ≤ x.ttl := by
  cases q with
  | nil => exact absurd rfl h
  | cons x q =>
    unfold removeOldest
    rw [oldestIdx]
    rcases oldestIdx_some q 1 0 x.ttl with ⟨h1, h2⟩ | ⟨a, g, b, h1, h2, h3, h4⟩
    · refine ⟨[], x, q, rfl, ?_, ?_⟩
      · simp only [Nat.zero_add, h1]; rfl
      · intro y hy
        rcases List.mem_cons.1 hy with rfl | hy
        · omega
        · exact h2 y hy
    · refine ⟨x :: a, g, b, by rw [h1]; rfl, ?_, ?_⟩
      · simp only [Nat.zero_add, h2]
        rw [h1]
        rw [show 1 + a.length = a.length + 1 by omega]
        rw [List.eraseIdx_cons_succ, List.eraseIdx_append_of_length_le (Nat.le_refl _)]
        simp
      · intro y hy
        rcases List.mem_cons.1 hy with rfl | hy
        · omega
        · exact h4 y hy

theorem queueFront_spec (now : Int) (q : List RItem) :
    ∀ gone rest, queueFront now q = (gone, rest) → q = gone ++ rest ∧ (∀ g ∈ gone, g.ttl < now) ∧
      ∀ b r, rest = b :: r → now ≤ b.ttl := by
  induction q with
  | nil => intro gone rest h; simp only [queueFront, Prod.mk.injEq] at h; obtain ⟨rfl, rfl⟩ := h; simp
  | cons x q ih =>
    intro gone rest h
    rw [queueFront] at h
    split at h
    · rename_i hx
      cases hq : queueFront now q with
      | mk g r =>
        rw [hq] at h
        simp only [Prod.mk.injEq] at h
        obtain ⟨rfl, rfl⟩ := h
        obtain ⟨h1, h2, h3⟩ := ih g r hq
        refine ⟨by rw [h1]; rfl, ?_, h3⟩
        intro y hy
        rcases List.mem_cons.1 hy with rfl | hy
        · omega
        · exact h2 y hy
    · rename_i hx
      simp only [Prod.mk.injEq] at h
      obtain ⟨rfl, rfl⟩ := h
      refine ⟨rfl, by simp, ?_⟩
      intro b r hb
      injection hb with hb _
      subst hb
      omega

/-! ## Histories -/

theorem split_snoc {h h1 h2 : List WEv} {e x : WEv} (hs : h ++ [e] = h1 ++ x :: h2) :
    (h2 = [] ∧ h = h1 ∧ e = x) ∨ ∃ h2', h2 = h2' ++ [e] ∧ h = h1 ++ x :: h2' := by
  rcases List.eq_nil_or_concat h2 with rfl | ⟨h2', y, hc⟩
  · left
    have := List.append_inj' hs rfl
    exact ⟨rfl, this.1, by simpa using this.2⟩
  · right
    rw [List.concat_eq_append] at hc
    subst hc
    have hs' : h ++ [e] = (h1 ++ x :: h2') ++ [y] := by simpa using hs
    have := List.append_inj' hs' rfl
    have hy : e = y := by simpa using this.2
    subst hy
    exact ⟨h2', rfl, this.1⟩

theorem Always.nil (P : List WEv → WEv → Prop) : Always P [] := by
  intro h1 e h2 h; simp at h

theorem Always.snoc {P : List WEv → WEv → Prop} {h : List WEv} (ha : Always P h) {e : WEv} (he : P h e) :
    Always P (h ++ [e]) := by
  intro h1 x h2 hs
  rcases split_snoc hs with ⟨rfl, rfl, rfl⟩ | ⟨h2', rfl, rfl⟩
  · exact he
  · exact ha _ _ _ rfl

theorem held_snoc {h : List WEv} {e : WEv} {i : Nat} (hq : ∀ t, e ≠ .queued i t) :
    Held (h ++ [e]) i ↔ Held h i ∧ ¬ Leaves i e := by
  unfold Held
  constructor
  · rintro ⟨⟨t, ht⟩, h2⟩
    rcases List.mem_append.1 ht with ht | ht
    · exact ⟨⟨⟨t, ht⟩, fun x hx => h2 x (List.mem_append_left _ hx)⟩, h2 e (by simp)⟩
    · simp at ht; exact absurd ht.symm (hq t)
  · rintro ⟨⟨⟨t, ht⟩, h2⟩, h3⟩
    refine ⟨⟨t, List.mem_append_left _ ht⟩, ?_⟩
    intro x hx
    rcases List.mem_append.1 hx with hx | hx
    · exact h2 x hx
    · simp at hx; subst hx; exact h3

theorem held_prefix {h1 h2 : List WEv} {i : Nat} (h : Held h1 i) (h' : ¬ Held (h1 ++ h2) i) :
    ∃ e ∈ h2, Leaves i e := by
  apply Classical.byContradiction
  intro hn
  apply h'
  obtain ⟨⟨t, ht⟩, h3⟩ := h
  refine ⟨⟨t, List.mem_append_left _ ht⟩, ?_⟩
  intro x hx
  rcases List.mem_append.1 hx with hx | hx
  · exact h3 x hx
  · exact fun hl => hn ⟨x, hx, hl⟩

theorem quiet_not_leaves {e : WEv} (h : Quiet e) (i : Nat) : ¬ Leaves i e := by
  cases e <;> simp [Quiet, Leaves] at h ⊢

/-- The chunks waiting for their turn: all but the one being written. -/
def waiting (q : List RItem) (w : Option Nat) : List RItem := if w.isSome then q.tail else q

/-- The invariant of the retry queue and its history.  `w`: the chunk being written; `ns`: the timer. -/
structure QInv (c : WConf) (h : List WEv) (q : List RItem) (w : Option Nat) (ns : Option Int) (now : Int) : Prop where
  always : Always (RetryRule c) h
  nodup : (q.map (·.id)).Nodup
  held : ∀ i, Held h i ↔ i ∈ q.map (·.id)
  data : ∀ b ∈ q, ∃ r t, .first b.id b.buf r t ∈ h
  ttl : ∀ b ∈ q, ∀ tq, .queued b.id tq ∈ h → b.ttl = tq + c.retryTimeout
  bound : (q.length : Int) ≤ max 0 c.retryBatches
  qtime : ∀ i t, .queued i t ∈ h → t ≤ now
  atime : ∀ i d t, .attempt i d t ∈ h → t ≤ now
  next : ∀ d, ns = some d → ∀ i d' t, .attempt i d' t ∈ h → t + c.retryInterval ≤ d
  writing : ∀ i, w = some i → ∃ b q', q = b :: q' ∧ b.id = i ∧ ∃ h1 d t h2, h = h1 ++ .attempt i d t :: h2 ∧ ∀ e ∈ h2, Quiet e
  order : ∀ i ∈ (waiting q w).map (·.id), ∀ h1 d t h2, h = h1 ++ .attempt i d t :: h2 → (∀ e ∈ h2, ¬ IsAttempt i e) →
    ∀ j, j ≠ i → Held h1 j → [j, i].Sublist ((waiting q w).map (·.id)) ∨ ∃ e ∈ h2, IsAttempt j e ∨ Leaves j e

theorem QInv.heldCount {c : WConf} {h : List WEv} {q : List RItem} {w : Option Nat} {ns : Option Int} {now : Int}
    (I : QInv c h q w ns now) : HeldCount h q.length :=
  ⟨q.map (·.id), I.nodup, by simp, fun i => (I.held i).symm⟩

theorem QInv.start (c : WConf) (now : Int) : QInv c [] [] none none now where
  always := Always.nil _
  nodup := by simp
  held := by simp [Held]
  data := by simp
  ttl := by simp
  bound := by simp; omega
  qtime := by simp
  atime := by simp
  next := by simp
  writing := by simp
  order := by simp [waiting]

theorem QInv.tick {c : WConf} {h : List WEv} {q : List RItem} {w : Option Nat} {ns : Option Int} {now : Int}
    (I : QInv c h q w ns now) (t : Int) (ht : now ≤ t) : QInv c h q w ns t :=
  { I with
    qtime := fun i x hx => by have := I.qtime i x hx; omega
    atime := fun i d x hx => by have := I.atime i d x hx; omega }

/-- The order of the waiting chunks when an event is added that leaves the waiting list as it is. -/
theorem order_snoc {c : WConf} {h : List WEv} {q : List RItem} {w : Option Nat} {ns : Option Int} {now : Int}
    (I : QInv c h q w ns now) (e : WEv) (hna : ∀ i ∈ (waiting q w).map (·.id), ¬ IsAttempt i e) :
    ∀ i ∈ (waiting q w).map (·.id), ∀ h1 d t h2, h ++ [e] = h1 ++ .attempt i d t :: h2 → (∀ e ∈ h2, ¬ IsAttempt i e) →
    ∀ j, j ≠ i → Held h1 j → [j, i].Sublist ((waiting q w).map (·.id)) ∨ ∃ e ∈ h2, IsAttempt j e ∨ Leaves j e := by
  intro i hi h1 d t h2 hs hno j hj hh
  rcases split_snoc hs with ⟨-, -, rfl⟩ | ⟨h2', rfl, rfl⟩
  · exact absurd rfl (hna i hi)
  · rcases I.order i hi h1 d t h2' rfl (fun e he => hno e (by simp [he])) j hj hh with h | ⟨e', he', h⟩
    · exact Or.inl h
    · exact Or.inr ⟨e', by simp [he'], h⟩

theorem QInv.quiet {c : WConf} {h : List WEv} {q : List RItem} {w : Option Nat} {ns : Option Int} {now : Int}
    (I : QInv c h q w ns now) (e : WEv) (hq : Quiet e) (hr : RetryRule c h e) : QInv c (h ++ [e]) q w ns now where
  always := Always.snoc I.always hr
  nodup := I.nodup
  held := fun i => by
    rw [held_snoc (by rintro t rfl; exact hq)]
    rw [I.held i]
    exact ⟨fun x => x.1, fun x => ⟨x, quiet_not_leaves hq i⟩⟩
  data := fun b hb => by
    obtain ⟨r, t, ht⟩ := I.data b hb
    exact ⟨r, t, List.mem_append_left _ ht⟩
  ttl := fun b hb tq ht => by
    rcases List.mem_append.1 ht with ht | ht
    · exact I.ttl b hb tq ht
    · simp at ht; subst ht; exact absurd hq (by simp [Quiet])
  bound := I.bound
  qtime := fun i t ht => by
    rcases List.mem_append.1 ht with ht | ht
    · exact I.qtime i t ht
    · simp at ht; subst ht; exact absurd hq (by simp [Quiet])
  atime := fun i d t ht => by
    rcases List.mem_append.1 ht with ht | ht
    · exact I.atime i d t ht
    · simp at ht; subst ht; exact absurd hq (by simp [Quiet])
  next := fun d hd i d' t ht => by
    rcases List.mem_append.1 ht with ht | ht
    · exact I.next d hd i d' t ht
    · simp at ht; subst ht; exact absurd hq (by simp [Quiet])
  writing := fun i hi => by
    obtain ⟨b, q', h1, h2, h3, d, t, h4, h5, h6⟩ := I.writing i hi
    refine ⟨b, q', h1, h2, h3, d, t, h4 ++ [e], by rw [h5]; simp, ?_⟩
    intro x hx
    rcases List.mem_append.1 hx with hx | hx
    · exact h6 x hx
    · simp at hx; subst hx; exact hq
  order := order_snoc I e (fun i _ ha => by cases e <;> simp [IsAttempt, Quiet] at ha hq)

/-- Removing a chunk from the queue, the event saying that it leaves. -/
theorem QInv.leave {c : WConf} {h : List WEv} {a b : List RItem} {g : RItem} {ns : Option Int} {now : Int}
    (I : QInv c h (a ++ g :: b) none ns now) (e : WEv) (hl : ∀ i, Leaves i e ↔ i = g.id) (hr : RetryRule c h e) :
    QInv c (h ++ [e]) (a ++ b) none ns now := by
  have hnq : ∀ i t, e ≠ .queued i t := by
    rintro i t rfl
    exact absurd ((hl g.id).2 rfl) (by simp [Leaves])
  have hna : ∀ i d t, e ≠ .attempt i d t := by
    rintro i d t rfl
    exact absurd ((hl g.id).2 rfl) (by simp [Leaves])
  have hnd := I.nodup
  rw [List.map_append, List.map_cons] at hnd
  have hg : g.id ∉ (a ++ b).map (·.id) := by
    rw [List.map_append]
    rw [List.nodup_append] at hnd
    simp only [List.nodup_cons] at hnd
    intro hm
    rcases List.mem_append.1 hm with hm | hm
    · exact hnd.2.2 _ hm _ (by simp) rfl
    · exact hnd.2.1.1 hm
  have hsub : (a ++ b).Sublist (a ++ g :: b) := List.Sublist.append_left (List.sublist_cons_self g b) a
  have hmem : ∀ i, i ∈ (a ++ b).map (·.id) ↔ i ∈ (a ++ g :: b).map (·.id) ∧ i ≠ g.id := by
    intro i
    simp only [List.map_append, List.map_cons, List.mem_append, List.mem_cons]
    constructor
    · intro h
      refine ⟨by rcases h with h | h; exact Or.inl h; exact Or.inr (Or.inr h), ?_⟩
      rintro rfl
      exact hg (by simpa [List.map_append] using h)
    · rintro ⟨h | h | h, h2⟩
      · exact Or.inl h
      · exact absurd h h2
      · exact Or.inr h
  refine ⟨Always.snoc I.always hr, (hsub.map _).nodup I.nodup, ?_, ?_, ?_, ?_, ?_, ?_, ?_, by simp, ?_⟩
  · intro i
    rw [held_snoc (hnq i), I.held i, hl i, hmem i]
  · intro x hx
    obtain ⟨r, t, ht⟩ := I.data x (hsub.subset hx)
    exact ⟨r, t, List.mem_append_left _ ht⟩
  · intro x hx tq ht
    rcases List.mem_append.1 ht with ht | ht
    · exact I.ttl x (hsub.subset hx) tq ht
    · simp at ht; exact absurd ht.symm (hnq _ _)
  · have := I.bound
    simp only [List.length_append, List.length_cons] at this ⊢
    omega
  · intro i t ht
    rcases List.mem_append.1 ht with ht | ht
    · exact I.qtime i t ht
    · simp at ht; exact absurd ht.symm (hnq _ _)
  · intro i d t ht
    rcases List.mem_append.1 ht with ht | ht
    · exact I.atime i d t ht
    · simp at ht; exact absurd ht.symm (hna _ _ _)
  · intro d hd i d' t ht
    rcases List.mem_append.1 ht with ht | ht
    · exact I.next d hd i d' t ht
    · simp at ht; exact absurd ht.symm (hna _ _ _)
  · intro i hi h1 d t h2 hs hno j hj hh
    have hi' : i ∈ (a ++ b).map (·.id) := hi
    rcases split_snoc hs with ⟨-, -, hx⟩ | ⟨h2', rfl, rfl⟩
    · exact absurd hx (hna _ _ _)
    · have hin := (hmem i).1 hi'
      rcases I.order i hin.1 h1 d t h2' rfl (fun e he => hno e (by simp [he])) j hj hh with h | ⟨e', he', h⟩
      · by_cases hjg : j = g.id
        · exact Or.inr ⟨e, by simp, Or.inr ((hl j).2 hjg)⟩
        · left
          have h' : [j, i].Sublist ((a ++ g :: b).map (·.id)) := h
          have := h'.filter (fun x => x ≠ g.id)
          have e1 : ([j, i].filter fun x => x ≠ g.id) = [j, i] := by
            rw [List.filter_eq_self]
            intro x hx
            simp only [List.mem_cons, List.not_mem_nil, or_false] at hx
            rcases hx with rfl | rfl
            · simpa using hjg
            · simpa using hin.2
          have e2 : (((a ++ g :: b).map (·.id)).filter fun x => x ≠ g.id) = (a ++ b).map (·.id) := by
            have e3 : (((a ++ b).map (·.id)).filter fun x => x ≠ g.id) = (a ++ b).map (·.id) := by
              rw [List.filter_eq_self]
              intro x hx
              simp
              rintro rfl
              exact hg hx
            rw [← e3]
            simp [List.filter_append, List.filter_cons]
          rw [e1, e2] at this
          exact this
      · exact Or.inr ⟨e', by simp [he'], h⟩

/-- Adding a chunk. -/
theorem QInv.push {c : WConf} {h : List WEv} {q : List RItem} {ns : Option Int} {now : Int}
    (I : QInv c h q none ns now) (i : Nat) (buf : Bytes) (hlen : (q.length : Int) < c.retryBatches)
    (hf : ∃ r t, .first i buf r t ∈ h ∧ ¬ Spec.Resp.Ok r) (hnq : ∀ t, .queued i t ∉ h) (hnl : ∀ e ∈ h, ¬ Leaves i e)
    (hatt : ∀ e ∈ h, ¬ IsAttempt i e) :
    QInv c (h ++ [.queued i now]) (q ++ [⟨i, buf, now + c.retryTimeout⟩]) none ns now := by
  have hni : i ∉ q.map (·.id) := by
    rw [← I.held i]
    rintro ⟨⟨t, ht⟩, -⟩
    exact hnq t ht
  obtain ⟨r0, t0, hf1, hf2⟩ := hf
  refine ⟨Always.snoc I.always ⟨⟨buf, r0, t0, hf1, hf2⟩, hnq, hnl, q.length, I.heldCount, hlen⟩, ?_, ?_, ?_, ?_, ?_, ?_, ?_, ?_, by simp, ?_⟩
  · rw [List.map_append, List.nodup_append]
    refine ⟨I.nodup, by simp, ?_⟩
    intro x hx y hy
    simp at hy
    subst hy
    rintro rfl
    exact hni hx
  · intro k
    by_cases hk : k = i
    · subst hk
      constructor
      · intro _; simp
      · intro _
        refine ⟨⟨now, by simp⟩, ?_⟩
        intro e he
        rcases List.mem_append.1 he with he | he
        · exact hnl e he
        · simp at he; subst he; simp [Leaves]
    · rw [held_snoc (by rintro t h; injection h with h; exact hk h.symm), I.held k]
      simp [Leaves]
      intro h; exact absurd h hk
  · intro b hb
    rcases List.mem_append.1 hb with hb | hb
    · obtain ⟨r, t, ht⟩ := I.data b hb
      exact ⟨r, t, List.mem_append_left _ ht⟩
    · simp at hb; subst hb
      exact ⟨r0, t0, List.mem_append_left _ hf1⟩
  · intro b hb tq ht
    rcases List.mem_append.1 hb with hb | hb
    · rcases List.mem_append.1 ht with ht | ht
      · exact I.ttl b hb tq ht
      · simp at ht
        exact absurd (ht.1 ▸ List.mem_map_of_mem (f := (·.id)) hb) hni
    · simp at hb; subst hb
      rcases List.mem_append.1 ht with ht | ht
      · exact absurd ht (hnq tq)
      · simp at ht; subst ht; rfl
  · simp only [List.length_append, List.length_cons, List.length_nil]; omega
  · intro k t ht
    rcases List.mem_append.1 ht with ht | ht
    · exact I.qtime k t ht
    · simp at ht; omega
  · intro k d t ht
    rcases List.mem_append.1 ht with ht | ht
    · exact I.atime k d t ht
    · simp at ht
  · intro d hd k d' t ht
    rcases List.mem_append.1 ht with ht | ht
    · exact I.next d hd k d' t ht
    · simp at ht
  · intro k hk h1 d t h2 hs hno j hj hh
    rcases split_snoc hs with ⟨-, -, hx⟩ | ⟨h2', rfl, rfl⟩
    · cases hx
    · have hk' : k ∈ (q ++ [(⟨i, buf, now + c.retryTimeout⟩ : RItem)]).map (·.id) := hk
      rw [List.map_append, List.mem_append] at hk'
      rcases hk' with hk' | hk'
      · rcases I.order k hk' h1 d t h2' rfl (fun e he => hno e (by simp [he])) j hj hh with h | ⟨e', he', h⟩
        · left
          show [j, k].Sublist ((q ++ [(⟨i, buf, now + c.retryTimeout⟩ : RItem)]).map (·.id))
          rw [List.map_append]
          exact List.Sublist.trans h (List.sublist_append_left _ _)
        · exact Or.inr ⟨e', by simp [he'], h⟩
      · simp at hk'
        subst hk'
        exact absurd rfl (hatt (.attempt k d t) (by simp))

/-- An attempt to write the front chunk begins. -/
theorem QInv.attempt {c : WConf} {h : List WEv} {b : RItem} {q : List RItem} {d : Int} {now : Int}
    (I : QInv c h (b :: q) none (some d) now) (hd : d ≤ now) (ht : now ≤ b.ttl) :
    QInv c (h ++ [.attempt b.id b.buf now]) (b :: q) (some b.id) none now := by
  have hheld : Held h b.id := (I.held b.id).2 (by simp)
  have hnd := I.nodup
  rw [List.map_cons, List.nodup_cons] at hnd
  refine ⟨Always.snoc I.always ⟨hheld, I.data b (by simp), ?_, ?_, ?_⟩, I.nodup, ?_, ?_, ?_, I.bound, ?_, ?_, by simp, ?_, ?_⟩
  · intro tq htq
    have := I.ttl b (by simp) tq htq
    omega
  · intro j d' t' hj
    have := I.next d rfl j d' t' hj
    omega
  · intro h1 d' t' h2 hs hno j hj hh
    rcases I.order b.id (by simp [waiting]) h1 d' t' h2 hs hno j hj hh with hsub | h
    · exfalso
      have hsub' : [j, b.id].Sublist (b.id :: q.map (·.id)) := hsub
      rcases hsub' with _ | hsub2 | hsub2
      · rename_i hsub2
        exact hnd.1 (hsub2.subset (by simp))
      · exact hj rfl
    · exact h
  · intro i
    rw [held_snoc (by intro t h; cases h), I.held i]
    simp [Leaves]
  · intro x hx
    obtain ⟨r, t, ht⟩ := I.data x hx
    exact ⟨r, t, List.mem_append_left _ ht⟩
  · intro x hx tq ht
    rcases List.mem_append.1 ht with ht | ht
    · exact I.ttl x hx tq ht
    · simp at ht
  · intro i t ht
    rcases List.mem_append.1 ht with ht | ht
    · exact I.qtime i t ht
    · simp at ht
  · intro i d' t ht
    rcases List.mem_append.1 ht with ht | ht
    · exact I.atime i d' t ht
    · simp at ht; omega
  · intro i hi
    injection hi with hi
    exact ⟨b, q, rfl, hi, h, b.buf, now, [], by rw [hi], by simp⟩
  · intro i hi h1 d' t h2 hs hno j hj hh
    have hi' : i ∈ q.map (·.id) := hi
    have hib : i ≠ b.id := by rintro rfl; exact hnd.1 hi'
    rcases split_snoc hs with ⟨-, -, hx⟩ | ⟨h2', rfl, rfl⟩
    · injection hx with hx; exact absurd hx.symm hib
    · rcases I.order i (by simp only [waiting]; simpa using Or.inr hi') h1 d' t h2' rfl
        (fun e he => hno e (by simp [he])) j hj hh with h | ⟨e', he', h⟩
      · by_cases hjb : j = b.id
        · exact Or.inr ⟨.attempt b.id b.buf now, by simp, Or.inl (by simp [IsAttempt, hjb])⟩
        · left
          have h' : [j, i].Sublist (b.id :: q.map (·.id)) := h
          show [j, i].Sublist (q.map (·.id))
          rcases h' with _ | h' | h'
          · rename_i h'; exact h'
          · exact absurd rfl hjb
      · exact Or.inr ⟨e', by simp [he'], h⟩

/-- The attempt ends: the chunk leaves. -/
theorem QInv.finishDrop {c : WConf} {h : List WEv} {b : RItem} {q : List RItem} {ns : Option Int} {now : Int}
    (I : QInv c h (b :: q) (some b.id) ns now) (r : Resp) (hr : Spec.Resp.Ok r ∨ Spec.Resp.Permanent r) :
    QInv c (h ++ [.result b.id r now]) q none ns now := by
  have hheld : Held h b.id := (I.held b.id).2 (by simp)
  have hnd := I.nodup
  rw [List.map_cons, List.nodup_cons] at hnd
  obtain ⟨b', q', hq, hb', h1, d, t, h2, hh, hquiet⟩ := I.writing b.id rfl
  refine ⟨Always.snoc I.always ⟨hheld, h1, d, t, h2, hh, hquiet⟩, hnd.2, ?_, ?_, ?_, ?_, ?_, ?_, ?_, by simp, ?_⟩
  · intro i
    rw [held_snoc (by intro t h; cases h), I.held i]
    simp only [Leaves, hr, and_true, List.map_cons, List.mem_cons]
    constructor
    · rintro ⟨h | h, h2⟩
      · exact absurd h.symm h2
      · exact h
    · intro h
      exact ⟨Or.inr h, by rintro rfl; exact hnd.1 h⟩
  · intro x hx
    obtain ⟨r, t, ht⟩ := I.data x (by simp [hx])
    exact ⟨r, t, List.mem_append_left _ ht⟩
  · intro x hx tq ht
    rcases List.mem_append.1 ht with ht | ht
    · exact I.ttl x (by simp [hx]) tq ht
    · simp at ht
  · have := I.bound; simp only [List.length_cons] at this; omega
  · intro i t ht
    rcases List.mem_append.1 ht with ht | ht
    · exact I.qtime i t ht
    · simp at ht
  · intro i d' t ht
    rcases List.mem_append.1 ht with ht | ht
    · exact I.atime i d' t ht
    · simp at ht
  · intro d hd i d' t ht
    rcases List.mem_append.1 ht with ht | ht
    · exact I.next d hd i d' t ht
    · simp at ht
  · exact order_snoc I (.result b.id r now) (fun i _ => by simp [IsAttempt])

/-- The attempt fails: the chunk goes to the back. -/
theorem QInv.finishCycle {c : WConf} {h : List WEv} {b : RItem} {q : List RItem} {ns : Option Int} {now : Int}
    (I : QInv c h (b :: q) (some b.id) ns now) (r : Resp) (hr : ¬ Spec.Resp.Ok r ∧ ¬ Spec.Resp.Permanent r) :
    QInv c (h ++ [.result b.id r now]) (q ++ [b]) none ns now := by
  have hheld : Held h b.id := (I.held b.id).2 (by simp)
  have hnd := I.nodup
  rw [List.map_cons, List.nodup_cons] at hnd
  obtain ⟨b', q', hq, hb', h1, d, t, h2, hh, hquiet⟩ := I.writing b.id rfl
  have hheld' : ∀ i, Held (h ++ [.result b.id r now]) i ↔ i ∈ (q ++ [b]).map (·.id) := by
    intro i
    rw [held_snoc (by intro t h; cases h), I.held i]
    simp only [Leaves, List.map_append, List.map_cons, List.map_nil, List.mem_append, List.mem_cons,
      List.not_mem_nil, or_false]
    constructor
    · rintro ⟨h | h, -⟩
      · exact Or.inr h
      · exact Or.inl h
    · intro h
      refine ⟨by rcases h with h | h; exact Or.inr h; exact Or.inl h, ?_⟩
      rintro ⟨-, hx | hx⟩
      · exact hr.1 hx
      · exact hr.2 hx
  refine ⟨Always.snoc I.always ⟨hheld, h1, d, t, h2, hh, hquiet⟩, ?_, hheld', ?_, ?_, ?_, ?_, ?_, ?_, by simp, ?_⟩
  · rw [List.map_append, List.nodup_append]
    refine ⟨hnd.2, by simp, ?_⟩
    intro x hx y hy
    simp at hy
    subst hy
    rintro rfl
    exact hnd.1 hx
  · intro x hx
    obtain ⟨r, t, ht⟩ := I.data x (by simp at hx ⊢; rcases hx with h | h; exact Or.inr h; exact Or.inl h)
    exact ⟨r, t, List.mem_append_left _ ht⟩
  · intro x hx tq ht
    rcases List.mem_append.1 ht with ht | ht
    · exact I.ttl x (by simp at hx ⊢; rcases hx with h | h; exact Or.inr h; exact Or.inl h) tq ht
    · simp at ht
  · have := I.bound; simp only [List.length_cons, List.length_append, List.length_nil] at this ⊢; omega
  · intro i t ht
    rcases List.mem_append.1 ht with ht | ht
    · exact I.qtime i t ht
    · simp at ht
  · intro i d' t ht
    rcases List.mem_append.1 ht with ht | ht
    · exact I.atime i d' t ht
    · simp at ht
  · intro d hd i d' t ht
    rcases List.mem_append.1 ht with ht | ht
    · exact I.next d hd i d' t ht
    · simp at ht
  · intro i hi h1 d t h2 hs hno j hj hh
    have hi' : i ∈ (q ++ [b]).map (·.id) := hi
    show [j, i].Sublist ((q ++ [b]).map (·.id)) ∨ _
    by_cases hib : i = b.id
    · by_cases hjh : Held (h ++ [.result b.id r now]) j
      · left
        have hjq := (hheld' j).1 hjh
        rw [List.map_append, List.mem_append] at hjq
        rcases hjq with hjq | hjq
        · rw [List.map_append, hib]
          have : ([j] ++ [b.id]).Sublist (q.map (·.id) ++ [b].map (·.id)) :=
            List.Sublist.append (List.singleton_sublist.2 hjq) (List.Sublist.refl _)
          exact this
        · simp at hjq; exact absurd (hjq.trans hib.symm) hj
      · right
        rw [hs] at hjh
        obtain ⟨e, he, hl⟩ := held_prefix hh hjh
        rcases List.mem_cons.1 he with rfl | he
        · exact absurd hl (by simp [Leaves])
        · exact ⟨e, he, Or.inr hl⟩
    · have hiq : i ∈ q.map (·.id) := by
        rw [List.map_append, List.mem_append] at hi'
        rcases hi' with h | h
        · exact h
        · simp at h; exact absurd h hib
      rcases order_snoc I (.result b.id r now) (fun i _ => by simp [IsAttempt]) i hiq h1 d t h2 hs hno j hj hh with h | h
      · left
        rw [List.map_append]
        exact List.Sublist.trans h (List.sublist_append_left _ _)
      · exact Or.inr h

end Spout
