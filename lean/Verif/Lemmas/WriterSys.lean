import Verif.Lemmas.Writer

set_option linter.unusedSimpArgs false

/-! # The invariant of a writer worker and its retry worker -/

namespace Spout
open Spec

/-- The event concerns the retrying of chunk `i`. -/
def Concerns (i : Nat) (e : WEv) : Prop := (∃ t, e = .queued i t) ∨ Leaves i e ∨ IsAttempt i e

theorem mem_split {h : List WEv} {e : WEv} (he : e ∈ h) : ∃ h1 h2, h = h1 ++ e :: h2 := List.append_of_mem he

/-- In a legal history only chunks whose first write failed are retried. -/
theorem concerns_first {c : WConf} {h : List WEv} (ha : Always (RetryRule c) h) {i : Nat} {e : WEv} (he : e ∈ h)
    (hc : Concerns i e) : ∃ d r t, .first i d r t ∈ h ∧ ¬ Spec.Resp.Ok r := by
  have hq : ∀ t, .queued i t ∈ h → ∃ d r t, .first i d r t ∈ h ∧ ¬ Spec.Resp.Ok r := by
    intro t ht
    obtain ⟨h1, h2, hs⟩ := mem_split ht
    obtain ⟨⟨d, r, t, h3, h4⟩, -⟩ := ha h1 _ h2 hs
    exact ⟨d, r, t, by rw [hs]; simp [h3], h4⟩
  have hheld : ∀ h1 x h2, h = h1 ++ x :: h2 → Held h1 i → ∃ d r t, .first i d r t ∈ h ∧ ¬ Spec.Resp.Ok r := by
    rintro h1 x h2 hs ⟨⟨t, ht⟩, -⟩
    exact hq t (by rw [hs]; simp [ht])
  rcases hc with ⟨t, rfl⟩ | hc | hc
  · exact hq t he
  · obtain ⟨h1, h2, hs⟩ := mem_split he
    have hr := ha h1 _ h2 hs
    cases e with
    | evicted j t =>
      have hji : j = i := hc
      subst hji
      exact hheld _ _ _ hs hr.1
    | expired j t =>
      have hji : j = i := hc
      subst hji
      exact hheld _ _ _ hs hr.1
    | result j r t =>
      have hji : j = i := hc.1
      subst hji
      exact hheld _ _ _ hs hr.1
    | recv _ _ => exact hc.elim
    | flush _ _ => exact hc.elim
    | first _ _ _ _ => exact hc.elim
    | queued _ _ => exact hc.elim
    | attempt _ _ _ => exact hc.elim
  · obtain ⟨h1, h2, hs⟩ := mem_split he
    have hr := ha h1 _ h2 hs
    cases e with
    | attempt j d t =>
      have hji : j = i := hc
      subst hji
      exact hheld _ _ _ hs hr.1
    | evicted _ _ => exact hc.elim
    | expired _ _ => exact hc.elim
    | result _ _ _ => exact hc.elim
    | recv _ _ => exact hc.elim
    | flush _ _ => exact hc.elim
    | first _ _ _ _ => exact hc.elim
    | queued _ _ => exact hc.elim

/-- The chunks on their way to the retry queue. -/
def transit (phase : WPhase) (ch : Option (Nat × Bytes)) : List (Nat × Bytes) :=
  ch.toList ++ match phase with | .handoff i d _ => [(i, d)] | _ => []

/-- The chunk being written by the retry worker. -/
def RPhase.busy : RPhase → Option Nat
  | .writing i => some i
  | _ => none

/-- The part of the invariant that is about the chunks on their way to the queue. -/
structure TransitInv (c : WConf) (h : List WEv) (tr : List (Nat × Bytes)) (n : Nat) : Prop where
  ids : n = h.countP isFirst
  firstLt : ∀ i d r t, .first i d r t ∈ h → i < n
  nodup : (tr.map (·.1)).Nodup
  failed : ∀ x ∈ tr, ∃ r t, .first x.1 x.2 r t ∈ h ∧ ¬ Spec.Resp.Ok r
  fresh : ∀ x ∈ tr, ∀ e ∈ h, ¬ Concerns x.1 e
  accounted : 0 < c.retryBatches → ∀ i d r t, .first i d r t ∈ h → ¬ Spec.Resp.Ok r → (∃ t, .queued i t ∈ h) ∨ i ∈ tr.map (·.1)

/-- Without retries nothing is ever queued. -/
def OffInv (c : WConf) (s : WSys) : Prop :=
  ¬ 0 < c.retryBatches → s.rphase = .stopped ∧ s.queue = [] ∧ transit s.phase s.ch = []

structure SysInv (c : WConf) (s : WSys) : Prop where
  q : QInv c s.hist s.queue s.rphase.busy s.nextSend s.now
  t : TransitInv c s.hist (transit s.phase s.ch) s.nextId
  off : OffInv c s

theorem TransitInv.snoc {c : WConf} {h : List WEv} {tr : List (Nat × Bytes)} {n : Nat} (I : TransitInv c h tr n) (e : WEv)
    (hf : isFirst e = false) (hn : ∀ x ∈ tr, ¬ Concerns x.1 e) : TransitInv c (h ++ [e]) tr n where
  ids := by rw [List.countP_append, ← I.ids]; simp [List.countP_cons, hf]
  firstLt := fun i d r t ht => by
    rcases List.mem_append.1 ht with ht | ht
    · exact I.firstLt i d r t ht
    · simp at ht; subst ht; cases hf
  nodup := I.nodup
  failed := fun x hx => by
    obtain ⟨r, t, h1, h2⟩ := I.failed x hx
    exact ⟨r, t, List.mem_append_left _ h1, h2⟩
  fresh := fun x hx y hy => by
    rcases List.mem_append.1 hy with hy | hy
    · exact I.fresh x hx y hy
    · simp at hy; subst hy; exact hn x hx
  accounted := fun hc i d r t ht hr => by
    rcases List.mem_append.1 ht with ht | ht
    · rcases I.accounted hc i d r t ht hr with ⟨t', h⟩ | h
      · exact Or.inl ⟨t', List.mem_append_left _ h⟩
      · exact Or.inr h
    · simp at ht; subst ht; cases hf

/-- A first attempt; `tr'` adds the chunk when it is to be retried. -/
theorem TransitInv.first {c : WConf} {h : List WEv} {tr : List (Nat × Bytes)} {n : Nat} (I : TransitInv c h tr n)
    (ha : Always (RetryRule c) h) (d : Bytes) (r : Resp) (now : Int) (tr' : List (Nat × Bytes))
    (hc : (tr' = tr ∧ (Spec.Resp.Ok r ∨ ¬ 0 < c.retryBatches)) ∨ (tr' = tr ++ [(n, d)] ∧ ¬ Spec.Resp.Ok r)) :
    TransitInv c (h ++ [.first n d r now]) tr' (n + 1) := by
  have hcon : ∀ e ∈ h, ¬ Concerns n e := by
    intro e he hce
    obtain ⟨d', r', t', h1, -⟩ := concerns_first ha he hce
    have := I.firstLt _ _ _ _ h1
    omega
  have hlt : ∀ x ∈ tr, x.1 < n := by
    intro x hx
    obtain ⟨r, t, h1, -⟩ := I.failed x hx
    exact I.firstLt _ _ _ _ h1
  have hsub : ∀ x ∈ tr, x ∈ tr' := by
    intro x hx
    rcases hc with ⟨rfl, -⟩ | ⟨rfl, -⟩
    · exact hx
    · simp [hx]
  have hnew : ∀ x ∈ tr', x ∈ tr ∨ (x = (n, d) ∧ ¬ Spec.Resp.Ok r) := by
    intro x hx
    rcases hc with ⟨rfl, -⟩ | ⟨rfl, h2⟩
    · exact Or.inl hx
    · rcases List.mem_append.1 hx with hx | hx
      · exact Or.inl hx
      · simp at hx; exact Or.inr ⟨hx, h2⟩
  have hnc : ∀ i, ¬ Concerns i (.first n d r now) := by
    rintro i (⟨t, h⟩ | h | h)
    · cases h
    · exact h
    · exact h
  refine ⟨?_, ?_, ?_, ?_, ?_, ?_⟩
  · rw [List.countP_append, ← I.ids]; simp [List.countP_cons, isFirst]
  · intro i d' r' t ht
    rcases List.mem_append.1 ht with ht | ht
    · have := I.firstLt i d' r' t ht; omega
    · simp at ht; omega
  · rcases hc with ⟨rfl, -⟩ | ⟨rfl, h2⟩
    · exact I.nodup
    · rw [List.map_append, List.nodup_append]
      refine ⟨I.nodup, by simp, ?_⟩
      intro a ha b hb
      simp at hb
      subst hb
      rintro rfl
      obtain ⟨x, hx, hxe⟩ := List.mem_map.1 ha
      have := hlt x hx
      omega
  · intro x hx
    rcases hnew x hx with hx | ⟨rfl, h2⟩
    · obtain ⟨r, t, h1, h2⟩ := I.failed x hx
      exact ⟨r, t, List.mem_append_left _ h1, h2⟩
    · exact ⟨r, now, by simp, h2⟩
  · intro x hx e he
    rcases List.mem_append.1 he with he | he
    · rcases hnew x hx with hx | ⟨rfl, h2⟩
      · exact I.fresh x hx e he
      · exact hcon e he
    · simp at he; subst he; exact hnc _
  · intro hp i d' r' t ht hr
    rcases List.mem_append.1 ht with ht | ht
    · rcases I.accounted hp i d' r' t ht hr with ⟨t', h⟩ | h
      · exact Or.inl ⟨t', List.mem_append_left _ h⟩
      · obtain ⟨x, hx, hxe⟩ := List.mem_map.1 h
        exact Or.inr (List.mem_map.2 ⟨x, hsub x hx, hxe⟩)
    · simp at ht
      obtain ⟨rfl, rfl, rfl, rfl⟩ := ht
      rcases hc with ⟨rfl, h2 | h2⟩ | ⟨rfl, h2⟩
      · exact absurd h2 hr
      · exact absurd hp h2
      · exact Or.inr (by simp)

/-- Expired chunks leave one after the other. -/
theorem expire_all {c : WConf} {ns : Option Int} {now : Int} {tr : List (Nat × Bytes)} {n : Nat} {rest : List RItem} :
    ∀ (gone : List RItem) (h : List WEv), QInv c h (gone ++ rest) none ns now → TransitInv c h tr n →
      (∀ g ∈ gone, g.ttl < now) →
      QInv c (h ++ gone.map fun g => .expired g.id now) rest none ns now ∧
      TransitInv c (h ++ gone.map fun g => .expired g.id now) tr n := by
  intro gone
  induction gone with
  | nil => intro h I T _; simpa using ⟨I, T⟩
  | cons g gone ih =>
    intro h I T hg
    have hh : Held h g.id := (I.held g.id).2 (by simp)
    have I' := QInv.leave (a := []) (b := gone ++ rest) (g := g) I (.expired g.id now)
      (fun i => by simp only [Leaves]; exact eq_comm)
      ⟨hh, fun tq htq => by
        have h1 := I.ttl g (by simp) tq htq
        have h2 := hg g (by simp)
        omega⟩
    have T' := T.snoc (.expired g.id now) rfl (by
      rintro x hx (⟨t, h⟩ | h | h)
      · cases h
      · have hgx : g.id = x.1 := h
        obtain ⟨⟨t, ht⟩, -⟩ := hh
        exact T.fresh x hx _ ht (Or.inl ⟨t, by rw [hgx]⟩)
      · exact h)
    have := ih (h ++ [.expired g.id now]) I' T' (fun x hx => hg x (by simp [hx]))
    simpa using this

theorem sysInv_start (c : WConf) (pages : Nat) (now : Int) : SysInv c (WSys.start c pages now) := by
  refine ⟨?_, ?_, ?_⟩
  · have : (WSys.start c pages now).rphase.busy = none := by
      unfold WSys.start
      dsimp only
      split <;> rfl
    rw [this]
    exact QInv.start c now
  · exact ⟨rfl, by simp [WSys.start], by simp [WSys.start, transit], by simp [WSys.start, transit],
      by simp [WSys.start, transit], by simp [WSys.start]⟩
  · intro h
    refine ⟨?_, rfl, rfl⟩
    unfold WSys.start
    dsimp only
    rw [if_neg h]

theorem QInv.timer {c : WConf} {h : List WEv} {q : List RItem} {w : Option Nat} {ns : Option Int} {now : Int}
    (I : QInv c h q w ns now) (ns' : Option Int)
    (hn : ∀ d, ns' = some d → ∀ i d' t, .attempt i d' t ∈ h → t + c.retryInterval ≤ d) : QInv c h q w ns' now :=
  { I with next := hn }

theorem sysInv_step {c : WConf} {s s' : WSys} (I : SysInv c s) (hst : WStep c s s') : SysInv c s' := by
  obtain ⟨Q, T, O⟩ := I
  cases hst with
  | tick t ht => exact ⟨Q.tick t ht, T, O⟩
  | stop => exact ⟨Q, T, O⟩
  | recv w data b hp hb =>
    rw [hp] at T
    refine ⟨Q.quiet _ trivial trivial, T.snoc _ rfl ?_, ?_⟩
    · rintro x hx (⟨t, h⟩ | h | h)
      · cases h
      · exact h
      · exact h
    · intro hc; have := O hc; rw [hp] at this; exact this
  | gotWrite w n hp hn =>
    rw [hp] at T
    exact ⟨Q, T, fun hc => by have := O hc; rw [hp] at this; exact this⟩
  | gotError w n hp hn =>
    rw [hp] at T
    exact ⟨Q, T, fun hc => by have := O hc; rw [hp] at this; exact this⟩
  | wake w hp hw =>
    rw [hp] at T
    exact ⟨Q, T, fun hc => by have := O hc; rw [hp] at this; exact this⟩
  | quit w hp hs =>
    rw [hp] at T
    exact ⟨Q, T, fun hc => by have := O hc; rw [hp] at this; exact this⟩
  | keep hp h =>
    rw [hp] at T
    exact ⟨Q, T, fun hc => by have := O hc; rw [hp] at this; exact this⟩
  | flush chunks hp h hc =>
    rw [hp] at T
    refine ⟨Q.quiet _ trivial trivial, T.snoc _ rfl ?_, ?_⟩
    · rintro x hx (⟨t, h⟩ | h | h)
      · cases h
      · exact h
      · exact h
    · intro hc; have := O hc; rw [hp] at this; exact this
  | firstOk chunk rest r hp hr =>
    rw [hp] at T
    refine ⟨Q.quiet _ trivial T.ids, ?_, ?_⟩
    · exact T.first Q.always chunk r s.now _ (Or.inl ⟨rfl, Or.inl ((writeError_none r).1 hr)⟩)
    · intro hc; have := O hc; rw [hp] at this; exact this
  | firstFail chunk rest r e hp hr =>
    rw [hp] at T
    have hno : ¬ Spec.Resp.Ok r := by
      intro hok
      rw [(writeError_none r).2 hok] at hr
      cases hr
    refine ⟨Q.quiet _ trivial T.ids, ?_, ?_⟩
    · by_cases hc : c.retryBatches > 0
      · refine T.first Q.always chunk r s.now _ (Or.inr ⟨?_, hno⟩)
        rw [if_pos hc]
        simp [transit]
      · refine T.first Q.always chunk r s.now _ (Or.inl ⟨?_, Or.inr hc⟩)
        rw [if_neg hc]
        simp [transit]
    · intro hc
      have := O hc
      rw [hp] at this
      refine ⟨this.1, this.2.1, ?_⟩
      dsimp only
      rw [if_neg hc]
      exact this.2.2
  | handoff i chunk rest hp hc =>
    rw [hp, hc] at T
    refine ⟨Q, ?_, ?_⟩
    · exact T
    · intro h0
      have := O h0
      rw [hp, hc] at this
      exact ⟨this.1, this.2.1, this.2.2⟩
  | sent hp =>
    rw [hp] at T
    exact ⟨Q, T, fun hc => by have := O hc; rw [hp] at this; exact this⟩
  | arm hp =>
    refine ⟨?_, T, ?_⟩
    · rw [hp] at Q
      refine QInv.timer Q _ ?_
      intro d hd i d' t ht
      dsimp only at hd
      split at hd
      · injection hd with hd
        have := Q.atime i d' t ht
        omega
      · exact Q.next d hd i d' t ht
    · intro hc
      have := O hc
      rw [hp] at this
      exact absurd this.1 (by simp)
  | input i buf q gone hp hc hq =>
    rw [hp] at Q
    rw [hc] at T
    have hpos : 0 < c.retryBatches := by
      apply Classical.byContradiction
      intro hn
      have := (O hn).1
      rw [hp] at this
      cases this
    have hmem : (i, buf) ∈ transit s.phase (some (i, buf)) := by simp [transit]
    obtain ⟨rf, tf, hf1, hf2⟩ := T.failed _ hmem
    have hfresh := T.fresh _ hmem
    -- the eviction
    have key : ∃ q1 : List RItem, q = q1 ++ [⟨i, buf, s.now + c.retryTimeout⟩] ∧ (q1.length : Int) < c.retryBatches ∧
        QInv c (s.hist ++ gone.toList.map fun g => .evicted g.id s.now) q1 none s.nextSend s.now ∧
        TransitInv c (s.hist ++ gone.toList.map fun g => .evicted g.id s.now) (transit s.phase (some (i, buf))) s.nextId := by
      unfold queueAdd at hq
      by_cases hfull : (s.queue.length : Int) ≥ c.retryBatches
      · rw [if_pos hfull] at hq
        have hne : s.queue ≠ [] := by
          intro h0; rw [h0] at hfull; simp at hfull; omega
        obtain ⟨a, g, b, h1, h2, h3⟩ := removeOldest_spec s.queue hne
        rw [h2] at hq
        simp only [Prod.mk.injEq] at hq
        obtain ⟨rfl, rfl⟩ := hq
        have hbound := Q.bound
        have hlen : s.queue.length = a.length + b.length + 1 := by rw [h1]; simp; omega
        have Q' := Q
        rw [h1] at Q'
        have hh : Held s.hist g.id := (Q'.held g.id).2 (by simp)
        refine ⟨a ++ b, rfl, by simp only [List.length_append]; omega, ?_, ?_⟩
        · refine QInv.leave Q' (.evicted g.id s.now) (fun k => by simp only [Leaves]; exact eq_comm)
            ⟨hh, ⟨_, Q.heldCount, by omega⟩, ?_⟩
          intro j ti tj hj hti htj
          obtain ⟨x, hx, hxe⟩ := List.mem_map.1 ((Q.held j).1 hj)
          have e1 := Q.ttl g (by rw [h1]; simp) ti hti
          have e2 := Q.ttl x hx tj (by rw [hxe]; exact htj)
          have e3 := h3 x hx
          omega
        · refine T.snoc (.evicted g.id s.now) rfl ?_
          rintro x hx (⟨t, h⟩ | h | h)
          · cases h
          · have hgx : g.id = x.1 := h
            obtain ⟨⟨t, ht⟩, -⟩ := hh
            exact T.fresh x hx _ ht (Or.inl ⟨t, by rw [hgx]⟩)
          · exact h
      · rw [if_neg hfull] at hq
        simp only [Prod.mk.injEq] at hq
        obtain ⟨rfl, rfl⟩ := hq
        exact ⟨s.queue, rfl, by omega, by simpa [RPhase.busy] using Q, by simpa using T⟩
    obtain ⟨q1, rfl, hlen, Q1, T1⟩ := key
    have hfresh1 := T1.fresh _ hmem
    obtain ⟨rf1, tf1, hf11, hf21⟩ := T1.failed _ hmem
    refine ⟨?_, ?_, ?_⟩
    · exact Q1.push i buf hlen ⟨rf1, tf1, hf11, hf21⟩ (fun t ht => hfresh1 _ ht (Or.inl ⟨t, rfl⟩))
        (fun e he hl => hfresh1 _ he (Or.inr (Or.inl hl))) (fun e he hl => hfresh1 _ he (Or.inr (Or.inr hl)))
    · -- the chunk is no longer on its way
      have hnd := T1.nodup
      have htr : transit s.phase (some (i, buf)) = (i, buf) :: transit s.phase none := rfl
      rw [htr] at T1 hnd
      rw [List.map_cons, List.nodup_cons] at hnd
      refine ⟨?_, ?_, hnd.2, ?_, ?_, ?_⟩
      · dsimp only
        rw [List.countP_append, ← T1.ids]; simp [List.countP_cons, isFirst]
      · intro k d r t ht
        rcases List.mem_append.1 ht with ht | ht
        · exact T1.firstLt k d r t ht
        · simp at ht
      · intro x hx
        obtain ⟨r, t, h1, h2⟩ := T1.failed x (List.mem_cons_of_mem _ hx)
        exact ⟨r, t, List.mem_append_left _ h1, h2⟩
      · intro x hx e he
        rcases List.mem_append.1 he with he | he
        · exact T1.fresh x (List.mem_cons_of_mem _ hx) e he
        · simp at he
          subst he
          rintro (⟨t, h⟩ | h | h)
          · injection h with h
            exact hnd.1 (List.mem_map.2 ⟨x, hx, h.symm⟩)
          · exact h
          · exact h
      · intro _ k d r t ht hr
        rcases List.mem_append.1 ht with ht | ht
        · rcases T1.accounted hpos k d r t ht hr with ⟨t', h⟩ | h
          · exact Or.inl ⟨t', List.mem_append_left _ h⟩
          · rw [List.map_cons, List.mem_cons] at h
            rcases h with h | h
            · have hki : k = i := h
              subst hki
              exact Or.inl ⟨s.now, by simp⟩
            · exact Or.inr h
        · simp at ht
    · intro hn; exact absurd hpos hn
  | fireEmpty d gone hp hd ht hf =>
    rw [hp] at Q
    obtain ⟨h1, h2, -⟩ := queueFront_spec s.now s.queue _ _ hf
    rw [h1] at Q
    obtain ⟨Q', T'⟩ := expire_all gone s.hist Q T h2
    refine ⟨QInv.timer Q' none (by simp), T', ?_⟩
    intro hn
    have := (O hn).1
    rw [hp] at this
    cases this
  | fire d gone b q hp hd ht hf =>
    rw [hp] at Q
    obtain ⟨h1, h2, h3⟩ := queueFront_spec s.now s.queue _ _ hf
    rw [h1] at Q
    obtain ⟨Q', T'⟩ := expire_all gone s.hist Q T h2
    rw [hd] at Q'
    have Q2 := Q'.attempt ht (h3 b q rfl)
    have hheld : Held (s.hist ++ gone.map fun g => .expired g.id s.now) b.id := (Q'.held b.id).2 (by simp)
    have T2 := T'.snoc (.attempt b.id b.buf s.now) rfl (by
      rintro x hx (⟨t, h⟩ | h | h)
      · cases h
      · exact h
      · have hgx : b.id = x.1 := h
        obtain ⟨⟨t, ht⟩, -⟩ := hheld
        exact T'.fresh x hx _ ht (Or.inl ⟨t, by rw [hgx]⟩))
    unfold WSys.reportWrite
    split
    · exact ⟨Q2, T2, fun hn => by have := (O hn).1; rw [hp] at this; cases this⟩
    · exact ⟨Q2, T2, fun hn => by have := (O hn).1; rw [hp] at this; cases this⟩
  | finish i r hp =>
    rw [hp] at Q
    obtain ⟨b, q', hq, hb, -⟩ := Q.writing i rfl
    have hheld : Held s.hist b.id := (Q.held b.id).2 (by rw [hq]; simp)
    subst hb
    have T2 := T.snoc (.result b.id r s.now) rfl (by
      rintro x hx (⟨t, h⟩ | h | h)
      · cases h
      · have hgx : b.id = x.1 := h.1
        obtain ⟨⟨t, ht⟩, -⟩ := hheld
        exact T.fresh x hx _ ht (Or.inl ⟨t, by rw [hgx]⟩)
      · exact h)
    have hoff : ∀ s1 : WSys, s1.phase = s.phase → ¬ 0 < c.retryBatches → False := by
      intro s1 _ hn
      have := (O hn).1
      rw [hp] at this
      cases this
    rw [hq] at Q
    unfold WSys.finishRetry
    cases he : writeError r with
    | none =>
      have hok := (writeError_none r).1 he
      have Q2 := Q.finishDrop r (Or.inl hok)
      refine ⟨?_, T2, fun hn => (hoff s rfl hn).elim⟩
      simpa [hq, dropFront, RPhase.busy] using Q2
    | some e =>
      have hno : ¬ Spec.Resp.Ok r := by
        intro hok
        rw [(writeError_none r).2 hok] at he
        cases he
      dsimp only
      by_cases hperm : isPermanentError (some e) = true
      · have hpr : Spec.Resp.Permanent r := (isPermanentError_iff r).1 (by rw [he]; exact hperm)
        have Q2 := Q.finishDrop r (Or.inr hpr)
        rw [if_pos hperm]
        unfold WSys.reportError
        split
        · refine ⟨?_, T2, fun hn => (hoff s rfl hn).elim⟩
          simpa [hq, dropFront, RPhase.busy] using Q2
        · refine ⟨?_, T2, fun hn => (hoff s rfl hn).elim⟩
          simpa [hq, dropFront, RPhase.busy] using Q2
      · have hpr : ¬ Spec.Resp.Permanent r := by
          intro h
          exact hperm (by rw [← he]; exact (isPermanentError_iff r).2 h)
        have Q2 := Q.finishCycle r ⟨hno, hpr⟩
        rw [if_neg hperm]
        unfold WSys.reportError
        split
        · refine ⟨?_, T2, fun hn => (hoff s rfl hn).elim⟩
          simpa [hq, cycleFront, RPhase.busy] using Q2
        · refine ⟨?_, T2, fun hn => (hoff s rfl hn).elim⟩
          simpa [hq, cycleFront, RPhase.busy] using Q2
  | retryQuit hp hw =>
    rw [hp] at Q
    refine ⟨Q, T, ?_⟩
    intro hn
    have := O hn
    exact ⟨rfl, this.2⟩

theorem sysInv {c : WConf} {s s' : WSys} (I : SysInv c s) (h : WReach c s s') : SysInv c s' := by
  induction h with
  | refl => exact I
  | step _ hst ih => exact sysInv_step ih hst

end Spout
