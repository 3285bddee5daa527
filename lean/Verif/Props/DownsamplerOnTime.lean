import Verif.Props.DownsamplerWorker
import Verif.Spec.OnTime

/-! # What arrives on time is never refused (C118) -/

namespace Spout
open Spec

theorem stamped_unique {c : Int} {l : Bytes} {t1 t2 : Int} {b1 b2 : Bytes} (h1 : Stamped c l t1 b1) (h2 : Stamped c l t2 b2) :
    t1 = t2 := by
  cases h1 with
  | own _ off h =>
    cases h2 with
    | own _ off' h' =>
      have e := (extractTimestamp_some h).symm.trans (extractTimestamp_some h')
      simp only [Go.ok.injEq, Prod.mk.injEq] at e
      exact e.1
    | none hn => exact absurd h (hn _ _)
  | none hn =>
    cases h2 with
    | own _ off' h' => exact absurd h' (hn _ _)
    | none _ => rfl

theorem steady_snoc {now0 : Int} {ops : List AOp} {x : AOp} (h : Steady now0 (ops ++ [x])) :
    Steady now0 ops ∧ ∀ t ∈ now0 :: ops.map AOp.now, t ≤ x.now := by
  unfold Steady at *
  rw [List.map_append, List.map_singleton, ← List.cons_append, List.pairwise_append] at h
  exact ⟨h.1, fun t ht => h.2.2 t ht x.now (by simp)⟩

theorem startOf_bounds {p : Int} (hp : 0 < p) (t : Int) : startOf p t ≤ t ∧ t < startOf p t + p := by
  unfold startOf
  have h1 := Int.emod_nonneg (t + zeroTimeOffset) (show p ≠ 0 by omega)
  have h2 := Int.emod_lt_of_pos (t + zeroTimeOffset) hp
  omega

theorem punctual_attentive {p : Int} (hp : 0 < p) : ∀ (ops : List AOp) {last : Int}, Punctual p last ops → Attentive p last ops
  | [], _, _ => trivial
  | .line now l :: ops, last, h => ⟨by have := startOf_bounds hp last; have := h.1; omega, punctual_attentive hp ops h.2⟩
  | .tick now ord :: ops, last, h => ⟨by have := startOf_bounds hp last; have := h.1; omega, punctual_attentive hp ops h.2⟩

theorem attentive_snoc {p : Int} {ops : List AOp} {x : AOp} : ∀ {last : Int}, Attentive p last (ops ++ [x]) →
    Attentive p last ops ∧ x.now < startOf p (lastLook last ops) + 2 * p := by
  induction ops with
  | nil => intro last h; cases x <;> exact ⟨trivial, h.1⟩
  | cons o ops ih =>
    intro last h
    cases o with
    | line now l => exact ⟨⟨h.1, (ih h.2).1⟩, (ih h.2).2⟩
    | tick now ord => exact ⟨⟨h.1, (ih h.2).1⟩, (ih h.2).2⟩

theorem lastLook_line {ops : List AOp} {c : Int} {l : Bytes} : ∀ {last : Int}, lastLook last (ops ++ [.line c l]) = lastLook last ops := by
  induction ops with
  | nil => intro last; rfl
  | cons o ops ih => intro last; cases o <;> exact ih

theorem lastLook_tick {ops : List AOp} {c : Int} {ord : MapOrder} : ∀ {last : Int}, lastLook last (ops ++ [.tick c ord]) = c := by
  induction ops with
  | nil => intro last; rfl
  | cons o ops ih => intro last; cases o <;> exact ih

theorem lastLook_mem {ops : List AOp} : ∀ {last : Int}, lastLook last ops ∈ last :: ops.map AOp.now := by
  induction ops with
  | nil => intro last; simp [lastLook]
  | cons o ops ih =>
    intro last
    cases o with
    | line now l =>
      have := @ih last
      simp only [List.mem_cons, lastLook, List.map_cons] at *
      rcases this with h | h
      · exact Or.inl h
      · exact Or.inr (Or.inr h)
    | tick now ord => exact List.mem_cons_of_mem _ ih

theorem startOf_eq {p B t : Int} (ha : Aligned p B) (h1 : B ≤ t) (h2 : t < B + p) : startOf p t = B := by
  unfold startOf Aligned at *
  have : (t + zeroTimeOffset) % p = t - B := by
    rw [show t + zeroTimeOffset = (t - B) + (B + zeroTimeOffset) by omega, Int.add_emod, ha, Int.add_zero, Int.emod_emod]
    exact Int.emod_eq_of_lt (by omega) (by omega)
  omega

theorem lineAt_snoc {h : List (AOp × AOut)} {x : AOp × AOut} {before : List AOp} {c : Int} {l : Bytes} {es : List DErr}
    (g : LineAt (h ++ [x]) before c l es) : LineAt h before c l es ∨ (x = (.line c l, .errs es) ∧ before = h.map (·.1)) := by
  obtain ⟨pre, post, g1, g2⟩ := g
  rcases post.eq_nil_or_concat with rfl | ⟨q, y, rfl⟩
  · have := List.append_inj' g1 rfl
    obtain ⟨rfl, k⟩ := this
    simp only [List.cons.injEq, and_true] at k
    exact Or.inr ⟨k, g2⟩
  · rw [List.concat_eq_append, ← List.cons_append, ← List.append_assoc] at g1
    obtain ⟨rfl, -⟩ := List.append_inj' g1 rfl
    exact Or.inl ⟨pre, q, rfl, g2⟩

/-- Steady clock: what the tracked windows have to do with the clock. -/
theorem steady_legal {fo : FloatOps} {p now0 e : Int} {got : List Got} {em : List Emission} {h : List (AOp × AOut)}
    (hl : Legal fo p now0 e got em h) : Steady now0 (h.map (·.1)) →
    e ≤ lastLook now0 (h.map (·.1)) ∧
    (∀ before c l es ts body, LineAt h before c l es → Stamped c l ts body → .tooOld ∈ es → ts < c - p) := by
  induction hl with
  | start e h1 h2 h3 =>
    intro _
    exact ⟨h2, fun before c l es ts body hx => by obtain ⟨pre, post, g, -⟩ := hx; simp at g⟩
  | empty _ ih =>
    intro hs
    rw [List.map_append, List.map_singleton] at hs
    obtain ⟨s1, s2⟩ := steady_snoc hs
    obtain ⟨i1, i2⟩ := ih s1
    rw [List.map_append, List.map_singleton, lastLook_line]
    refine ⟨i1, fun before c l es ts body hx hst ho => ?_⟩
    rcases lineAt_snoc hx with hx | ⟨hx, -⟩
    · exact i2 before c l es ts body hx hst ho
    · simp only [Prod.mk.injEq, AOut.errs.injEq] at hx; rw [← hx.2] at ho; simp at ho
  | @old e got em h l now ts' body' _ hne hst' hlt ih =>
    intro hs
    rw [List.map_append, List.map_singleton] at hs
    obtain ⟨s1, s2⟩ := steady_snoc hs
    obtain ⟨i1, i2⟩ := ih s1
    rw [List.map_append, List.map_singleton, lastLook_line]
    refine ⟨i1, fun before c l es ts body hx hst ho => ?_⟩
    rcases lineAt_snoc hx with hx | ⟨hx, -⟩
    · exact i2 before c l es ts body hx hst ho
    · simp only [Prod.mk.injEq, AOp.line.injEq] at hx
      obtain ⟨⟨rfl, rfl⟩, -⟩ := hx
      have := stamped_unique hst hst'
      have := s2 _ (lastLook_mem (ops := h.map (·.1)))
      simp only [AOp.now] at this
      omega
  | new _ hne hst' hlt ih =>
    intro hs
    rw [List.map_append, List.map_singleton] at hs
    obtain ⟨s1, s2⟩ := steady_snoc hs
    obtain ⟨i1, i2⟩ := ih s1
    rw [List.map_append, List.map_singleton, lastLook_line]
    refine ⟨i1, fun before c l es ts body hx hst ho => ?_⟩
    rcases lineAt_snoc hx with hx | ⟨hx, -⟩
    · exact i2 before c l es ts body hx hst ho
    · simp only [Prod.mk.injEq, AOut.errs.injEq] at hx; rw [← hx.2] at ho; simp at ho
  | accept _ _ _ _ _ hno ih =>
    intro hs
    rw [List.map_append, List.map_singleton] at hs
    obtain ⟨s1, s2⟩ := steady_snoc hs
    obtain ⟨i1, i2⟩ := ih s1
    rw [List.map_append, List.map_singleton, lastLook_line]
    refine ⟨i1, fun before c l es ts body hx hst ho => ?_⟩
    rcases lineAt_snoc hx with hx | ⟨hx, -⟩
    · exact i2 before c l es ts body hx hst ho
    · simp only [Prod.mk.injEq, AOut.errs.injEq] at hx; rw [← hx.2] at ho
      have := hno _ ho; cases this
  | early _ _ ih =>
    intro hs
    rw [List.map_append, List.map_singleton] at hs
    obtain ⟨s1, s2⟩ := steady_snoc hs
    obtain ⟨i1, i2⟩ := ih s1
    rw [List.map_append, List.map_singleton, lastLook_tick]
    refine ⟨Int.le_trans i1 (s2 _ lastLook_mem), fun before c l es ts body hx hst ho => ?_⟩
    rcases lineAt_snoc hx with hx | ⟨hx, -⟩
    · exact i2 before c l es ts body hx hst ho
    · cases hx
  | emit _ hle _ ih =>
    intro hs
    rw [List.map_append, List.map_singleton] at hs
    obtain ⟨s1, s2⟩ := steady_snoc hs
    obtain ⟨i1, i2⟩ := ih s1
    rw [List.map_append, List.map_singleton, lastLook_tick]
    refine ⟨hle, fun before c l es ts body hx hst ho => ?_⟩
    rcases lineAt_snoc hx with hx | ⟨hx, -⟩
    · exact i2 before c l es ts body hx hst ho
    · cases hx

/-- Attentive worker, steady clock: the middle window is that of the last look; what is refused; when windows are emitted. -/
theorem attentive_legal {fo : FloatOps} {p now0 e : Int} (hp : 0 < p) {got : List Got} {em : List Emission} {h : List (AOp × AOut)}
    (hl : Legal fo p now0 e got em h) : Steady now0 (h.map (·.1)) → Attentive p now0 (h.map (·.1)) →
    Aligned p e ∧ lastLook now0 (h.map (·.1)) < e + p ∧
    (∀ before c l es ts body, LineAt h before c l es → l ≠ [] → Stamped c l ts body →
      (.tooOld ∈ es ↔ ts < startOf p (lastLook now0 before) - p) ∧
      (.tooNew ∈ es ↔ startOf p (lastLook now0 before) + 2 * p ≤ ts)) ∧
    (∀ m ∈ em, m.wend + p ≤ m.now ∧ m.now < m.wend + 2 * p) := by
  induction hl with
  | start e h1 h2 h3 =>
    intro _ _
    exact ⟨h1, h3, fun before c l es ts body hx => (by obtain ⟨pre, post, g, -⟩ := hx; simp at g), by simp⟩
  | empty _ ih =>
    intro hs hq
    rw [List.map_append, List.map_singleton] at hs hq
    obtain ⟨i0, i1, i2, i3⟩ := ih (steady_snoc hs).1 (attentive_snoc hq).1
    rw [List.map_append, List.map_singleton, lastLook_line]
    refine ⟨i0, i1, fun before c l es ts body hx hne hst => ?_, i3⟩
    rcases lineAt_snoc hx with hx | ⟨hx, -⟩
    · exact i2 before c l es ts body hx hne hst
    · simp only [Prod.mk.injEq, AOp.line.injEq] at hx; exact absurd hx.1.2.symm hne
  | @old e got em h l now ts' body' hleg hne' hst' hlt ih =>
    intro hs hq
    rw [List.map_append, List.map_singleton] at hs hq
    obtain ⟨i0, i1, i2, i3⟩ := ih (steady_snoc hs).1 (attentive_snoc hq).1
    have lo := (steady_legal hleg (steady_snoc hs).1).1
    rw [List.map_append, List.map_singleton, lastLook_line]
    refine ⟨i0, i1, fun before c l es ts body hx hne hst => ?_, i3⟩
    rcases lineAt_snoc hx with hx | ⟨hx, hb⟩
    · exact i2 before c l es ts body hx hne hst
    · simp only [Prod.mk.injEq, AOp.line.injEq, AOut.errs.injEq] at hx
      obtain ⟨⟨rfl, rfl⟩, rfl⟩ := hx
      have := stamped_unique hst hst'
      rw [hb, startOf_eq i0 lo i1]
      refine ⟨⟨fun _ => by omega, fun _ => by simp⟩, ⟨fun k => by simp at k, fun k => by omega⟩⟩
  | @new e got em h l now ts' body' hleg hne' hst' hlt ih =>
    intro hs hq
    rw [List.map_append, List.map_singleton] at hs hq
    obtain ⟨i0, i1, i2, i3⟩ := ih (steady_snoc hs).1 (attentive_snoc hq).1
    have lo := (steady_legal hleg (steady_snoc hs).1).1
    rw [List.map_append, List.map_singleton, lastLook_line]
    refine ⟨i0, i1, fun before c l es ts body hx hne hst => ?_, i3⟩
    rcases lineAt_snoc hx with hx | ⟨hx, hb⟩
    · exact i2 before c l es ts body hx hne hst
    · simp only [Prod.mk.injEq, AOp.line.injEq, AOut.errs.injEq] at hx
      obtain ⟨⟨rfl, rfl⟩, rfl⟩ := hx
      have := stamped_unique hst hst'
      rw [hb, startOf_eq i0 lo i1]
      refine ⟨⟨fun k => by simp at k, fun k => by omega⟩, ⟨fun _ => by omega, fun _ => by simp⟩⟩
  | @accept e got em h l now ts' body' errs hleg hne' hst' g1 g2 hno ih =>
    intro hs hq
    rw [List.map_append, List.map_singleton] at hs hq
    obtain ⟨i0, i1, i2, i3⟩ := ih (steady_snoc hs).1 (attentive_snoc hq).1
    have lo := (steady_legal hleg (steady_snoc hs).1).1
    rw [List.map_append, List.map_singleton, lastLook_line]
    refine ⟨i0, i1, fun before c l es ts body hx hne hst => ?_, i3⟩
    rcases lineAt_snoc hx with hx | ⟨hx, hb⟩
    · exact i2 before c l es ts body hx hne hst
    · simp only [Prod.mk.injEq, AOp.line.injEq, AOut.errs.injEq] at hx
      obtain ⟨⟨rfl, rfl⟩, rfl⟩ := hx
      have := stamped_unique hst hst'
      rw [hb, startOf_eq i0 lo i1]
      refine ⟨⟨fun k => ?_, fun k => by omega⟩, ⟨fun k => ?_, fun k => by omega⟩⟩
      · have := hno _ k; cases this
      · have := hno _ k; cases this
  | early _ hlt ih =>
    intro hs hq
    rw [List.map_append, List.map_singleton] at hs hq
    obtain ⟨i0, i1, i2, i3⟩ := ih (steady_snoc hs).1 (attentive_snoc hq).1
    rw [List.map_append, List.map_singleton, lastLook_tick]
    refine ⟨i0, hlt, fun before c l es ts body hx hne hst => ?_, i3⟩
    rcases lineAt_snoc hx with hx | ⟨hx, -⟩
    · exact i2 before c l es ts body hx hne hst
    · cases hx
  | @emit e got em h now text ord hleg hle _ ih =>
    intro hs hq
    rw [List.map_append, List.map_singleton] at hs hq
    obtain ⟨i0, i1, i2, i3⟩ := ih (steady_snoc hs).1 (attentive_snoc hq).1
    have hq' := (attentive_snoc hq).2
    rw [startOf_eq i0 (steady_legal hleg (steady_snoc hs).1).1 i1] at hq'
    simp only [AOp.now] at hq'
    rw [List.map_append, List.map_singleton, lastLook_tick]
    refine ⟨?_, by omega, fun before c l es ts body hx hne hst => ?_, fun m hm => ?_⟩
    · have := aligned_add 1 i0
      rwa [Int.one_mul] at this
    · rcases lineAt_snoc hx with hx | ⟨hx, -⟩
      · exact i2 before c l es ts body hx hne hst
      · cases hx
    · rw [List.mem_append, List.mem_singleton] at hm
      rcases hm with hm | rfl
      · exact i3 m hm
      · exact ⟨hle, by show now < e + 2 * p; omega⟩

theorem punctual_mid {p : Int} {pre post : List AOp} {x : AOp} : ∀ {last : Int}, Punctual p last (pre ++ x :: post) →
    x.now ≤ lastLook last pre + p := by
  induction pre with
  | nil => intro last h; cases x <;> exact h.1
  | cons o ops ih => intro last h; cases o <;> exact ih h.2

theorem steady_mid {now0 : Int} {pre post : List AOp} {x : AOp} (h : Steady now0 (pre ++ x :: post)) :
    lastLook now0 pre ≤ x.now := by
  unfold Steady at h
  rw [List.map_append, List.map_cons, ← List.cons_append, List.pairwise_append] at h
  exact h.2.2 _ lastLook_mem _ (by simp)

theorem attentive_mid {p : Int} {pre post : List AOp} {x : AOp} : ∀ {last : Int}, Attentive p last (pre ++ x :: post) →
    x.now < startOf p (lastLook last pre) + 2 * p := by
  induction pre with
  | nil => intro last h; cases x <;> exact h.1
  | cons o ops ih => intro last h; cases o <;> exact ih h.2

theorem zip_ops {ops : List AOp} {outs : List AOut} (h : outs.length = ops.length) : (ops.zip outs).map (·.1) = ops :=
  List.map_fst_zip (Nat.le_of_eq h.symm)

/-- **C118 (late).** If the clock never goes back, a line is refused as too old only if its time is more than a period before
its arrival - whatever else the worker received, however often it was held up. -/
theorem C118_too_old_is_late (fo : FloatOps) (S : Sorter) (p now0 : Int) (hp : 0 < p) (evs : List DEvent)
    (hs : Steady now0 (evs.flatMap evOps)) :
    ∃ w e got em outs, DWorker.run S (DWorker.new fo p now0) evs = .ok w ∧ outs.length = (evs.flatMap evOps).length ∧
      Legal fo p now0 e got em ((evs.flatMap evOps).zip outs) ∧
      ∀ before c l es ts body, LineAt ((evs.flatMap evOps).zip outs) before c l es → Stamped c l ts body →
        .tooOld ∈ es → ts < c - p := by
  obtain ⟨w, e, got, em, outs, h1, -, h3, h4, -⟩ := dstream fo S p now0 hp evs
  exact ⟨w, e, got, em, outs, h1, h3, h4, (steady_legal h4 (by rw [zip_ops h3]; exact hs)).2⟩

/-- **C118 (exactly).** If the clock never goes back and the worker is never held up beyond the window following that in which it last
looked for output (for instance, never for longer than a period, `punctual_attentive`), a line is
refused exactly if its time is before the window preceding that of the last look for output (too old) or after the window
following it (too new). -/
theorem C118_refused_exactly (fo : FloatOps) (S : Sorter) (p now0 : Int) (hp : 0 < p) (evs : List DEvent)
    (hs : Steady now0 (evs.flatMap evOps)) (hq : Attentive p now0 (evs.flatMap evOps)) :
    ∃ w e got em outs, DWorker.run S (DWorker.new fo p now0) evs = .ok w ∧ outs.length = (evs.flatMap evOps).length ∧
      Legal fo p now0 e got em ((evs.flatMap evOps).zip outs) ∧
      ∀ before c l es ts body, LineAt ((evs.flatMap evOps).zip outs) before c l es → l ≠ [] → Stamped c l ts body →
        (.tooOld ∈ es ↔ ts < startOf p (lastLook now0 before) - p) ∧
        (.tooNew ∈ es ↔ startOf p (lastLook now0 before) + 2 * p ≤ ts) := by
  obtain ⟨w, e, got, em, outs, h1, -, h3, h4, -⟩ := dstream fo S p now0 hp evs
  exact ⟨w, e, got, em, outs, h1, h3, h4,
    (attentive_legal hp h4 (by rw [zip_ops h3]; exact hs) (by rw [zip_ops h3]; exact hq)).2.2.1⟩

theorem on_time_line {p now0 : Int} (hp : 0 < p) {h : List (AOp × AOut)} {before : List AOp} {c : Int} {l : Bytes} {es : List DErr}
    (hx : LineAt h before c l es) (hs : Steady now0 (h.map (·.1))) (hq : Attentive p now0 (h.map (·.1))) {ts : Int}
    (h1 : c - p ≤ ts) (h2 : ts ≤ c) :
    startOf p (lastLook now0 before) - p ≤ ts ∧ ts < startOf p (lastLook now0 before) + 2 * p := by
  obtain ⟨pre, post, rfl, rfl⟩ := hx
  rw [List.map_append, List.map_cons] at hs hq
  have a1 := steady_mid hs
  have a2 := attentive_mid hq
  have a3 := startOf_bounds hp (lastLook now0 (pre.map (·.1)))
  simp only [AOp.now] at a1 a2
  omega

theorem legal_shape {fo : FloatOps} {p now0 e : Int} {got : List Got} {em : List Emission} {h : List (AOp × AOut)}
    (hl : Legal fo p now0 e got em h) : ∀ x ∈ h, (∃ c l es ts body, x = (.line c l, .errs es) ∧
      ((l = [] ∧ es = []) ∨ (l ≠ [] ∧ Stamped c l ts body))) ∨ ∃ c ord t, x = (.tick c ord, .text t) := by
  have snoc : ∀ {h : List (AOp × AOut)} {y : AOp × AOut} {Q : AOp × AOut → Prop}, (∀ x ∈ h, Q x) → Q y → ∀ x ∈ h ++ [y], Q x := by
    intro h y Q a b x hx
    rw [List.mem_append, List.mem_singleton] at hx
    rcases hx with hx | rfl
    · exact a x hx
    · exact b
  induction hl with
  | start => intro x hx; cases hx
  | empty _ ih => exact snoc ih (Or.inl ⟨_, _, _, 0, [], rfl, Or.inl ⟨rfl, rfl⟩⟩)
  | old _ hne hst _ ih => exact snoc ih (Or.inl ⟨_, _, _, _, _, rfl, Or.inr ⟨hne, hst⟩⟩)
  | new _ hne hst _ ih => exact snoc ih (Or.inl ⟨_, _, _, _, _, rfl, Or.inr ⟨hne, hst⟩⟩)
  | accept _ hne hst _ _ _ ih => exact snoc ih (Or.inl ⟨_, _, _, _, _, rfl, Or.inr ⟨hne, hst⟩⟩)
  | early _ _ ih => exact snoc ih (Or.inr ⟨_, _, _, rfl⟩)
  | emit _ _ _ ih => exact snoc ih (Or.inr ⟨_, _, _, rfl⟩)

theorem lineAt_mem {h : List (AOp × AOut)} {before : List AOp} {c : Int} {l : Bytes} {es : List DErr}
    (hx : LineAt h before c l es) : (AOp.line c l, AOut.errs es) ∈ h := by
  obtain ⟨pre, post, rfl, -⟩ := hx; simp

theorem lineAt_of_mem {h : List (AOp × AOut)} {c : Int} {l : Bytes} {es : List DErr}
    (hx : (AOp.line c l, AOut.errs es) ∈ h) : ∃ before, LineAt h before c l es := by
  obtain ⟨pre, post, rfl⟩ := List.append_of_mem hx
  exact ⟨_, pre, post, rfl, rfl⟩

/-- Measurements that come at most a period late, and none early, are in reach. -/
theorem C118_on_time_in_reach {p now0 : Int} (hp : 0 < p) {ops : List AOp} (hs : Steady now0 ops) (hq : Attentive p now0 ops) (h : AllOnTime p ops) :
    InReach p now0 ops := by
  intro pre post now l ts body e hne hst
  subst e
  obtain ⟨h1, h2⟩ := h now l ts body (by simp) hne hst
  have a1 := steady_mid hs
  have a2 := attentive_mid hq
  have a3 := startOf_bounds hp (lastLook now0 pre)
  simp only [AOp.now] at a1 a2
  omega

/-- **C118 (on time).** If the clock never goes back and the worker is never held up beyond the window following that in which it last
looked for output (for instance, never for longer than a period, `punctual_attentive`), no line whose
time is between one period before its arrival and its arrival is refused; if all lines are such, or in the window of the last look for output or
one of its neighbours, `invalid_timestamps` stays zero. -/
theorem C118_on_time_never_refused (fo : FloatOps) (S : Sorter) (p now0 : Int) (hp : 0 < p) (evs : List DEvent)
    (hs : Steady now0 (evs.flatMap evOps)) (hq : Attentive p now0 (evs.flatMap evOps)) :
    ∃ w e got em outs, DWorker.run S (DWorker.new fo p now0) evs = .ok w ∧ outs.length = (evs.flatMap evOps).length ∧
      Legal fo p now0 e got em ((evs.flatMap evOps).zip outs) ∧
      (∀ before c l es ts body, LineAt ((evs.flatMap evOps).zip outs) before c l es → Stamped c l ts body →
        c - p ≤ ts → ts ≤ c → .tooOld ∉ es ∧ .tooNew ∉ es) ∧
      (AllOnTime p (evs.flatMap evOps) → w.stats.invalidTimestamps = 0) ∧
      (InReach p now0 (evs.flatMap evOps) ↔ w.stats.invalidTimestamps = 0) := by
  obtain ⟨w, e, got, em, outs, h1, -, h3, h4, -, -, h7, -⟩ := dstream fo S p now0 hp evs
  have hops := zip_ops h3
  have hs' : Steady now0 (((evs.flatMap evOps).zip outs).map (·.1)) := by rw [hops]; exact hs
  have hq' : Attentive p now0 (((evs.flatMap evOps).zip outs).map (·.1)) := by rw [hops]; exact hq
  have exact' := (attentive_legal hp h4 hs' hq').2.2.1
  have key : ∀ before c l es ts body, LineAt ((evs.flatMap evOps).zip outs) before c l es → Stamped c l ts body →
        c - p ≤ ts → ts ≤ c → .tooOld ∉ es ∧ .tooNew ∉ es := by
    intro before c l es ts body hx hst k1 k2
    by_cases hne : l = []
    · rcases legal_shape h4 _ (lineAt_mem hx) with ⟨c', l', es', _, _, g, g'⟩ | ⟨_, _, _, g⟩
      · simp only [Prod.mk.injEq, AOp.line.injEq, AOut.errs.injEq] at g
        obtain ⟨⟨-, rfl⟩, rfl⟩ := g
        rcases g' with ⟨-, rfl⟩ | ⟨g', -⟩
        · simp
        · exact absurd hne g'
      · cases g
    obtain ⟨i1, i2⟩ := exact' before c l es ts body hx hne hst
    have := on_time_line hp hx hs' hq' k1 k2
    rw [i1, i2]
    omega
  have reach : InReach p now0 (evs.flatMap evOps) → w.stats.invalidTimestamps = 0 := by
    intro hall
    rw [h7, List.countP_eq_zero]
    intro x hx
    obtain ⟨y, hy, hxy⟩ := List.mem_flatMap.1 hx
    have hz := legal_shape h4 y hy
    rcases hz with ⟨c, l, es, ts, body, rfl, hl⟩ | ⟨_, _, _, rfl⟩
    · obtain ⟨before, hat⟩ := lineAt_of_mem hy
      rcases hl with ⟨-, rfl⟩ | ⟨hne, hst⟩
      · simp at hxy
      · have hat' := hat
        obtain ⟨pre, post, g1, g2⟩ := hat'
        have g3 := congrArg (List.map (·.1)) g1
        rw [hops, List.map_append, List.map_cons, ← g2] at g3
        obtain ⟨k1, k2⟩ := hall before _ c l ts body g3 hne hst
        obtain ⟨i1, i2⟩ := exact' before c l es ts body hat hne hst
        simp only [decide_eq_true_eq]
        rintro (rfl | rfl)
        · have := i1.1 hxy; omega
        · have := i2.1 hxy; omega
    · simp at hxy
  refine ⟨w, e, got, em, outs, h1, h3, h4, key, fun hall => reach (C118_on_time_in_reach hp hs hq hall), reach, ?_⟩
  intro hv pre post c l ts body e hne hst
  rw [h7, List.countP_eq_zero] at hv
  have hlen : pre.length < ((evs.flatMap evOps).zip outs).length := by
    have := congrArg List.length hops
    rw [List.length_map] at this
    have e' := congrArg List.length e
    rw [List.length_append, List.length_cons] at e'
    omega
  have hsplit := List.take_append_drop pre.length ((evs.flatMap evOps).zip outs)
  have hdrop : ((evs.flatMap evOps).zip outs).drop pre.length = ((evs.flatMap evOps).zip outs)[pre.length] :: ((evs.flatMap evOps).zip outs).drop (pre.length + 1) :=
    List.drop_eq_getElem_cons hlen
  have hfst : (((evs.flatMap evOps).zip outs)[pre.length]).1 = .line c l := by
    have h9 : (((evs.flatMap evOps).zip outs).map (·.1))[pre.length]? = some (.line c l) := by
      rw [hops, e]; simp
    rw [List.getElem?_map, List.getElem?_eq_getElem hlen] at h9
    simpa using h9
  have hmem := List.getElem_mem hlen
  rcases legal_shape h4 _ hmem with ⟨c', l', es, _, _, g, -⟩ | ⟨_, _, _, g⟩
  · rw [g] at hfst
    simp only [AOp.line.injEq] at hfst
    obtain ⟨rfl, rfl⟩ := hfst
    have hat : LineAt ((evs.flatMap evOps).zip outs) pre c' l' es := by
      refine ⟨_, _, by rw [← g, ← hdrop]; exact hsplit.symm, ?_⟩
      rw [List.map_take, hops, e, List.take_left]
    obtain ⟨i1, i2⟩ := exact' pre c' l' es ts body hat hne hst
    rw [g] at hmem
    have no : ∀ x ∈ es, x ≠ .tooOld ∧ x ≠ .tooNew := by
      intro x hx
      have := hv x (List.mem_flatMap.2 ⟨_, hmem, hx⟩)
      simpa using this
    constructor
    · apply Classical.byContradiction
      intro hn
      exact (no _ (i1.2 (by omega))).1 rfl
    · apply Classical.byContradiction
      intro hn
      exact (no _ (i2.2 (by omega))).2 rfl
  · rw [g] at hfst; cases hfst

/-- **C118 (output).** If the clock never goes back and the worker is never held up beyond the window following that in which it last
looked for output (for instance, never for longer than a period, `punctual_attentive`), every window is
sent between one and two periods after its end; and every window whose end is at least a period back has been sent. -/
theorem C118_sent_in_time (fo : FloatOps) (S : Sorter) (p now0 : Int) (hp : 0 < p) (evs : List DEvent)
    (hs : Steady now0 (evs.flatMap evOps)) (hq : Attentive p now0 (evs.flatMap evOps)) :
    ∃ w e got em outs, DWorker.run S (DWorker.new fo p now0) evs = .ok w ∧ outs.length = (evs.flatMap evOps).length ∧
      Legal fo p now0 e got em ((evs.flatMap evOps).zip outs) ∧
      (w.pubs.map (·.data)).flatten = (em.map (·.text)).flatten ∧
      (∀ m ∈ em, m.wend + p ≤ m.now ∧ m.now < m.wend + 2 * p) ∧
      ∀ W, Aligned p W → now0 < W + p → W + p ≤ lastLook now0 (evs.flatMap evOps) → ∃ m ∈ em, m.wend = W := by
  obtain ⟨w, e, got, em, outs, h1, -, h3, h4, h5, -⟩ := dstream fo S p now0 hp evs
  have hs' : Steady now0 (((evs.flatMap evOps).zip outs).map (·.1)) := by rw [zip_ops h3]; exact hs
  have hq' : Attentive p now0 (((evs.flatMap evOps).zip outs).map (·.1)) := by rw [zip_ops h3]; exact hq
  obtain ⟨a1, a2, -, a4⟩ := attentive_legal hp h4 hs' hq'
  rw [zip_ops h3] at a2
  refine ⟨w, e, got, em, outs, h1, h3, h4, h5, a4, ?_⟩
  intro W hW l1 l2
  obtain ⟨E0, f⟩ := legal_facts hp h4
  have hE := f.aligned
  unfold Aligned at hW hE
  have hd : p ∣ W - E0 := by
    have := Int.emod_emod_of_dvd (W + zeroTimeOffset) (Int.dvd_refl p)
    have h2 : (W - E0) % p = 0 := by
      rw [show W - E0 = (W + zeroTimeOffset) - (E0 + zeroTimeOffset) by omega, Int.sub_emod, hW, hE]; simp
    exact Int.dvd_of_emod_eq_zero h2
  obtain ⟨k, hk⟩ := hd
  have s1 := f.startLo
  have s2 := f.startHi
  have s3 := f.e_eq
  have hk0 : 0 ≤ k := by
    apply Classical.byContradiction
    intro hn
    have : p * k ≤ p * (-1) := Int.mul_le_mul_of_nonneg_left (by omega) (by omega)
    omega
  obtain ⟨i, rfl⟩ := Int.eq_ofNat_of_zero_le hk0
  rw [Int.mul_comm] at hk
  have hi : i < em.length := by
    apply Classical.byContradiction
    intro hn
    have : (em.length : Int) * p ≤ i * p := Int.mul_le_mul_of_nonneg_right (by omega) (by omega)
    omega
  have hg : em[i]? = some em[i] := List.getElem?_eq_getElem hi
  have := (f.ends i _ hg).1
  exact ⟨em[i], List.getElem_mem hi, by omega⟩

/-- **C118 (archives of archives).** A downsampler of period `p1` feeds one of period `p2`, each on a steady clock and attentive.
If rows are handled at most `d` after being sent, and `2 * p1 + d ≤ p2`, no row of the first is refused by the second. -/
theorem C118_rows_never_refused (fo : FloatOps) (S : Sorter) (p1 p2 now1 now2 d : Int) (hp1 : 0 < p1) (hp2 : 0 < p2)
    (evs1 evs2 : List DEvent) (hs1 : Steady now1 (evs1.flatMap evOps)) (hq1 : Attentive p1 now1 (evs1.flatMap evOps))
    (hs2 : Steady now2 (evs2.flatMap evOps)) (hq2 : Attentive p2 now2 (evs2.flatMap evOps)) (hd : 2 * p1 + d ≤ p2) :
    ∃ w1 e1 got1 em1 outs1 w2 e2 got2 em2 outs2,
      DWorker.run S (DWorker.new fo p1 now1) evs1 = .ok w1 ∧
      outs1.length = (evs1.flatMap evOps).length ∧ Legal fo p1 now1 e1 got1 em1 ((evs1.flatMap evOps).zip outs1) ∧
      (w1.pubs.map (·.data)).flatten = (em1.map (·.text)).flatten ∧
      DWorker.run S (DWorker.new fo p2 now2) evs2 = .ok w2 ∧
      outs2.length = (evs2.flatMap evOps).length ∧ Legal fo p2 now2 e2 got2 em2 ((evs2.flatMap evOps).zip outs2) ∧
      ∀ m ∈ em1, ∀ before c l es body, LineAt ((evs2.flatMap evOps).zip outs2) before c l es → Stamped c l m.wend body →
        m.now ≤ c → c ≤ m.now + d → .tooOld ∉ es ∧ .tooNew ∉ es := by
  obtain ⟨w1, e1, got1, em1, outs1, a1, a2, a3, a4, a5, -⟩ := C118_sent_in_time fo S p1 now1 hp1 evs1 hs1 hq1
  obtain ⟨w2, e2, got2, em2, outs2, b1, b2, b3, b4, -⟩ := C118_on_time_never_refused fo S p2 now2 hp2 evs2 hs2 hq2
  refine ⟨w1, e1, got1, em1, outs1, w2, e2, got2, em2, outs2, a1, a2, a3, a4, b1, b2, b3, ?_⟩
  intro m hm before c l es body hx hst k1 k2
  have := a5 m hm
  exact b4 before c l es m.wend body hx hst (by omega) (by omega)

/-! ## The hypotheses are met, and needed -/

def otEvents : List DEvent :=
  [⟨.msg b!"a f=1i 105\na f=4i 112\n" (fun _ => 115), 116, idOrder, fun _ => false⟩, ⟨.timeout, 120, idOrder, fun _ => false⟩,
   ⟨.msg b!"a f=1i 115\nb g=7i\n" (fun _ => 125), 125, idOrder, fun _ => false⟩, ⟨.timeout, 130, idOrder, fun _ => false⟩]

/-- A history on a steady clock, of a punctual worker. -/
example : Steady 115 (otEvents.flatMap evOps) ∧ Attentive 10 115 (otEvents.flatMap evOps) := by
  have e : otEvents.flatMap evOps = [.line 115 b!"a f=1i 105", .line 115 b!"a f=4i 112", .line 115 [], .tick 116 idOrder,
    .tick 120 idOrder, .line 125 b!"a f=1i 115", .line 125 b!"b g=7i", .line 125 [], .tick 125 idOrder, .tick 130 idOrder] := rfl
  rw [e]
  constructor
  · unfold Steady
    simp [AOp.now]
  · refine punctual_attentive (by decide) _ ?_
    simp [Punctual]

example : (match DWorker.run insertionSorter (DWorker.new wholeFloats 10 115) otEvents with
    | .ok w => some (w.pubs, w.stats)
    | .panic => none) =
    some ([⟨b!"a f=1i 110\n", false⟩, ⟨b!"a f=3i 120\n", false⟩], ⟨2, 2, 0, 0, 0⟩) := by decide +kernel

def otEvents2 : List DEvent :=
  [⟨.msg b!"a f=1i 110\n" (fun _ => 122), 123, idOrder, fun _ => false⟩, ⟨.msg b!"a f=3i 120\n" (fun _ => 135), 135, idOrder, fun _ => false⟩,
   ⟨.timeout, 150, idOrder, fun _ => false⟩, ⟨.timeout, 180, idOrder, fun _ => false⟩]

/-- Its rows, received five time units later by a downsampler of period 30. -/
example : Steady 120 (otEvents2.flatMap evOps) ∧ Attentive 30 120 (otEvents2.flatMap evOps) ∧ (2 * 10 + 5 : Int) ≤ 30 := by
  have e : otEvents2.flatMap evOps = [.line 122 b!"a f=1i 110", .line 122 [], .tick 123 idOrder,
    .line 135 b!"a f=3i 120", .line 135 [], .tick 135 idOrder, .tick 150 idOrder, .tick 180 idOrder] := rfl
  rw [e]
  refine ⟨?_, ?_, by decide⟩
  · unfold Steady
    simp [AOp.now]
  · refine punctual_attentive (by decide) _ ?_
    simp [Punctual]

example : (match DWorker.run insertionSorter (DWorker.new wholeFloats 30 120) otEvents2 with
    | .ok w => some (w.pubs, w.stats)
    | .panic => none) =
    some ([⟨b!"a f=1i 120\n", false⟩, ⟨b!"a f=3i 150\n", false⟩], ⟨2, 2, 0, 0, 0⟩) := by decide +kernel

/-- **C118 (held up).** A worker held up for three periods refuses a measurement of the present moment as too new. -/
theorem C118_held_up : ∃ w, DWorker.run insertionSorter (DWorker.new wholeFloats 10 115)
    [⟨.msg b!"a f=1i 145" (fun _ => 145), 145, idOrder, fun _ => false⟩] = .ok w ∧ w.stats.invalidTimestamps = 1 ∧ w.pubs = [] := by
  have h : (match DWorker.run insertionSorter (DWorker.new wholeFloats 10 115)
    [⟨.msg b!"a f=1i 145" (fun _ => 145), 145, idOrder, fun _ => false⟩] with
    | .ok w => some (w.pubs, w.stats.invalidTimestamps)
    | .panic => none) = some ([], 1) := by decide +kernel
  cases hr : DWorker.run insertionSorter (DWorker.new wholeFloats 10 115)
    [⟨.msg b!"a f=1i 145" (fun _ => 145), 145, idOrder, fun _ => false⟩] with
  | panic => rw [hr] at h; simp at h
  | ok w =>
    rw [hr] at h
    simp only [Option.some.injEq, Prod.mk.injEq] at h
    exact ⟨w, rfl, h.2, h.1⟩

/-- **C118 (clock set back).** If the clock is set back by two periods, a measurement of the present moment is refused as too old. -/
theorem C118_clock_set_back : ∃ w, DWorker.run insertionSorter (DWorker.new wholeFloats 10 135)
    [⟨.msg b!"a f=1i 115" (fun _ => 115), 115, idOrder, fun _ => false⟩] = .ok w ∧ w.stats.invalidTimestamps = 1 ∧ w.pubs = [] := by
  have h : (match DWorker.run insertionSorter (DWorker.new wholeFloats 10 135)
    [⟨.msg b!"a f=1i 115" (fun _ => 115), 115, idOrder, fun _ => false⟩] with
    | .ok w => some (w.pubs, w.stats.invalidTimestamps)
    | .panic => none) = some ([], 1) := by decide +kernel
  cases hr : DWorker.run insertionSorter (DWorker.new wholeFloats 10 135)
    [⟨.msg b!"a f=1i 115" (fun _ => 115), 115, idOrder, fun _ => false⟩] with
  | panic => rw [hr] at h; simp at h
  | ok w =>
    rw [hr] at h
    simp only [Option.some.injEq, Prod.mk.injEq] at h
    exact ⟨w, rfl, h.2, h.1⟩

end Spout
