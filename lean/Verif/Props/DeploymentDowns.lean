import Verif.Props.DeploymentFilters

/-! # The downsamplers of a deployment can receive everything (used by C95) -/

set_option linter.unusedSimpArgs false

namespace Spout.Deploy
open Spout Spout.Listener Spout.Pool Spout.Spec Spout.Delivery

universe u

variable {d : Setup} {s0 s s' : State d} {F : Prop} {sent : List (List Bytes)}

theorem drun_last {fo : FloatOps} {S : Sorter} (es : List DEvent) (e : DEvent) : ∀ {w w' w'' : DWorker fo}, DWorker.run S w es = .ok w' →
    DWorker.run S w (es ++ [e]) = .ok w'' → w'.step S e = .ok w'' := by
  induction es with
  | nil =>
    intro w w' w'' h h'
    simp only [DWorker.run, Go.ok.injEq] at h
    subst h
    simp only [List.nil_append, DWorker.run] at h'
    cases hx : w.step S e with
    | panic => rw [hx] at h'; cases h'
    | ok w1 => rw [hx] at h'; exact h'
  | cons x es ih =>
    intro w w' w'' h h'
    rw [DWorker.run] at h
    rw [List.cons_append, DWorker.run] at h'
    cases hx : w.step S x with
    | panic => rw [hx] at h; cases h
    | ok w1 => rw [hx, Go.ok_bind] at h h'; exact ih h h'

/-- The worker of a downsampler does not crash. -/
theorem down_ok {y : DComp d.fo} (hper : 0 < y.period) {k : DState d.fo}
    (hk : DWorker.run d.S (DWorker.new d.fo y.period y.now0) k.evs = .ok k.w) (e : DEvent) : ∃ w', k.w.step d.S e = .ok w' := by
  obtain ⟨w', -, -, -, -, h, -⟩ := C68_downsampler_stream d.fo d.S y.period y.now0 hper (k.evs ++ [e])
  exact ⟨w', drun_last _ _ hk h⟩

theorem map_same {α : Type u} {l : List α} {f : α → α} (h : ∀ a ∈ l, f a = a) : l.map f = l := by
  conv => rhs; rw [← List.map_id l]
  exact List.map_congr_left h

theorem Can.down_none (C : Can F sent s0 s) {y z : DComp d.fo} (hy : y ∈ s.downs) (hz : z ∈ s.downs) (hl : z.subject.length ≤ y.subject.length) (ps : List LPub) :
    z.inp.add (outOn y.out ps) = z.inp := by
  apply Group.add_none
  intro t ht
  have : t.subject ∈ z.inp.subs.map (·.subject) := List.mem_map_of_mem ht
  rw [(C.inv.downs z hz).1.subs, List.mem_singleton] at this
  rw [this, onSubj_outOn, if_neg fun e => absurd ((C.acyclic.downs y hy).2 z hz e) (by omega)]

theorem Can.down_filters (C : Can F sent s0 s) {y : DComp d.fo} (hy : y ∈ s.downs) (ps : List LPub) :
    s.filters.add (outOn y.out ps) = s.filters := by
  apply Group.add_none
  intro t ht
  have : t.subject ∈ s.filters.subs.map (·.subject) := List.mem_map_of_mem ht
  rw [C.inv.filters.subs, List.mem_singleton] at this
  rw [this, onSubj_outOn, if_neg (C.acyclic.downs y hy).1]

/-- What happens to the downsamplers when the one with number `i` works: the others with subjects that are not longer stay as they are. -/
structure Worked (s s' : State d) (i : Nat) (y y' : DComp d.fo) : Prop where
  listeners : s'.listeners = s.listeners
  filters : s'.filters = s.filters
  self : s'.downs[i]? = some y'
  subject : y'.subject = y.subject
  others : ∀ (j : Nat) (z : DComp d.fo), j ≠ i → s.downs[j]? = some z → z.subject.length ≤ y.subject.length → s'.downs[j]? = some z

theorem Worked.refl {i : Nat} {y : DComp d.fo} (hy : s.downs[i]? = some y) : Worked s s i y y := ⟨rfl, rfl, hy, rfl, fun _ _ _ h _ => h⟩

theorem Worked.trans {s1 s2 s3 : State d} {i : Nat} {y1 y2 y3 : DComp d.fo} (h : Worked s1 s2 i y1 y2) (h' : Worked s2 s3 i y2 y3) : Worked s1 s3 i y1 y3 :=
  ⟨h'.listeners.trans h.listeners, h'.filters.trans h.filters, h'.self, h'.subject.trans h.subject,
    fun j z hj hz hl => h'.others j z hj (h.others j z hj hz hl) (by rw [h.subject]; exact hl)⟩

/-- A downsampler changes its state and publishes something. -/
theorem Can.worked (C : Can F sent s0 s) {i : Nat} {y : DComp d.fo} (hy : s.downs[i]? = some y) {c : Group (DState d.fo)} (hc : c.subs = y.inp.subs) (ps : List LPub) :
    Worked s (({ s with downs := s.downs.set i { y with inp := c } } : State d).publish (outOn y.out ps)) i y { y with inp := c } := by
  have hym := get_mem hy
  have hil := (List.getElem?_eq_some_iff.1 hy).1
  have hcadd : c.add (outOn y.out ps) = c := by
    have h1 := C.down_none hym hym (Nat.le_refl _) ps
    unfold Group.add at h1 ⊢
    have h2 := congrArg Group.subs h1
    dsimp only at h2
    rw [hc, h2, ← hc]
  refine ⟨rfl, C.down_filters hym ps, ?_, rfl, ?_⟩
  · unfold State.publish
    dsimp only
    rw [List.getElem?_map, List.getElem?_set_self hil]
    dsimp only [Option.map_some]
    rw [hcadd]
  · intro j z hj hz hl
    unfold State.publish
    dsimp only
    rw [List.getElem?_map, List.getElem?_set_ne (Ne.symm hj), hz]
    dsimp only [Option.map_some]
    rw [C.down_none hym (get_mem hz) hl]

/-- A downsampler receives everything. -/
theorem finish_down {i : Nat} (n : Nat) : ∀ {s : State d} {y : DComp d.fo}, Can F sent s0 s → s.downs[i]? = some y → y.inp.weight ≤ n →
    ∃ s' y', Can F sent s0 s' ∧ Worked s s' i y y' ∧ y'.inp.Empty := by
  induction n with
  | zero =>
    intro s y C hy hn
    exact ⟨s, y, C, .refl hy, Group.weight_zero (by omega)⟩
  | succ n ih =>
    intro s y C hy hn
    have hym := get_mem hy
    have hil := (List.getElem?_eq_some_iff.1 hy).1
    by_cases hw0 : y.inp.weight = 0
    · exact ⟨s, y, C, .refl hy, Group.weight_zero hw0⟩
    · by_cases hne : y.inp.members = []
      · exact ⟨s, y, C, .refl hy, (Group.nobody hne).1⟩
      obtain ⟨gok, q, k, hk, hrun⟩ := C.inv.downs y hym
      obtain ⟨hR0, hper⟩ := C.running.downs y hym
      rcases Group.front gok hR0 hne hw0 with ⟨c, hst, hlt, hR, hdr, -⟩ | ⟨g, w, k', m, hat, hjob⟩
      · have C' : Can F sent s0 { s with downs := s.downs.set i { y with inp := c } } := by
          refine C.step (.downIn s i y c hy hst) ⟨rfl, rfl, map_set_same _ _ hy hdr, rfl⟩ ⟨C.running.filters, all_set C.running.downs ⟨hR, hper⟩, C.running.writers⟩ ?_
          intro f
          obtain ⟨G, -⟩ := C.fine f
          exact ⟨G.sent, G.published, G.will, G.timely⟩
        have W : Worked s { s with downs := s.downs.set i { y with inp := c } } i y { y with inp := c } :=
          ⟨rfl, rfl, List.getElem?_set_self hil, rfl, fun j z hj hz _ => by
            show (s.downs.set i _)[j]? = _
            rw [List.getElem?_set_ne (Ne.symm hj), hz]⟩
        obtain ⟨s', y', C2, W2, e4⟩ := ih C' W.self (by show c.weight ≤ n; omega)
        exact ⟨s', y', C2, W.trans W2, e4⟩
      · have hkk : k' = k := by
          have := hat.mem
          unfold Group.workers at this
          rw [hk] at this
          simpa using this
        subst hkk
        let e : DEvent := ⟨.msg m (fun _ => 0), 0, idOrder, fun _ => false⟩
        obtain ⟨w', hstep⟩ := down_ok hper hrun e
        obtain ⟨c, htake, hlt, hR, hsub, -⟩ := Group.take_at (⟨w', k'.evs ++ [e]⟩ : DState d.fo) gok hR0 hat hjob
        have hst := Step.downTake s i y m c (fun _ => 0) 0 idOrder (fun _ => false) k' w' hy hstep htake
        have hrun' : ({ s with downs := s.downs.set i { y with inp := c } } : State d).Running :=
          ⟨C.running.filters, all_set C.running.downs ⟨hR, hper⟩, C.running.writers⟩
        have hL : SameLost s ({ s with downs := s.downs.set i { y with inp := c } } : State d) :=
          ⟨rfl, rfl, map_set_same _ _ hy (by dsimp only; unfold Group.dropped; rw [hsub]), rfl⟩
        have C' := C.step hst (hL.publish _) (hrun'.publish _) (by
          intro f
          obtain ⟨G, -⟩ := C.fine f
          refine State.Fine.publish ?_ _
          exact ⟨G.sent, G.published, G.will, G.timely⟩)
        have W := C.worked hy hsub (w'.pubs.drop k'.w.pubs.length)
        obtain ⟨s', y', C2, W2, e4⟩ := ih C' W.self (by show c.weight ≤ n; omega)
        exact ⟨s', y', C2, W.trans W2, e4⟩

theorem SameSetup.down {s1 s2 : State d} (h1 : SameSetup s s1) (h2 : SameSetup s s2) {j : Nat} {z : DComp d.fo} (hz : s2.downs[j]? = some z) :
    ∃ z1, s1.downs[j]? = some z1 ∧ z1.subject = z.subject := by
  have := congrArg (fun l => l[j]?) (h1.downs.trans h2.downs.symm)
  rw [List.getElem?_map, List.getElem?_map, hz] at this
  cases h : s1.downs[j]? with
  | none => rw [h] at this; cases this
  | some z1 =>
    rw [h] at this
    simp only [Option.map_some, Option.some.injEq, Prod.mk.injEq] at this
    exact ⟨z1, rfl, this.1⟩

theorem le_sum_mem {α : Type u} (f : α → Nat) {l : List α} {a : α} (h : a ∈ l) : f a ≤ (l.map f).sum := by
  induction l with
  | nil => cases h
  | cons b l ih =>
    rw [List.map_cons, List.sum_cons]
    rcases List.mem_cons.1 h with rfl | h
    · omega
    · have := ih h; omega

/-- What each downsampler can be brought to, all of them can be brought to: those with the shorter subjects first. -/
theorem all_levels {P : DComp d.fo → Prop} (H : ∀ {s : State d} {i : Nat} {y : DComp d.fo}, Can F sent s0 s → s.downs[i]? = some y →
      ∃ s' y', Can F sent s0 s' ∧ Worked s s' i y y' ∧ P y') (C : Can F sent s0 s) :
    ∃ s', Can F sent s0 s' ∧ s'.listeners = s.listeners ∧ s'.filters = s.filters ∧ ∀ y ∈ s'.downs, P y := by
  have key : ∀ L n : Nat, ∃ s', Can F sent s0 s' ∧ s'.listeners = s.listeners ∧ s'.filters = s.filters ∧
      ∀ (j : Nat) (z : DComp d.fo), s'.downs[j]? = some z → (z.subject.length < L ∨ (z.subject.length = L ∧ j < n)) → P z := by
    intro L
    induction L with
    | zero =>
      intro n
      induction n with
      | zero => exact ⟨s, C, rfl, rfl, fun j z _ h => by omega⟩
      | succ n ih =>
        obtain ⟨s1, C1, a1, a2, a3⟩ := ih
        cases hx : s1.downs[n]? with
        | none =>
          refine ⟨s1, C1, a1, a2, fun j z hz h => ?_⟩
          have : j ≠ n := fun e => by rw [e, hx] at hz; cases hz
          exact a3 j z hz (by omega)
        | some y =>
          by_cases hl : y.subject.length = 0
          · obtain ⟨s2, y', C2, W, hP⟩ := H C1 hx
            refine ⟨s2, C2, W.listeners.trans a1, W.filters.trans a2, fun j z hz h => ?_⟩
            by_cases hj : j = n
            · subst hj
              rw [W.self] at hz
              injection hz with hz
              subst hz
              exact hP
            · obtain ⟨z1, hz1, e⟩ := C1.same.down C2.same hz
              have := W.others j z1 hj hz1 (by rw [e]; omega)
              rw [this] at hz
              injection hz with hz
              subst hz
              exact a3 j z1 hz1 (by omega)
          · refine ⟨s1, C1, a1, a2, fun j z hz h => ?_⟩
            refine a3 j z hz ?_
            by_cases e : j = n
            · rw [e, hx] at hz
              injection hz with hz
              subst hz
              omega
            · omega
    | succ L ihL =>
      intro n
      induction n with
      | zero =>
        obtain ⟨s1, C1, a1, a2, a3⟩ := ihL s0.downs.length
        refine ⟨s1, C1, a1, a2, fun j z hz h => a3 j z hz ?_⟩
        have e := congrArg List.length C1.same.downs
        rw [List.length_map, List.length_map] at e
        have := (List.getElem?_eq_some_iff.1 hz).1
        omega
      | succ n ih =>
        obtain ⟨s1, C1, a1, a2, a3⟩ := ih
        cases hx : s1.downs[n]? with
        | none =>
          refine ⟨s1, C1, a1, a2, fun j z hz h => ?_⟩
          have : j ≠ n := fun e => by rw [e, hx] at hz; cases hz
          exact a3 j z hz (by omega)
        | some y =>
          by_cases hl : y.subject.length = L + 1
          · obtain ⟨s2, y', C2, W, hP⟩ := H C1 hx
            refine ⟨s2, C2, W.listeners.trans a1, W.filters.trans a2, fun j z hz h => ?_⟩
            by_cases hj : j = n
            · subst hj
              rw [W.self] at hz
              injection hz with hz
              subst hz
              exact hP
            · obtain ⟨z1, hz1, e⟩ := C1.same.down C2.same hz
              have := W.others j z1 hj hz1 (by rw [e]; omega)
              rw [this] at hz
              injection hz with hz
              subst hz
              exact a3 j z1 hz1 (by omega)
          · refine ⟨s1, C1, a1, a2, fun j z hz h => ?_⟩
            refine a3 j z hz ?_
            by_cases e : j = n
            · rw [e, hx] at hz
              injection hz with hz
              subst hz
              omega
            · omega
  obtain ⟨s', C', a1, a2, a3⟩ := key ((s0.downs.map fun y => y.subject.length).sum + 1) 0
  refine ⟨s', C', a1, a2, fun y hy => ?_⟩
  obtain ⟨j, hj⟩ := List.getElem?_of_mem hy
  obtain ⟨z, hz, e⟩ := (SameSetup.refl s0).down C'.same hj
  have := le_sum_mem (fun y : DComp d.fo => y.subject.length) (get_mem hz)
  rw [e] at this
  exact a3 j y hj (by omega)

/-- All downsamplers receive everything. -/
theorem finish_downs (C : Can F sent s0 s) :
    ∃ s', Can F sent s0 s' ∧ s'.listeners = s.listeners ∧ s'.filters = s.filters ∧ ∀ y ∈ s'.downs, y.inp.Empty :=
  all_levels (fun C hy => finish_down _ C hy (Nat.le_refl _)) C

end Spout.Deploy
