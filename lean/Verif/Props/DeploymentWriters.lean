import Verif.Props.DeploymentDowns

/-! # The writers of a deployment can finish (used by C95) -/

set_option linter.unusedSimpArgs false

namespace Spout.Deploy
open Spout Spout.Listener Spout.Pool Spout.Spec Spout.Delivery

universe u

variable {d : Setup} {s0 s s' : State d} {F : Prop} {sent : List (List Bytes)}

/-- The `i`-th writers are now in the state `c`. -/
abbrev State.withWriter (s : State d) (i : Nat) (x : WComp) (c : Group WSys) : State d :=
  { s with writers := s.writers.set i { x with inp := c } }

theorem Can.writer {i : Nat} {x : WComp} {c : Group WSys} (C : Can F sent s0 s) (hx : s.writers[i]? = some x) (h : Step d s (s.withWriter i x c))
    (R : c.Running) (hd : c.dropped = x.inp.dropped) (hk : ∀ k ∈ c.live, k.stop = false) : Can F sent s0 (s.withWriter i x c) := by
  refine C.step h ⟨rfl, rfl, rfl, map_set_same _ _ hx hd⟩ ⟨C.running.filters, C.running.downs, all_set C.running.writers ⟨R, (C.running.writers x (get_mem hx)).2.1, hk⟩⟩ ?_
  intro f
  obtain ⟨G, -⟩ := C.fine f
  exact ⟨G.sent, G.published, G.will, G.timely⟩

theorem withWriter_get {i : Nat} {x : WComp} {c : Group WSys} (hx : s.writers[i]? = some x) :
    (s.withWriter i x c).writers[i]? = some { x with inp := c } := List.getElem?_set_self (List.getElem?_eq_some_iff.1 hx).1

theorem withWriter_twice {i : Nat} {x : WComp} {c c' : Group WSys} : (s.withWriter i x c).withWriter i { x with inp := c } c' = s.withWriter i x c' := by
  show ({ s with writers := (s.writers.set i _).set i _ } : State d) = _
  rw [List.set_set]

theorem withWriter_same {i : Nat} {x : WComp} (hx : s.writers[i]? = some x) : s.withWriter i x x.inp = s := by
  show ({ s with writers := s.writers.set i x } : State d) = _
  rw [set_same hx]

/-- A worker makes steps of its own. -/
theorem writer_path {i g w : Nat} {x : WComp} {k k' : WSys} (C : Can F sent s0 s) (hx : s.writers[i]? = some x) (hat : x.inp.At g w k)
    (hp : WPath x.conf k k') : ∃ c, Can F sent s0 (s.withWriter i x c) ∧ c.At g w k' ∧ (∀ m, x.inp.Job g m → c.Job g m) ∧
      c.weight = x.inp.weight ∧ ∀ f, c.count f + f k = x.inp.count f + f k' := by
  induction hp with
  | refl => exact ⟨x.inp, by rw [withWriter_same hx]; exact C, hat, fun _ h => h, rfl, fun _ => rfl⟩
  | @step a b hab hst hr ht ih =>
    obtain ⟨c1, C1, h1, h2, h3, h4⟩ := ih
    have hx1 := withWriter_get (c := c1) hx
    have hR := C1.running.writers _ (get_mem hx1)
    obtain ⟨c, hwork, g1, g2, g3, g4, g5, g6⟩ := Group.work_at b hR.1 h1
    have := Can.writer C1 hx1 (.writer _ i { x with inp := c1 } c a b hx1 hst hr hwork) g4 (by unfold Group.dropped; rw [g5])
      (hwork.live _ hR.2.2 (ht.trans (hR.2.2 a h1.live)))
    rw [withWriter_twice] at this
    refine ⟨c, this, g1, fun m hm => g2 m (h2 m hm), g3.trans h3, fun f => ?_⟩
    have e1 := h4 f
    have e2 : c.count f + f a = c1.count f + f b := g6 f
    omega

/-- The workers receive everything. -/
theorem writer_receives {i : Nat} (n : Nat) : ∀ {s : State d} {x : WComp}, Can F sent s0 s → s.writers[i]? = some x → x.inp.weight ≤ n →
    ∃ c, Can F sent s0 (s.withWriter i x c) ∧ (c.weight = 0 ∨ c.members = []) := by
  induction n with
  | zero =>
    intro s x C hx hn
    exact ⟨x.inp, by rw [withWriter_same hx]; exact C, Or.inl (by omega)⟩
  | succ n ih =>
    intro s x C hx hn
    by_cases hw0 : x.inp.weight = 0
    · exact ⟨x.inp, by rw [withWriter_same hx]; exact C, Or.inl hw0⟩
    · by_cases hne : x.inp.members = []
      · exact ⟨x.inp, by rw [withWriter_same hx]; exact C, Or.inr hne⟩
      obtain ⟨gok, hruns⟩ := C.inv.writers x (get_mem hx)
      obtain ⟨hR0, hsize, hstops⟩ := C.running.writers x (get_mem hx)
      rcases Group.front gok hR0 hne hw0 with ⟨c, hst, hlt, hR, hdr, -⟩ | ⟨g, w, k, m, hat, hjob⟩
      · have C' := C.writer hx (.writerIn s i x c hx hst) hR hdr (by rw [Group.step_live hst]; exact hstops)
        obtain ⟨c', C2, h2⟩ := ih C' (withWriter_get hx) (by show c.weight ≤ n; omega)
        rw [withWriter_twice] at C2
        exact ⟨c', C2, h2⟩
      · obtain ⟨k1, u, p1, hph⟩ := settle k (hruns k hat.mem) (hstops k hat.live) hsize
        obtain ⟨c1, C1, hat1, hj1, hw1, -⟩ := writer_path C hx hat p1
        have hx1 := withWriter_get (c := c1) hx
        obtain ⟨gok1, hruns1⟩ := C1.inv.writers _ (get_mem hx1)
        obtain ⟨hR1, -, hstops1⟩ := C1.running.writers _ (get_mem hx1)
        obtain ⟨b, hb, -⟩ := C36_rules_select_lines x.conf.rules k1.batch (hruns1 k1 hat1.mem).binv.wf m k1.now
        obtain ⟨k2, hst, hh, hstop⟩ : ∃ k2, WStep x.conf k1 k2 ∧ k2.hist = k1.hist ++ [.recv m k1.now] ∧ k2.stop = k1.stop :=
          ⟨_, .recv k1 u m b hph hb, rfl, rfl⟩
        obtain ⟨c2, htake, hlt, hR2, hsub, -⟩ := Group.take_at k2 gok1 hR1 hat1 (hj1 m hjob)
        have C2 := C1.writer hx1 (.writerTake _ i { x with inp := c1 } m c2 k1 k2 hx1 hst hh htake) hR2 (by unfold Group.dropped; rw [hsub])
          (htake.live _ hstops1 (hstop.trans (hstops1 k1 hat1.live)))
        rw [withWriter_twice] at C2
        obtain ⟨c', C3, h3⟩ := ih C2 (withWriter_get hx) (by
          show c2.weight ≤ n
          have : c2.weight < c1.weight := hlt
          omega)
        rw [withWriter_twice] at C3
        exact ⟨c', C3, h3⟩

open Classical in
/-- Whether a worker has something left to do. -/
noncomputable def restless (k : WSys) : Nat := if Rest k then 0 else 1

/-- The workers finish. -/
theorem writer_rests {i : Nat} (n : Nat) : ∀ {s : State d} {x : WComp}, Can F sent s0 s → s.writers[i]? = some x → x.inp.weight = 0 →
    x.inp.count restless ≤ n → ∃ c, Can F sent s0 (s.withWriter i x c) ∧ c.weight = 0 ∧ c.count restless = 0 := by
  induction n with
  | zero =>
    intro s x C hx hw hn
    exact ⟨x.inp, by rw [withWriter_same hx]; exact C, hw, by omega⟩
  | succ n ih =>
    intro s x C hx hw hn
    by_cases hc0 : x.inp.count restless = 0
    · exact ⟨x.inp, by rw [withWriter_same hx]; exact C, hw, hc0⟩
    · obtain ⟨gok, hruns⟩ := C.inv.writers x (get_mem hx)
      obtain ⟨hR0, hsize, hstops⟩ := C.running.writers x (get_mem hx)
      obtain ⟨g, w, k, hat, hk⟩ := Group.count_pos (f := restless) (c := x.inp) (by omega)
      obtain ⟨k1, u, p1, -, hrest⟩ := finish_all k (hruns k hat.mem) (hstops k hat.live) hsize
      obtain ⟨c1, C1, -, -, hw1, hcount⟩ := writer_path C hx hat p1
      obtain ⟨c', C2, h2, h3⟩ := ih C1 (withWriter_get hx) (hw1.trans hw) (by
        show c1.count restless ≤ n
        have := hcount restless
        have h1 : restless k1 = 0 := by unfold restless; rw [if_pos hrest]
        omega)
      rw [withWriter_twice] at C2
      exact ⟨c', C2, h2, h3⟩

/-- All writers finish. -/
theorem finish_writers (C : Can F sent s0 s) (n : Nat) :
    ∃ s', Can F sent s0 s' ∧ s'.listeners = s.listeners ∧ s'.filters = s.filters ∧ s'.downs = s.downs ∧
      ∀ j < n, ∀ x, s'.writers[j]? = some x → x.inp.Empty ∧ ∀ k ∈ x.inp.live, Rest k := by
  induction n with
  | zero => exact ⟨s, C, rfl, rfl, rfl, fun j hj => by omega⟩
  | succ n ih =>
    obtain ⟨s1, C1, a1, a2, a3, h1⟩ := ih
    cases hx : s1.writers[n]? with
    | none =>
      refine ⟨s1, C1, a1, a2, a3, fun j hj y hy => ?_⟩
      by_cases hjn : j = n
      · subst hjn; rw [hx] at hy; cases hy
      · exact h1 j (by omega) y hy
    | some x =>
      obtain ⟨c1, C2, h2 | h2⟩ := writer_receives _ C1 hx (Nat.le_refl _)
      case inr =>
        refine ⟨_, C2, a1, a2, a3, fun j hj y hy => ?_⟩
        by_cases hjn : n = j
        · subst hjn
          rw [withWriter_get hx] at hy
          injection hy with hy
          subst hy
          obtain ⟨e1, e2⟩ := Group.nobody h2
          exact ⟨e1, fun k hk => by rw [show (_ : WComp).inp.live = [] from e2] at hk; cases hk⟩
        · rw [show (s1.withWriter n x c1).writers = s1.writers.set n { x with inp := c1 } from rfl, List.getElem?_set_ne hjn] at hy
          exact h1 j (by omega) y hy
      obtain ⟨c2, C3, h3, h4⟩ := writer_rests _ C2 (withWriter_get hx) h2 (Nat.le_refl _)
      rw [withWriter_twice] at C3
      refine ⟨_, C3, a1, a2, a3, fun j hj y hy => ?_⟩
      by_cases hjn : n = j
      · subst hjn
        rw [withWriter_get hx] at hy
        injection hy with hy
        subst hy
        refine ⟨Group.weight_zero h3, fun k hk => ?_⟩
        have := Group.count_zero h4 k hk
        unfold restless at this
        exact Classical.byContradiction fun hn => by rw [if_neg hn] at this; cases this
      · rw [show (s1.withWriter n x c2).writers = s1.writers.set n { x with inp := c2 } from rfl, List.getElem?_set_ne hjn] at hy
        exact h1 j (by omega) y hy

end Spout.Deploy
