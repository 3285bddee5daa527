import Verif.Props.DownsamplerOnTime

/-! # C124: the worker's own timer keeps it in time -/

namespace Spout
open Spec

/-! ## Specification -/

/-- The worker sets its timer at most `d1` after it has started or last looked for output, with the time that `UntilNext` tells it then; and all of the iteration that follows - the message, if one comes, and the next look for output - happens less than `d2` after the timer
fires. -/
def TimerKept (S : Sorter) (fo : FloatOps) (p now0 d1 d2 : Int) (evs : List DEvent) : Prop :=
  ∀ (before : List DEvent) (ev : DEvent) (after : List DEvent) (w : DWorker fo), evs = before ++ ev :: after → DWorker.run S (DWorker.new fo p now0) before = .ok w →
    ∃ u, lastLook now0 (before.flatMap evOps) ≤ u ∧ u ≤ lastLook now0 (before.flatMap evOps) + d1 ∧ ∀ o ∈ evOps ev, AOp.now o < u + w.a.untilNext u + d2

/-! ## Proofs -/

theorem attentive_lines {p last : Int} : ∀ (ops : List AOp) (now : Int) (ord : MapOrder), (∀ o ∈ ops, ∃ c l, o = .line c l) →
    (∀ o ∈ ops ++ [.tick now ord], AOp.now o < startOf p last + 2 * p) → Attentive p last (ops ++ [.tick now ord])
  | [], now, ord, _, h => ⟨h (.tick now ord) (by simp), trivial⟩
  | o :: ops, now, ord, hl, h => by
    obtain ⟨c, l, rfl⟩ := hl o List.mem_cons_self
    exact ⟨h (.line c l) (by simp), attentive_lines ops now ord (fun o ho => hl o (List.mem_cons_of_mem _ ho)) fun o ho => h o (List.mem_cons_of_mem _ ho)⟩

theorem attentive_append {p : Int} (a : List AOp) : ∀ {b : List AOp} {last : Int}, Attentive p last a → Attentive p (lastLook last a) b → Attentive p last (a ++ b) := by
  induction a with
  | nil => intro _ _ _ h; exact h
  | cons o a ih => intro b last h1 h2; cases o <;> exact ⟨h1.1, ih h1.2 h2⟩

theorem attentive_ev {p last : Int} (ev : DEvent) (h : ∀ o ∈ evOps ev, AOp.now o < startOf p last + 2 * p) : Attentive p last (evOps ev) := by
  unfold evOps at h ⊢
  refine attentive_lines _ _ _ ?_ h
  intro o ho
  cases hi : ev.input with
  | timeout => rw [hi] at ho; cases ho
  | msg d clk =>
    rw [hi] at ho
    obtain ⟨x, -, rfl⟩ := List.mem_map.1 ho
    exact ⟨_, _, rfl⟩

/-- **C124 (the timer).** A worker that sets its timer with `UntilNext` soon after it has looked for output, and is woken soon after the timer fires - together less than a period late - is never held up beyond the window following that in which it last looked for
output, whatever messages come and whenever. -/
theorem C124_timer (S : Sorter) (fo : FloatOps) (p now0 d1 d2 : Int) (hp : 0 < p) (h1 : 0 ≤ d1) (hd : d1 + d2 ≤ p) (evs : List DEvent)
    (hs : Steady now0 (evs.flatMap evOps)) (hk : TimerKept S fo p now0 d1 d2 evs) : Attentive p now0 (evs.flatMap evOps) := by
  obtain ⟨n, hn⟩ : ∃ n, evs.length = n := ⟨_, rfl⟩
  induction n generalizing evs with
  | zero => rw [List.eq_nil_of_length_eq_zero hn]; trivial
  | succ n ih =>
    rcases evs.eq_nil_or_concat with rfl | ⟨before, ev, rfl⟩
    · cases hn
    rw [List.concat_eq_append] at *
    rw [List.flatMap_append] at hs ⊢
    have hs' : Steady now0 (before.flatMap evOps) := by
      unfold Steady at hs ⊢
      rw [List.map_append, ← List.cons_append, List.pairwise_append] at hs
      exact hs.1
    have ih := ih before hs' (by
      intro b e a w he hr
      exact hk b e (a ++ [ev]) w (by rw [he]; simp) hr) (by simpa using hn)
    refine attentive_append _ ih ?_
    rw [List.flatMap_singleton]
    refine attentive_ev ev ?_
    intro o ho
    obtain ⟨w, e, got, em, outs, r1, rel, r3, r4, -⟩ := dstream fo S p now0 hp before
    have hops := zip_ops r3
    obtain ⟨a1, a2, -, -⟩ := attentive_legal hp r4 (by rw [hops]; exact hs') (by rw [hops]; exact ih)
    have a3 := (steady_legal r4 (by rw [hops]; exact hs')).1
    rw [hops] at a2 a3
    rw [startOf_eq a1 a3 a2]
    obtain ⟨u, u1, u2, u3⟩ := hk before ev [] w (by simp) r1
    have u4 := u3 o ho
    unfold Assigner.untilNext at u4
    rw [rel.currTs] at u4
    split at u4 <;> omega

/-- **C124.** With its timer kept and the clock never set back, the worker sends every window between one and two periods after its end, has sent every window whose end is at least a period before it last looked for output, and refuses no measurement that comes at
most a period late and not early. -/
theorem C124_in_time (S : Sorter) (fo : FloatOps) (p now0 d1 d2 : Int) (hp : 0 < p) (h1 : 0 ≤ d1) (hd : d1 + d2 ≤ p) (evs : List DEvent)
    (hs : Steady now0 (evs.flatMap evOps)) (hk : TimerKept S fo p now0 d1 d2 evs) :
    ∃ w e got em outs, DWorker.run S (DWorker.new fo p now0) evs = .ok w ∧ outs.length = (evs.flatMap evOps).length ∧
      Legal fo p now0 e got em ((evs.flatMap evOps).zip outs) ∧
      (w.pubs.map (·.data)).flatten = (em.map (·.text)).flatten ∧
      (∀ m ∈ em, m.wend + p ≤ m.now ∧ m.now < m.wend + 2 * p) ∧
      (∀ W, Aligned p W → now0 < W + p → W + p ≤ lastLook now0 (evs.flatMap evOps) → ∃ m ∈ em, m.wend = W) ∧
      (AllOnTime p (evs.flatMap evOps) → w.stats.invalidTimestamps = 0) := by
  have A := C124_timer S fo p now0 d1 d2 hp h1 hd evs hs hk
  obtain ⟨w, e, got, em, outs, a1, a2, a3, a4, a5, a6⟩ := C118_sent_in_time fo S p now0 hp evs hs A
  obtain ⟨w', _, _, _, _, b1, -, -, -, b5, -⟩ := C118_on_time_never_refused fo S p now0 hp evs hs A
  rw [a1] at b1
  injection b1 with b1
  subst b1
  exact ⟨w, e, got, em, outs, a1, a2, a3, a4, a5, a6, b5⟩

/-! ## The hypotheses are met, and needed -/

/-- Started at 115 with a period of 10, the worker is woken at 122 instead of 120 and at 131 instead of 130; a message came in between. -/
def tkEvents : List DEvent :=
  [⟨.msg b!"a f=4i 112\n" (fun _ => 115), 116, idOrder, fun _ => false⟩, ⟨.timeout, 122, idOrder, fun _ => false⟩, ⟨.timeout, 131, idOrder, fun _ => false⟩]

theorem tk_run (n : Nat) (t : Int) (h : (match DWorker.run insertionSorter (DWorker.new wholeFloats 10 115) (tkEvents.take n) with | .ok w => some w.a.curr.ts | .panic => none) = some t)
    {w : DWorker wholeFloats} (hr : DWorker.run insertionSorter (DWorker.new wholeFloats 10 115) (tkEvents.take n) = .ok w) : w.a.curr.ts = t := by
  rw [hr] at h
  injection h

theorem tk_kept : TimerKept insertionSorter wholeFloats 10 115 1 5 tkEvents := by
  intro before ev after w he hr
  have h4 : before = tkEvents.take before.length := by rw [he, List.take_left]
  have hev : tkEvents[before.length]? = some ev := by rw [he]; simp
  have hlen : before.length < 3 := by
    have := congrArg List.length he
    simp [tkEvents] at this
    omega
  rw [h4] at hr
  rw [h4]
  generalize before.length = n at hr hev hlen
  clear h4 he
  have hcases : n = 0 ∨ n = 1 ∨ n = 2 := by omega
  rcases hcases with rfl | rfl | rfl
  · refine ⟨115, by decide, by decide, ?_⟩
    injection hev with hev
    subst hev
    unfold Assigner.untilNext
    rw [tk_run 0 120 (by decide +kernel) hr]
    intro o ho
    have ho : o ∈ ([.line 115 b!"a f=4i 112", .line 115 [], .tick 116 idOrder] : List AOp) := ho
    have : o = .line 115 b!"a f=4i 112" ∨ o = .line 115 [] ∨ o = .tick 116 idOrder := by simpa using ho
    rcases this with rfl | rfl | rfl <;> decide
  · refine ⟨117, by decide, by decide, ?_⟩
    injection hev with hev
    subst hev
    unfold Assigner.untilNext
    rw [tk_run 1 120 (by decide +kernel) hr]
    intro o ho
    have : o = .tick 122 idOrder := by simpa [evOps] using ho
    subst this
    decide
  · refine ⟨122, by decide, by decide, ?_⟩
    injection hev with hev
    subst hev
    unfold Assigner.untilNext
    rw [tk_run 2 130 (by decide +kernel) hr]
    intro o ho
    have : o = .tick 131 idOrder := by simpa [evOps] using ho
    subst this
    decide

example : TimerKept insertionSorter wholeFloats 10 115 1 5 tkEvents ∧ Steady 115 (tkEvents.flatMap evOps) ∧ (1 + 5 : Int) ≤ 10 := by
  refine ⟨tk_kept, ?_, by decide⟩
  have e : tkEvents.flatMap evOps = [.line 115 b!"a f=4i 112", .line 115 [], .tick 116 idOrder, .tick 122 idOrder, .tick 131 idOrder] := rfl
  rw [e]
  unfold Steady
  simp [AOp.now]

/-- The row of the window that ended at 120 is sent at 131, not later than at 140. -/
example : (match DWorker.run insertionSorter (DWorker.new wholeFloats 10 115) tkEvents with
    | .ok w => some (w.pubs, w.stats)
    | .panic => none) = some ([⟨b!"a f=4i 120\n", false⟩], ⟨1, 1, 0, 0, 0⟩) := by decide +kernel

end Spout
