import Verif.Lemmas.Windows
import Verif.Props.DownsamplerBucket

set_option linter.unusedSimpArgs false

/-! # The windows of the downsampler (C24–C27) -/

namespace Spout
open Spec

/-- **C24–C27 (refinement).** Every history of the code - any period, start time, lines, clock
readings and map orders - is a legal history of the specified downsampler. -/
theorem C24_code_refines_spec (fo : FloatOps) (S : Sorter) (p now0 : Int) (hp : 0 < p) (ops : List AOp) :
    ∃ a outs e got em, aRun S (Assigner.new fo p now0) ops = .ok (a, outs) ∧ outs.length = ops.length ∧
      Legal fo p now0 e got em (ops.zip outs) := by
  obtain ⟨e0, h1, h2, h3⟩ := wrel_new fo p now0 hp
  obtain ⟨a, outs, e, got, em, g1, g2, -, g4⟩ :=
    aRun_legal hp S now0 ops _ e0 [] [] [] h3 (.start e0 h3.aligned h1 h2)
  exact ⟨a, outs, e, got, em, g1, g2, by simpa using g4⟩

/-- `Update` on a message is the lines of the message one after the other. -/
theorem C24_update_is_lines (fo : FloatOps) (S : Sorter) (a a' : Assigner fo) (clk : Nat → Int) (text : Bytes)
    (outs : List AOut)
    (h : aRun S a ((splitNL text).zipIdx.map fun x => .line (clk x.2) x.1) = .ok (a', outs)) :
    a.update clk text = .ok (a', outs.flatMap fun o => match o with | .errs es => es | .text _ => []) := by
  have key : ∀ (ls : List Bytes) (i : Nat) (a : Assigner fo),
      ∀ a' outs, aRun S a ((ls.zipIdx i).map fun x => .line (clk x.2) x.1) = .ok (a', outs) →
      Assigner.updateLines clk i a ls = .ok (a', outs.flatMap fun o => match o with | .errs es => es | .text _ => []) := by
    intro ls
    induction ls with
    | nil =>
      intro i a a' outs h
      simp only [List.zipIdx_nil, List.map_nil, aRun, Go.ok.injEq, Prod.mk.injEq] at h
      obtain ⟨rfl, rfl⟩ := h
      rfl
    | cons l ls ih =>
      intro i a a' outs h
      simp only [List.zipIdx_cons, List.map_cons, aRun] at h
      simp only [Assigner.updateLines]
      cases h1 : a.updateLine (clk i) l with
      | panic => rw [h1] at h; simp at h
      | ok r =>
        obtain ⟨a1, es⟩ := r
        rw [h1] at h
        simp only [Go.ok_bind] at h ⊢
        cases h2 : aRun S a1 (List.map (fun x => AOp.line (clk x.2) x.1) (ls.zipIdx (i + 1))) with
        | panic => rw [h2] at h; simp at h
        | ok r =>
          obtain ⟨a2, os⟩ := r
          rw [h2] at h
          simp only [Go.ok_bind, Go.pure_eq, Go.ok.injEq, Prod.mk.injEq] at h
          obtain ⟨rfl, rfl⟩ := h
          rw [ih _ _ _ _ h2]
          simp
  exact key _ 0 a a' outs h

/-! ## Facts about legal histories -/

/-- The texts emitted in a history. -/
def textsOf (h : List (AOp × AOut)) : List Bytes :=
  h.filterMap fun x => match x.2 with | .text t => some t | .errs _ => none

/-- Everything that a legal history implies. -/
structure Facts (fo : FloatOps) (p now0 E0 e : Int) (got : List Got) (em : List Emission)
    (h : List (AOp × AOut)) : Prop where
  aligned : Aligned p E0
  startLo : E0 ≤ now0
  startHi : now0 < E0 + p
  e_eq : e = E0 + em.length * p
  ends : ∀ (i : Nat) (m : Emission), em[i]? = some m → m.wend = E0 + i * p ∧ m.wend + p ≤ m.now ∧ WindowText fo p m.wend got m.text
  got_range : ∀ g ∈ got, E0 - p ≤ g.ts ∧ g.ts < e + 2 * p
  texts : (textsOf h).flatten = (em.map (·.text)).flatten

theorem textsOf_snoc_errs (h : List (AOp × AOut)) (o : AOp) (es : List DErr) :
    textsOf (h ++ [(o, .errs es)]) = textsOf h := by simp [textsOf]

theorem textsOf_snoc_text (h : List (AOp × AOut)) (o : AOp) (t : Bytes) :
    textsOf (h ++ [(o, .text t)]) = textsOf h ++ [t] := by simp [textsOf]

theorem legal_facts {fo : FloatOps} {p now0 e : Int} (hp : 0 < p) {got : List Got} {em : List Emission}
    {h : List (AOp × AOut)} (hl : Legal fo p now0 e got em h) : ∃ E0, Facts fo p now0 E0 e got em h := by
  induction hl with
  | start e h1 h2 h3 => exact ⟨e, h1, h2, h3, by simp, by simp, by simp, by simp [textsOf]⟩
  | empty _ ih =>
    obtain ⟨E0, f⟩ := ih
    exact ⟨E0, f.aligned, f.startLo, f.startHi, f.e_eq, f.ends, f.got_range, by rw [textsOf_snoc_errs]; exact f.texts⟩
  | old _ _ _ _ ih =>
    obtain ⟨E0, f⟩ := ih
    exact ⟨E0, f.aligned, f.startLo, f.startHi, f.e_eq, f.ends, f.got_range, by rw [textsOf_snoc_errs]; exact f.texts⟩
  | new _ _ _ _ ih =>
    obtain ⟨E0, f⟩ := ih
    exact ⟨E0, f.aligned, f.startLo, f.startHi, f.e_eq, f.ends, f.got_range, by rw [textsOf_snoc_errs]; exact f.texts⟩
  | @accept e got em h l now ts body errs _ _ _ h1 h2 _ ih =>
    obtain ⟨E0, f⟩ := ih
    have hpos : 0 ≤ (em.length : Int) * p := Int.mul_nonneg (by omega) (by omega)
    refine ⟨E0, f.aligned, f.startLo, f.startHi, f.e_eq, ?_, ?_, by rw [textsOf_snoc_errs]; exact f.texts⟩
    · intro i m hi
      obtain ⟨g1, g2, rows, g3, g4⟩ := f.ends i m hi
      refine ⟨g1, g2, rows, ?_, g4⟩
      have hlt : i < em.length := (List.getElem?_eq_some_iff.1 hi).1
      have hle : ((i : Int) + 1) * p ≤ em.length * p := Int.mul_le_mul_of_nonneg_right (by omega) (by omega)
      have he := f.e_eq
      rw [Int.add_mul] at hle
      rw [window_append_out p m.wend got ⟨ts, body, errs⟩ (by show ¬ (_ ≤ ts ∧ ts < _); omega)]
      exact g3
    · intro g hg
      rw [List.mem_append, List.mem_singleton] at hg
      rcases hg with hg | rfl
      · exact f.got_range g hg
      · have he := f.e_eq
        show E0 - p ≤ ts ∧ ts < _
        omega
  | early _ _ ih =>
    obtain ⟨E0, f⟩ := ih
    exact ⟨E0, f.aligned, f.startLo, f.startHi, f.e_eq, f.ends, f.got_range, by
      rw [textsOf_snoc_text, List.flatten_append, f.texts]; simp⟩
  | @emit e got em h now text _ _ h1 h2 ih =>
    obtain ⟨E0, f⟩ := ih
    refine ⟨E0, f.aligned, f.startLo, f.startHi, ?_, ?_, ?_, ?_⟩
    · have he := f.e_eq
      rw [List.length_append, List.length_singleton, Int.natCast_add, Int.add_mul]
      omega
    · intro i m hi
      by_cases hlt : i < em.length
      · rw [List.getElem?_append_left hlt] at hi
        exact f.ends i m hi
      · rw [List.getElem?_append_right (by omega)] at hi
        obtain ⟨hi0, hi⟩ := List.getElem?_eq_some_iff.1 hi
        simp only [List.length_singleton] at hi0
        have hii : i = em.length := by omega
        subst hii
        simp at hi
        subst hi
        exact ⟨f.e_eq, h1, h2⟩
    · intro g hg
      have := f.got_range g hg
      omega
    · rw [textsOf_snoc_text]; simp [f.texts]

/-- **C24.** At every moment: the windows emitted and the three tracked ones are `[E0 + (i-1)p, E0 + ip)`
for i = 0, 1, 2, …, aligned to the period, with the start time in window 1; and every line handed to
a window has its time in exactly one of them. -/
theorem C24_windows_tile (fo : FloatOps) (S : Sorter) (p now0 : Int) (hp : 0 < p) (ops : List AOp) :
    ∃ a outs e got em E0, aRun S (Assigner.new fo p now0) ops = .ok (a, outs) ∧
      Legal fo p now0 e got em (ops.zip outs) ∧
      Aligned p E0 ∧ E0 ≤ now0 ∧ now0 < E0 + p ∧ e = E0 + em.length * p ∧
      a.tmin = e - p ∧ a.prev.ts = e ∧ a.curr.ts = e + p ∧ a.next.ts = e + 2 * p ∧
      ∀ g ∈ got, ∃ i : Nat, i ≤ em.length + 2 ∧
        (E0 + i * p - p ≤ g.ts ∧ g.ts < E0 + i * p) ∧
        ∀ j : Nat, (E0 + j * p - p ≤ g.ts ∧ g.ts < E0 + j * p) → j = i := by
  obtain ⟨e0, h1, h2, h3⟩ := wrel_new fo p now0 hp
  obtain ⟨a, outs, e, got, em, g1, g2, g3, g4⟩ :=
    aRun_legal hp S now0 ops _ e0 [] [] [] h3 (.start e0 h3.aligned h1 h2)
  have g4 : Legal fo p now0 e got em (ops.zip outs) := by simpa using g4
  obtain ⟨E0, f⟩ := legal_facts hp g4
  refine ⟨a, outs, e, got, em, E0, g1, g4, f.aligned, f.startLo, f.startHi, f.e_eq, g3.tmin, g3.prevTs, g3.currTs,
    g3.nextTs, ?_⟩
  intro g hg
  have hr := f.got_range g hg
  have hd := Int.emod_add_mul_ediv (g.ts - (E0 - p)) p
  have hm0 := Int.emod_nonneg (g.ts - (E0 - p)) (show p ≠ 0 by omega)
  have hm1 := Int.emod_lt_of_pos (g.ts - (E0 - p)) hp
  have hq : 0 ≤ (g.ts - (E0 - p)) / p := Int.ediv_nonneg (by omega) (by omega)
  obtain ⟨i, hi⟩ := Int.eq_ofNat_of_zero_le hq
  rw [hi] at hd
  rw [Int.mul_comm] at hd
  have huniq : ∀ j : Nat, (E0 + j * p - p ≤ g.ts ∧ g.ts < E0 + j * p) → j = i := by
    intro j hj
    rcases Nat.lt_trichotomy j i with hlt | heq | hgt
    · have : ((j : Int) + 1) * p ≤ i * p := Int.mul_le_mul_of_nonneg_right (by omega) (by omega)
      rw [Int.add_mul] at this
      omega
    · exact heq
    · have : ((i : Int) + 1) * p ≤ j * p := Int.mul_le_mul_of_nonneg_right (by omega) (by omega)
      rw [Int.add_mul] at this
      omega
  refine ⟨i, ?_, ⟨by omega, by omega⟩, huniq⟩
  apply Classical.byContradiction
  intro hgt
  have : ((em.length : Int) + 3) * p ≤ i * p := Int.mul_le_mul_of_nonneg_right (by omega) (by omega)
  rw [Int.add_mul] at this
  have he := f.e_eq
  omega

/-- **C25.** After any history, a (non-empty) line gives a timestamp error iff its time - its own
timestamp, or the clock if it has none - is before the oldest tracked window or not before the end
of the newest; the error says which, and nothing is aggregated. -/
theorem C25_rejected_iff_outside (fo : FloatOps) (S : Sorter) (p now0 : Int) (hp : 0 < p) (ops : List AOp)
    (now : Int) (l : Bytes) (hl : l ≠ []) :
    ∃ a outs e got em, aRun S (Assigner.new fo p now0) ops = .ok (a, outs) ∧
      Legal fo p now0 e got em (ops.zip outs) ∧
      ∃ ts body es a', Stamped now l ts body ∧ a.updateLine now l = .ok (a', es) ∧
        ((∃ x ∈ es, x.isTimestamp = true) ↔ (ts < e - p ∨ e + 2 * p ≤ ts)) ∧
        (ts < e - p → es = [.tooOld] ∧ a' = a) ∧ (e + 2 * p ≤ ts → es = [.tooNew] ∧ a' = a) := by
  obtain ⟨e0, h1, h2, h3⟩ := wrel_new fo p now0 hp
  obtain ⟨a, outs, e, got, em, g1, g2, g3, g4⟩ :=
    aRun_legal hp S now0 ops _ e0 [] [] [] h3 (.start e0 h3.aligned h1 h2)
  have g4 : Legal fo p now0 e got em (ops.zip outs) := by simpa using g4
  refine ⟨a, outs, e, got, em, g1, g4, ?_⟩
  obtain ⟨ts, body, d1, d2⟩ := dsTimestamp_spec now l
  unfold Assigner.updateLine
  rw [if_neg (by have := List.length_pos_iff.2 hl; omega), d1, Go.ok_bind]
  simp only []
  by_cases c0 : ts < e - p
  · have : a.findBucket ts = .error .tooOld := by
      unfold Assigner.findBucket; rw [g3.tmin, if_pos c0]
    rw [this]
    refine ⟨ts, body, _, _, d2, rfl, ⟨fun _ => Or.inl c0, fun _ => ⟨.tooOld, by simp, rfl⟩⟩, fun _ => ⟨rfl, rfl⟩, ?_⟩
    intro h; omega
  by_cases c3 : e + 2 * p ≤ ts
  · have : a.findBucket ts = .error .tooNew := by
      unfold Assigner.findBucket
      rw [g3.tmin, if_neg c0, g3.prevTs, if_neg (by omega), g3.currTs, if_neg (by omega), g3.nextTs, if_neg (by omega)]
    rw [this]
    refine ⟨ts, body, _, _, d2, rfl, ⟨fun _ => Or.inr c3, fun _ => ⟨.tooNew, by simp, rfl⟩⟩, ?_, fun _ => ⟨rfl, rfl⟩⟩
    intro h; omega
  · obtain ⟨s, hs⟩ : ∃ s, a.findBucket ts = .ok s := by
      unfold Assigner.findBucket
      rw [g3.tmin, if_neg c0, g3.nextTs]
      split
      · exact ⟨_, rfl⟩
      · split
        · exact ⟨_, rfl⟩
        · rw [if_pos (by omega)]; exact ⟨_, rfl⟩
    rw [hs]
    have hadd : ∃ a' es, a.addTo s body = .ok (a', es) ∧ ∀ x ∈ es, x.isTimestamp = false := by
      unfold Assigner.addTo
      cases s
      · obtain ⟨⟨b', es⟩, hb⟩ := addLine_safe a.prev body
        exact ⟨_, es, by simp only [hb, Go.ok_bind]; rfl, DErr_addLine_nonTimestamp _ _ _ _ hb⟩
      · obtain ⟨⟨b', es⟩, hb⟩ := addLine_safe a.curr body
        exact ⟨_, es, by simp only [hb, Go.ok_bind]; rfl, DErr_addLine_nonTimestamp _ _ _ _ hb⟩
      · obtain ⟨⟨b', es⟩, hb⟩ := addLine_safe a.next body
        exact ⟨_, es, by simp only [hb, Go.ok_bind]; rfl, DErr_addLine_nonTimestamp _ _ _ _ hb⟩
    obtain ⟨a', es, ha1, ha2⟩ := hadd
    refine ⟨ts, body, es, a', d2, ha1, ⟨?_, ?_⟩, ?_, ?_⟩
    · rintro ⟨x, hx, hx2⟩; rw [ha2 x hx] at hx2; cases hx2
    · intro h; omega
    · intro h; omega
    · intro h; omega

/-- **C26.** In every history the windows are emitted in order, none skipped and none twice, each only when
the clock shows at least the end of the following window; and all emitted text is theirs. -/
theorem C26_emitted_in_order (fo : FloatOps) (S : Sorter) (p now0 : Int) (hp : 0 < p) (ops : List AOp) :
    ∃ a outs E0, aRun S (Assigner.new fo p now0) ops = .ok (a, outs) ∧ E0 ≤ now0 ∧ now0 < E0 + p ∧
      ∃ em : List Emission, (textsOf (ops.zip outs)).flatten = (em.map (·.text)).flatten ∧
        ∀ (i : Nat) (m : Emission), em[i]? = some m → m.wend = E0 + i * p ∧ m.wend + p ≤ m.now := by
  obtain ⟨a, outs, e, got, em, h1, -, h2⟩ := C24_code_refines_spec fo S p now0 hp ops
  obtain ⟨E0, f⟩ := legal_facts hp h2
  exact ⟨a, outs, E0, h1, f.startLo, f.startHi, em, f.texts, fun i m hi => ⟨(f.ends i m hi).1, (f.ends i m hi).2.1⟩⟩

/-- **C26.** A request for output emits the oldest window exactly when the clock has reached the end of
the following one, and then moves on by one window. -/
theorem C26_emitted_when_due (fo : FloatOps) (S : Sorter) (p now0 : Int) (hp : 0 < p) (ops : List AOp)
    (now : Int) (ord : MapOrder) :
    ∃ a outs e got em, aRun S (Assigner.new fo p now0) ops = .ok (a, outs) ∧
      Legal fo p now0 e got em (ops.zip outs) ∧
      (now < e + p → a.bytes S ord now = (a, [])) ∧
      (e + p ≤ now → WindowText fo p e got (a.bytes S ord now).2 ∧ (a.bytes S ord now).1.prev.ts = e + p) := by
  obtain ⟨e0, h1, h2, h3⟩ := wrel_new fo p now0 hp
  obtain ⟨a, outs, e, got, em, g1, g2, g3, g4⟩ :=
    aRun_legal hp S now0 ops _ e0 [] [] [] h3 (.start e0 h3.aligned h1 h2)
  have g4 : Legal fo p now0 e got em (ops.zip outs) := by simpa using g4
  refine ⟨a, outs, e, got, em, g1, g4, ?_, ?_⟩
  · intro h
    unfold Assigner.bytes
    rw [g3.currTs, if_pos h]
  · intro h
    have hn : ¬ now < a.curr.ts := by rw [g3.currTs]; omega
    unfold Assigner.bytes
    rw [if_neg hn]
    refine ⟨?_, g3.currTs⟩
    have := windowText_of_holds S ord p a.prev got (by rw [g3.prevTs]; exact g3.prevH)
    rwa [g3.prevTs] at this

/-- **C26.** The worker's timer: it is set so that it fires when the next window is due, not later. -/
theorem C26_timer (fo : FloatOps) (S : Sorter) (p now0 : Int) (hp : 0 < p) (ops : List AOp) (now : Int) :
    ∃ a outs e got em, aRun S (Assigner.new fo p now0) ops = .ok (a, outs) ∧
      Legal fo p now0 e got em (ops.zip outs) ∧ 0 ≤ a.untilNext now ∧
      (now ≤ e + p → now + a.untilNext now = e + p) ∧ (e + p ≤ now → a.untilNext now = 0) := by
  obtain ⟨e0, h1, h2, h3⟩ := wrel_new fo p now0 hp
  obtain ⟨a, outs, e, got, em, g1, g2, g3, g4⟩ :=
    aRun_legal hp S now0 ops _ e0 [] [] [] h3 (.start e0 h3.aligned h1 h2)
  have g4 : Legal fo p now0 e got em (ops.zip outs) := by simpa using g4
  refine ⟨a, outs, e, got, em, g1, g4, ?_⟩
  unfold Assigner.untilNext
  rw [g3.currTs]
  split
  · omega
  · omega

/-- **C27.** At the end of every history: the text emitted for a window is the aggregation of all the lines
handed to the downsampler so far, and in particular later, whose time is in that window; and the
three pending windows hold the aggregation of theirs. -/
theorem C27_lines_partitioned (fo : FloatOps) (S : Sorter) (p now0 : Int) (hp : 0 < p) (ops : List AOp) :
    ∃ a outs e got em, aRun S (Assigner.new fo p now0) ops = .ok (a, outs) ∧
      Legal fo p now0 e got em (ops.zip outs) ∧
      (∀ m ∈ em, WindowText fo p m.wend got m.text) ∧
      ∀ ord, WindowText fo p e got (a.prev.bytes S ord) ∧ WindowText fo p (e + p) got (a.curr.bytes S ord) ∧
        WindowText fo p (e + 2 * p) got (a.next.bytes S ord) := by
  obtain ⟨e0, h1, h2, h3⟩ := wrel_new fo p now0 hp
  obtain ⟨a, outs, e, got, em, g1, g2, g3, g4⟩ :=
    aRun_legal hp S now0 ops _ e0 [] [] [] h3 (.start e0 h3.aligned h1 h2)
  have g4 : Legal fo p now0 e got em (ops.zip outs) := by simpa using g4
  obtain ⟨E0, f⟩ := legal_facts hp g4
  refine ⟨a, outs, e, got, em, g1, g4, ?_, ?_⟩
  · intro m hm
    obtain ⟨i, hi⟩ := List.mem_iff_getElem?.1 hm
    exact (f.ends i m hi).2.2
  · intro ord
    refine ⟨?_, ?_, ?_⟩
    · have := windowText_of_holds S ord p a.prev got (by rw [g3.prevTs]; exact g3.prevH)
      rwa [g3.prevTs] at this
    · have := windowText_of_holds S ord p a.curr got (by rw [g3.currTs]; exact g3.currH)
      rwa [g3.currTs] at this
    · have := windowText_of_holds S ord p a.next got (by rw [g3.nextTs]; exact g3.nextH)
      rwa [g3.nextTs] at this

/-- A concrete history of period 10 (times since the epoch; the epoch is aligned): a line of the previous
window, one of the next, one too old, one too new, two emissions. -/
def exOps : List AOp :=
  [.line 15 b!"a f=1i 5", .line 15 b!"a f=3i 5", .line 15 b!"b g=t", .line 15 b!"a f=1i 25", .line 15 b!"a f=1i -1",
   .line 15 b!"a f=1i 30", .tick 19 idOrder, .tick 20 idOrder, .tick 21 idOrder, .line 21 b!"a f=1i 5", .tick 55 idOrder]

example : (match aRun insertionSorter (Assigner.new wholeFloats 10 15) exOps with
    | .ok (_, outs) => outs
    | .panic => []) =
    [.errs [], .errs [], .errs [], .errs [], .errs [.tooOld], .errs [.tooNew], .text [],
     .text b!"a f=2i 10\n", .text [], .errs [.tooOld], .text b!"b g=t 20\n"] := by decide +kernel

/-! ## C14: no input crashes the downsampler -/

/-- **C14.** No sequence of messages, in any state, makes the field parser or the aggregation panic. -/
theorem C14_downsampler_never_panics (fo : FloatOps) (S : Sorter) (p now0 : Int) (hp : 0 < p) (ops : List AOp) :
    Go.Safe (aRun S (Assigner.new fo p now0) ops) := by
  obtain ⟨a, outs, e, got, em, h, -⟩ := C24_code_refines_spec fo S p now0 hp ops
  exact ⟨_, h⟩

end Spout
