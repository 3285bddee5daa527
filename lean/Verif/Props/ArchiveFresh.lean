import Verif.Props.ArchiveChain
import Verif.Props.DeploymentOnTime
import Verif.Props.Freshness
import Verif.Props.Schema
import Verif.Props.FloatPlain
import Verif.Props.DownsamplerTimer

/-! # C123: how long a measurement takes to the archive

A measurement that reaches a downsampler in time is part of the summary of its window, and that summary is sent to InfluxDB within a bounded time. -/

namespace Spout.Delivery
open Spout Spout.Listener Spout.Spec Spout.Pool

/-! ## Specification -/

/-- A worker of a downsampler, started at `now0`, in whose history `evs` the clock was not set back, that was never held up beyond the window following that in which it last looked for output (for instance, never for longer than a period, `punctual_attentive`), and to which the measurements `pts` - and nothing else - came, at most a period late and not early.  No
message that it published ends within a line. -/
structure InTime (S : Sorter) (fo : FloatOps) (p now0 : Int) (evs : List DEvent) (pts : List Point) : Prop where
  steady : Steady now0 (evs.flatMap evOps)
  attentive : Attentive p now0 (evs.flatMap evOps)
  onTime : AllOnTime p (evs.flatMap evOps)
  lines : (messagesIn evs).flatMap (fun m => (splitNL m).filter (fun l => decide (l ≠ []))) = pts.map Point.bare
  uncut : ∀ w, DWorker.run S (DWorker.new fo p now0) evs = .ok w → ∀ m ∈ w.pubs, m.data.getLast? = some NL

/-- The end of the window of the time `t`. -/
def endOf (p t : Int) : Int := startOf p t + p

/-! ## Proofs -/

theorem lastLook_append (ops : List AOp) : ∀ (rest : List AOp) (last : Int), lastLook last (ops ++ rest) = lastLook (lastLook last ops) rest := by
  induction ops with
  | nil => intro rest last; rfl
  | cons o ops ih => intro rest last; cases o <;> exact ih _ _

theorem lastLook_lines (last : Int) : ∀ ops : List AOp, (∀ o ∈ ops, ∃ c l, o = .line c l) → lastLook last ops = last := by
  intro ops
  induction ops with
  | nil => intro _; rfl
  | cons o ops ih =>
    intro h
    obtain ⟨c, l, rfl⟩ := h o List.mem_cons_self
    exact ih fun o ho => h o (List.mem_cons_of_mem _ ho)

theorem lastLook_ev (last : Int) (e : DEvent) : lastLook last (evOps e) = e.now := by
  unfold evOps
  exact lastLook_tick

theorem attentive_prefix {p : Int} (a : List AOp) : ∀ {b : List AOp} {last : Int}, Attentive p last (a ++ b) → Attentive p last a := by
  induction a with
  | nil => intro _ _ _; trivial
  | cons o a ih => intro b last h; cases o <;> exact ⟨h.1, ih h.2⟩

/-- The window of a time before the end of an aligned window starts at the start of that window at the latest. -/
theorem startOf_le {p W t : Int} (hp : 0 < p) (hA : Aligned p W) (h : t < W + p) : startOf p t ≤ W := by
  apply Classical.byContradiction
  intro hn
  have hb := startOf_bounds hp t
  have : startOf p t = W := startOf_eq hA (by omega) h
  omega

/-- The first look for output at or after `X`. -/
theorem first_look (X : Int) : ∀ (evs : List DEvent) (last : Int), last < X → X ≤ lastLook last (evs.flatMap evOps) →
    ∃ before e after, evs = before ++ e :: after ∧ X ≤ e.now ∧ lastLook last (before.flatMap evOps) < X := by
  intro evs
  induction evs with
  | nil => intro last h1 h2; exact absurd h2 (Int.not_le.2 h1)
  | cons e evs ih =>
    intro last h1 h2
    by_cases he : X ≤ e.now
    · exact ⟨[], e, evs, rfl, he, h1⟩
    · rw [List.flatMap_cons, lastLook_append, lastLook_ev] at h2
      obtain ⟨before, x, after, a1, a2, a3⟩ := ih e.now (by omega) h2
      refine ⟨e :: before, x, after, by rw [a1]; rfl, a2, ?_⟩
      rw [List.flatMap_cons, lastLook_append, lastLook_ev]
      exact a3

/-- What was published stays published. -/
theorem step_pubs {fo : FloatOps} (S : Sorter) {w w' : DWorker fo} {e : DEvent} (h : w.step S e = .ok w') : w.pubs <+: w'.pubs := by
  unfold DWorker.step at h
  cases hr : w.receive e.input with
  | panic => rw [hr] at h; cases h
  | ok w1 =>
    rw [hr, Go.ok_bind] at h
    have h1 : w1.pubs = w.pubs := by
      unfold DWorker.receive at hr
      cases hi : e.input with
      | timeout => rw [hi] at hr; injection hr with hr; rw [hr]
      | msg d clk =>
        rw [hi] at hr
        simp only at hr
        cases hu : w.a.update clk d with
        | panic => rw [hu] at hr; cases hr
        | ok x =>
          rw [hu, Go.ok_bind] at hr
          injection hr with hr
          rw [← hr]
    unfold DWorker.emit at h
    simp only at h
    split at h
    · cases hc : splitAll (w1.a.bytes S e.ord e.now).2 maxNATSMsgSize with
      | panic => rw [hc] at h; cases h
      | ok cs =>
        rw [hc, Go.ok_bind] at h
        injection h with h
        rw [← h, ← h1]
        exact List.prefix_append _ _
    · injection h with h
      rw [← h, ← h1]

theorem run_pubs {fo : FloatOps} (S : Sorter) : ∀ (evs : List DEvent) (w w' : DWorker fo), DWorker.run S w evs = .ok w' → w.pubs <+: w'.pubs
  | [], w, w', h => by injection h with h; rw [h]
  | e :: evs, w, w', h => by
    rw [DWorker.run] at h
    cases hs : w.step S e with
    | panic => rw [hs] at h; simp at h
    | ok w1 =>
      rw [hs, Go.ok_bind] at h
      exact (step_pubs S hs).trans (run_pubs S evs w1 w' h)

theorem drun_append {fo : FloatOps} (S : Sorter) : ∀ (a b : List DEvent) (w w1 : DWorker fo), DWorker.run S w a = .ok w1 → DWorker.run S w (a ++ b) = DWorker.run S w1 b
  | [], b, w, w1, h => by injection h with h; rw [h]; rfl
  | e :: a, b, w, w1, h => by
    rw [DWorker.run] at h
    rw [List.cons_append, DWorker.run]
    cases hs : w.step S e with
    | panic => rw [hs] at h; simp at h
    | ok w2 =>
      rw [hs, Go.ok_bind] at h
      rw [Go.ok_bind]
      exact drun_append S a b w2 w1 h

theorem sameKinds_of {fo : FloatOps} {pts : List Point} (C : OneKind fo (pts.map (·.line))) : SameKinds pts := by
  intro p hp q hq hk f hf g hg hn
  have := C.kinds p.line (List.mem_map_of_mem hp) q.line (List.mem_map_of_mem hq) hk f hf g hg hn
  exact kind_quoted this

theorem rows_complete (t : Int) (rows : List Row) : rows.flatMap (Row.text t) = [] ∨ (rows.flatMap (Row.text t)).getLast? = some NL := by
  induction rows with
  | nil => exact Or.inl rfl
  | cons r rows ih =>
    right
    rw [List.flatMap_cons, List.getLast?_append]
    rcases ih with h | h
    · rw [h]; unfold Row.text; simp only [List.getLast?_append, List.getLast?_nil, List.getLast?_singleton]; rfl
    · rw [h]; rfl

theorem texts_complete {ts : List Bytes} (h : ∀ t ∈ ts, t = [] ∨ t.getLast? = some NL) : ts.flatten = [] ∨ ts.flatten.getLast? = some NL := by
  induction ts with
  | nil => exact Or.inl rfl
  | cons t ts ih =>
    rw [List.flatten_cons, List.getLast?_append]
    rcases ih fun t ht => h t (List.mem_cons_of_mem _ ht) with h' | h'
    · rw [h']
      rcases h t List.mem_cons_self with h | h
      · left; simp [h]
      · right; simpa using h
    · right; rw [h']; rfl

/-- In the run of a history in time, no error is counted and the windows handed out are the summaries. -/
theorem in_time_run {S : Sorter} {fo : FloatOps} {p now0 : Int} (hp : 0 < p) (hpl : PlainFloats fo) {evs : List DEvent} {pts : List Point} (T : InTime S fo p now0 evs pts)
    (hw : ∀ q ∈ pts, q.WF) (C : OneKind fo (pts.map (·.line))) {W : Int} (hA : Aligned p W) (hW : wrap64 W = W) (h1 : now0 < W + p) (h2 : W + p ≤ lastLook now0 (evs.flatMap evOps)) :
    ∃ w rows, DWorker.run S (DWorker.new fo p now0) evs = .ok w ∧ Summary fo (inWindow p W pts) rows ∧ ∀ r ∈ rows, ∃ m ∈ w.pubs, Point.text ⟨r, W⟩ ∈ linesOf m.data := by
  obtain ⟨w, e, got, em, outs, r1, -, r3, r4, r5, -, r7, r8, -, -⟩ := dstream fo S p now0 hp evs
  obtain ⟨w', -, -, -, -, k1, -, -, -, k5, -⟩ := C118_on_time_never_refused fo S p now0 hp evs T.steady T.attentive
  rw [r1] at k1
  injection k1 with k1
  subst k1
  have v1 := k5 T.onTime
  have v2 := C119_consistent_never_invalid fo S p now0 evs pts hw C (by
    intro m hm l hl hne
    have : l ∈ pts.map Point.bare := by
      rw [← T.lines]
      exact List.mem_flatMap.2 ⟨m, hm, List.mem_filter.2 ⟨hl, by simpa using hne⟩⟩
    obtain ⟨q, hq, rfl⟩ := List.mem_map.1 this
    exact ⟨q, hq, rfl⟩) r1
  have hops := zip_ops r3
  have herr : errsOf ((evs.flatMap evOps).zip outs) = [] := by
    cases hc : errsOf ((evs.flatMap evOps).zip outs) with
    | nil => rfl
    | cons x l =>
      rw [v1, hc] at r7
      rw [v2, hc] at r8
      have r7 := List.countP_eq_zero.1 r7.symm x (by simp)
      have r8 := List.countP_eq_zero.1 r8.symm x (by simp)
      simp at r7 r8
      exact absurd (r8 r7.1) r7.2
  have hgot := legal_points r4 herr pts hw (by rw [hops, opLines_evs]; exact T.lines)
  obtain ⟨E0, f⟩ := legal_facts hp r4
  obtain ⟨w', e', got', em', outs', s1, s2, s3, s4, -, s6⟩ := C118_sent_in_time fo S p now0 hp evs T.steady T.attentive
  -- the window was handed out
  obtain ⟨a1, a2, -, -⟩ := attentive_legal hp r4 (by rw [hops]; exact T.steady) (by rw [hops]; exact T.attentive)
  rw [hops] at a2
  have hE := f.aligned
  have hd : p ∣ W - E0 := by
    unfold Aligned at hA hE
    have : (W - E0) % p = 0 := by
      rw [show W - E0 = (W + zeroTimeOffset) - (E0 + zeroTimeOffset) by omega, Int.sub_emod, hA, hE]; simp
    exact Int.dvd_of_emod_eq_zero this
  obtain ⟨k, hk⟩ := hd
  have t1 := f.startLo
  have t2 := f.startHi
  have t3 := f.e_eq
  have hk0 : 0 ≤ k := by
    apply Classical.byContradiction
    intro hn
    have : p * k ≤ p * (-1) := Int.mul_le_mul_of_nonneg_left (by omega) (by omega)
    omega
  obtain ⟨i, rfl⟩ := Int.eq_ofNat_of_zero_le hk0
  rw [Int.mul_comm] at hk
  have hi : i < em.length := by
    apply Classical.byContradiction
    intro hn
    have : (em.length : Int) * p ≤ i * p := Int.mul_le_mul_of_nonneg_right (by omega) (by omega)
    omega
  have hg : em[i]? = some em[i] := List.getElem?_eq_getElem hi
  obtain ⟨g1, -, rows, g3, g4⟩ := f.ends i _ hg
  have gW : em[i].wend = W := by omega
  rw [gW, hgot, kept_points _ _ _ hw] at g3
  rw [gW] at g4
  have U := uniform_window (uniform_of hw (sameKinds_of C)) p W
  have hS := rows_summary g3
  refine ⟨w, rows.map (rowLine fo (inWindow p W pts)), r1, hS, ?_⟩
  -- its text is among the messages
  have hall : ∀ t ∈ em.map (·.text), t = [] ∨ t.getLast? = some NL := by
    intro t ht
    obtain ⟨m, hm, rfl⟩ := List.mem_map.1 ht
    obtain ⟨j, hj, rfl⟩ := List.mem_iff_getElem.1 hm
    obtain ⟨-, -, rows', -, g⟩ := f.ends j _ (List.getElem?_eq_getElem hj)
    rw [g]
    exact rows_complete _ _
  have hl1 : linesOf (w.pubs.map (·.data)).flatten = (em.map (·.text)).flatMap linesOf := by
    rw [r5, linesOf_flatten_complete _ hall]
  have hl2 : linesOf (w.pubs.map (·.data)).flatten = (w.pubs.map (·.data)).flatMap linesOf := by
    refine linesOf_flatten_complete _ ?_
    intro c hc
    obtain ⟨m, hm, rfl⟩ := List.mem_map.1 hc
    exact Or.inr (T.uncut w r1 m hm)
  have htext : em[i].text = ((rows.map (rowLine fo (inWindow p W pts))).map fun r => Point.text ⟨r, W⟩).flatten := by
    rw [g4, List.map_map, ← List.flatMap_def]
    apply flatMap_congr'
    intro r hr
    exact row_text g3 (fun l hl => (U.wf l hl).1) hW hr
  have hlines : linesOf em[i].text = (rows.map (rowLine fo (inWindow p W pts))).map fun r => Point.text ⟨r, W⟩ := by
    rw [htext]
    refine linesOf_lines _ ?_
    intro t ht
    obtain ⟨r, hr, rfl⟩ := List.mem_map.1 ht
    refine ⟨Point.bare ⟨r, W⟩, ?_, rfl⟩
    have h9 := (summary_wf hpl U hS r hr).2
    unfold Point.bare
    intro hm
    rcases List.mem_append.1 hm with hm | hm
    · exact h9 hm
    · rcases List.mem_cons.1 hm with hm | hm
      · cases hm
      · exact itoa_no' W NL (by decide) (by decide) hm
  intro r hr
  have : Point.text ⟨r, W⟩ ∈ (w.pubs.map (·.data)).flatMap linesOf := by
    rw [← hl2, hl1]
    refine List.mem_flatMap.2 ⟨em[i].text, List.mem_map_of_mem (List.getElem_mem hi), ?_⟩
    rw [hlines]
    exact List.mem_map.2 ⟨r, hr, rfl⟩
  obtain ⟨c, hc, hm⟩ := List.mem_flatMap.1 this
  obtain ⟨m, hm1, rfl⟩ := List.mem_map.1 hc
  exact ⟨m, hm1, hm⟩

/-- A part of a history in time is in time. -/
theorem in_time_prefix {S : Sorter} {fo : FloatOps} {p now0 : Int} (hp : 0 < p) {a b : List DEvent} {pts : List Point} (T : InTime S fo p now0 (a ++ b) pts) :
    ∃ p1 p2, pts = p1 ++ p2 ∧ InTime S fo p now0 a p1 ∧ opLines (b.flatMap evOps) = p2.map Point.bare := by
  have hl := T.lines
  unfold messagesIn at hl
  rw [List.flatMap_append, List.flatMap_append] at hl
  obtain ⟨p1, p2, e1, e2, e3⟩ := append_eq_map hl
  refine ⟨p1, p2, e1, ⟨?_, ?_, ?_, e2, ?_⟩, ?_⟩
  · have := T.steady
    unfold Steady at this ⊢
    rw [List.flatMap_append, List.map_append, ← List.cons_append, List.pairwise_append] at this
    exact this.1
  · have := T.attentive
    rw [List.flatMap_append] at this
    exact attentive_prefix _ this
  · intro now l ts body hm
    refine T.onTime now l ts body ?_
    rw [List.flatMap_append]
    exact List.mem_append_left _ hm
  · intro w hr m hm
    obtain ⟨w2, e, got, em, outs, r1, -⟩ := dstream fo S p now0 hp (a ++ b)
    have r2 := r1
    rw [drun_append S a b _ w hr] at r2
    exact T.uncut w2 r1 m ((run_pubs S b w w2 r2).subset hm)
  · rw [opLines_evs]
    exact e3

theorem opLines_mem {ops : List AOp} {l : Bytes} (h : l ∈ opLines ops) : ∃ c, AOp.line c l ∈ ops ∧ l ≠ [] := by
  unfold opLines at h
  obtain ⟨o, ho, h⟩ := List.mem_flatMap.1 h
  cases o with
  | tick => cases h
  | line c l' =>
    simp only at h
    split at h
    · cases h
    · rename_i hne
      rw [List.mem_singleton] at h
      subst h
      exact ⟨c, ho, hne⟩

/-- **C123 (the summary of a window is sent in time).** A downsampler whose clock is not set back, that is never held up beyond the window following that in which it last looked for output and gets measurements of one kind per field, at most a period late and not early, sends the summary of *all* the
measurements of a window - whatever comes later - less than two periods after the end of the window, in an iteration in which it has looked at the clock. -/
theorem C123_window {S : Sorter} {fo : FloatOps} {p now0 : Int} (hp : 0 < p) (hpl : PlainFloats fo) {evs : List DEvent} {pts : List Point} (T : InTime S fo p now0 evs pts)
    (hw : ∀ q ∈ pts, q.WF) (C : OneKind fo (pts.map (·.line))) {W : Int} (hA : Aligned p W) (hW : wrap64 W = W) (h1 : now0 < W + p) (h2 : W + p ≤ lastLook now0 (evs.flatMap evOps)) :
    ∃ before e after w rows, evs = before ++ e :: after ∧ W + p ≤ e.now ∧ e.now < W + 2 * p ∧ DWorker.run S (DWorker.new fo p now0) (before ++ [e]) = .ok w ∧
      Summary fo (inWindow p W pts) rows ∧ ∀ r ∈ rows, ∃ m ∈ w.pubs, Point.text ⟨r, W⟩ ∈ linesOf m.data := by
  obtain ⟨before, e, after, a1, a2, a3⟩ := first_look (W + p) evs now0 h1 h2
  have hsplit : evs = (before ++ [e]) ++ after := by rw [a1]; simp
  have T0 := T
  rw [hsplit] at T
  obtain ⟨p1, p2, e1, T1, e3⟩ := in_time_prefix hp T
  subst e1
  have hnow : lastLook now0 ((before ++ [e]).flatMap evOps) = e.now := by
    rw [List.flatMap_append, lastLook_append]
    simp only [List.flatMap_cons, List.flatMap_nil, List.append_nil]
    exact lastLook_ev _ _
  have hlt : e.now < W + 2 * p := by
    have := T1.attentive
    rw [List.flatMap_append] at this
    unfold evOps at this
    simp only [List.flatMap_cons, List.flatMap_nil, List.append_nil] at this
    rw [← List.append_assoc] at this
    have h9 := attentive_mid (post := []) this
    rw [lastLook_append, lastLook_lines] at h9
    · have h9 : e.now < startOf p (lastLook now0 (before.flatMap evOps)) + 2 * p := h9
      have := startOf_le hp hA a3
      omega
    · intro o ho
      cases hi : e.input with
      | timeout => rw [hi] at ho; cases ho
      | msg d clk =>
        rw [hi] at ho
        obtain ⟨x, -, rfl⟩ := List.mem_map.1 ho
        exact ⟨_, _, rfl⟩
  have C1 : OneKind fo (p1.map (·.line)) := by
    refine ⟨fun l hl => C.names l ?_, fun l hl m hm => C.kinds l ?_ m ?_⟩ <;> (rw [List.map_append]; exact List.mem_append_left _ (by assumption))
  obtain ⟨w, rows, b1, b2, b3⟩ := in_time_run hp hpl T1 (fun q hq => hw q (List.mem_append_left _ hq)) C1 hA hW h1 (by rw [hnow]; exact a2)
  refine ⟨before, e, after, w, rows, a1, a2, hlt, b1, ?_, b3⟩
  -- what comes later is not of this window
  have hlate : ∀ q ∈ p2, W ≤ q.ts := by
    intro q hq
    have hq' : q.bare ∈ opLines (after.flatMap evOps) := by rw [e3]; exact List.mem_map_of_mem hq
    obtain ⟨c, hc, hne⟩ := opLines_mem hq'
    have hqw := hw q (List.mem_append_right _ hq)
    have hst : Stamped c q.bare q.ts (q.bare.take (((q.line.text.length + 1 : Nat) : Int) - 1).toNat) := .own _ _ (bare_hasTs hqw)
    have h5 := (T.onTime c q.bare q.ts _ (by rw [List.flatMap_append]; exact List.mem_append_right _ hc) hne hst).1
    have h6 := T.steady
    unfold Steady at h6
    rw [List.flatMap_append, List.map_append, ← List.cons_append, List.pairwise_append] at h6
    have h7 := h6.2.2 _ (lastLook_mem (ops := (before ++ [e]).flatMap evOps) (last := now0)) c (List.mem_map.2 ⟨_, hc, rfl⟩)
    rw [hnow] at h7
    omega
  have hin : inWindow p W (p1 ++ p2) = inWindow p W p1 := by
    unfold inWindow
    rw [List.filter_append]
    have : p2.filter (fun q => decide (W - p ≤ q.ts ∧ q.ts < W)) = [] := by
      rw [List.filter_eq_nil_iff]
      intro q hq
      have := hlate q hq
      simp
      omega
    rw [this, List.append_nil]
  rw [hin]
  exact b2

/-- Every message that the downsampler publishes is taken up by one of the workers within `N` of the look at the clock after which it was published: `seen` are the iterations so far, `e` the last of them. -/
def TakenWithin (S : Sorter) (fo : FloatOps) (p now0 : Int) (evs : List DEvent) (ws : List WSys) (N : Int) : Prop :=
  ∀ (seen : List DEvent) (e : DEvent) (w : DWorker fo), seen ++ [e] <+: evs → DWorker.run S (DWorker.new fo p now0) (seen ++ [e]) = .ok w → ∀ m ∈ w.pubs,
    ∃ s ∈ ws, ∃ r, WEv.recv m.data r ∈ s.hist ∧ r ≤ e.now + N

/-- Every worker is scheduled promptly, is running, and its clock is past `t`. -/
def PromptPastAll (wc : WConf) (ws : List WSys) (t : Int) : Prop :=
  ∀ s ∈ ws, (∃ pages start, Prompt wc (WSys.start wc pages start) s) ∧ s.phase ≠ .stopped ∧ t < s.now

theorem linesOf_infix {b l : Bytes} (h : l ∈ linesOf b) : l <:+: b := by
  have := linesOf_flatten b
  obtain ⟨x, y, e⟩ := List.append_of_mem h
  rw [e, List.flatten_append, List.flatten_cons] at this
  exact ⟨x.flatten, y.flatten, by rw [List.append_assoc]; exact this⟩

theorem endOf_facts {p : Int} (hp : 0 < p) (t : Int) : Aligned p (endOf p t) ∧ endOf p t - p ≤ t ∧ t < endOf p t := by
  have h := startOf_bounds hp t
  unfold endOf
  refine ⟨?_, by omega, by omega⟩
  unfold Aligned startOf
  have : t - (t + zeroTimeOffset) % p + p + zeroTimeOffset = (t + zeroTimeOffset) - (t + zeroTimeOffset) % p + p := by omega
  rw [this, Int.add_emod_right]
  have hd := Int.emod_add_mul_ediv (t + zeroTimeOffset) p
  rw [show (t + zeroTimeOffset) - (t + zeroTimeOffset) % p = p * ((t + zeroTimeOffset) / p) by omega]
  exact Int.mul_emod_right _ _

/-- **C123.** Let such a downsampler have looked at the clock at least a period after the end of the window of a measurement `q`, and let its messages take at most `N` to the workers of a writer without rules. Then the row with the aggregated values of the series of
`q` over all the measurements of that window is in a batch that the writer starts to send at `q.ts + 3 * period + N + batch_max_age + 1 s` at the latest. -/
theorem C123_end_to_end {S : Sorter} {fo : FloatOps} {p now0 : Int} (hp : 0 < p) (hpl : PlainFloats fo) {evs : List DEvent} {pts : List Point} (T : InTime S fo p now0 evs pts)
    (hw : ∀ q ∈ pts, q.WF) (C : OneKind fo (pts.map (·.line))) {wc : WConf} (hr : wc.rules = []) (hage : 0 ≤ wc.batchMaxAge) {ws : List WSys} {N : Int} (hN : TakenWithin S fo p now0 evs ws N)
    {q : Point} (hq : q ∈ pts) (hW : endOf p q.ts < 9223372036854775808) (h1 : now0 < endOf p q.ts + p) (h2 : endOf p q.ts + p ≤ lastLook now0 (evs.flatMap evOps))
    (hs : PromptPastAll wc ws (q.ts + 3 * p + N + wc.batchMaxAge + 1000000000)) :
    ∃ r : SLine, r.key = q.line.key ∧ (r.fields.map (·.1)).Pairwise (fun a b => bytesLt a b = true) ∧
      (∀ n v, (n, v) ∈ r.fields ↔ samplesOf r.key n (inWindow p (endOf p q.ts) pts) ≠ [] ∧ v = aggSample fo (samplesOf r.key n (inWindow p (endOf p q.ts) pts))) ∧
      ∃ s ∈ ws, ∃ batch t, WEv.flush batch t ∈ s.hist ∧ Point.text ⟨r, endOf p q.ts⟩ <:+: batch ∧ t ≤ q.ts + 3 * p + N + wc.batchMaxAge + 1000000000 := by
  obtain ⟨f1, f2, f3⟩ := endOf_facts hp q.ts
  have hpos := (hw q hq).2.2.1
  obtain ⟨before, e, after, w, rows, a1, a2, a3, a4, a5, a6⟩ := C123_window hp hpl T hw C f1 (wrap64_of_inInt64 ⟨by omega, by omega⟩) h1 h2
  have hkey : q.line.key ∈ rows.map (·.key) := by
    rw [a5.2.1]
    refine List.mem_map.2 ⟨q.line, ?_, rfl⟩
    unfold inWindow
    refine List.mem_map.2 ⟨q, List.mem_filter.2 ⟨hq, ?_⟩, rfl⟩
    exact decide_eq_true ⟨f2, f3⟩
  obtain ⟨r, hr1, hr2⟩ := List.mem_map.1 hkey
  obtain ⟨m, hm, hl⟩ := a6 r hr1
  obtain ⟨s, hsw, rt, g1, g2⟩ := hN before e w ⟨after, by rw [a1]; simp⟩ a4 m hm
  obtain ⟨⟨pages, start, hpr⟩, hph, hnow⟩ := hs s hsw
  obtain ⟨batch, t, k1, k2, -, k3⟩ := C109_writer wc hage hr pages start s hpr hph m.data rt g1 (by omega)
  exact ⟨r, hr2, (a5.2.2 r hr1).1, (a5.2.2 r hr1).2, s, hsw, batch, t, k1, (linesOf_infix hl).trans k2, by omega⟩

/-- **C124 (the archive).** The same for a downsampler of which only its timer is known to be kept: it sets the timer at most `d1` after it has looked for output, and everything in the next iteration happens less than `d2` after the timer fires. -/
theorem C124_archived {S : Sorter} {fo : FloatOps} {p now0 d1 d2 : Int} (hp : 0 < p) (hpl : PlainFloats fo) (hd1 : 0 ≤ d1) (hd : d1 + d2 ≤ p) {evs : List DEvent} {pts : List Point}
    (hst : Steady now0 (evs.flatMap evOps)) (hk : TimerKept S fo p now0 d1 d2 evs) (ho : AllOnTime p (evs.flatMap evOps))
    (hlines : (messagesIn evs).flatMap (fun m => (splitNL m).filter (fun l => decide (l ≠ []))) = pts.map Point.bare)
    (hu : ∀ w, DWorker.run S (DWorker.new fo p now0) evs = .ok w → ∀ m ∈ w.pubs, m.data.getLast? = some NL)
    (hw : ∀ q ∈ pts, q.WF) (C : OneKind fo (pts.map (·.line))) {wc : WConf} (hr : wc.rules = []) (hage : 0 ≤ wc.batchMaxAge) {ws : List WSys} {N : Int} (hN : TakenWithin S fo p now0 evs ws N)
    {q : Point} (hq : q ∈ pts) (hW : endOf p q.ts < 9223372036854775808) (h1 : now0 < endOf p q.ts + p) (h2 : endOf p q.ts + p ≤ lastLook now0 (evs.flatMap evOps))
    (hs : PromptPastAll wc ws (q.ts + 3 * p + N + wc.batchMaxAge + 1000000000)) :
    ∃ r : SLine, r.key = q.line.key ∧ (r.fields.map (·.1)).Pairwise (fun a b => bytesLt a b = true) ∧
      (∀ n v, (n, v) ∈ r.fields ↔ samplesOf r.key n (inWindow p (endOf p q.ts) pts) ≠ [] ∧ v = aggSample fo (samplesOf r.key n (inWindow p (endOf p q.ts) pts))) ∧
      ∃ s ∈ ws, ∃ batch t, WEv.flush batch t ∈ s.hist ∧ Point.text ⟨r, endOf p q.ts⟩ <:+: batch ∧ t ≤ q.ts + 3 * p + N + wc.batchMaxAge + 1000000000 :=
  C123_end_to_end hp hpl ⟨hst, C124_timer S fo p now0 d1 d2 hp hd1 hd evs hst hk, ho, hlines, hu⟩ hw C hr hage hN hq hW h1 h2 hs

/-! ## A case -/

def afEvents : List DEvent :=
  [⟨.msg b!"a f=1i 105\na f=4i 112\n" (fun _ => 115), 116, idOrder, fun _ => false⟩, ⟨.timeout, 120, idOrder, fun _ => false⟩,
   ⟨.msg b!"a f=1i 115\nb g=7i 121\n" (fun _ => 125), 125, idOrder, fun _ => false⟩, ⟨.timeout, 130, idOrder, fun _ => false⟩]

def afPts : List Point :=
  [⟨⟨b!"a", [(b!"f", ⟨false, b!"1i"⟩)]⟩, 105⟩, ⟨⟨b!"a", [(b!"f", ⟨false, b!"4i"⟩)]⟩, 112⟩, ⟨⟨b!"a", [(b!"f", ⟨false, b!"1i"⟩)]⟩, 115⟩, ⟨⟨b!"b", [(b!"g", ⟨false, b!"7i"⟩)]⟩, 121⟩]

def afActs : List WAct :=
  [.tick 125, .recv b!"a f=1i 110\n", .check, .tick 130, .recv b!"a f=3i 120\n", .check, .tick 1000000130, .wake, .check, .first (.status 204), .sent, .tick 1500000000]

theorem af_run (n : Nat) (ps : List LPub) (h : (match DWorker.run insertionSorter (DWorker.new wholeFloats 10 115) (afEvents.take n) with | .ok w => some w.pubs | .panic => none) = some ps)
    {w : DWorker wholeFloats} (hr : DWorker.run insertionSorter (DWorker.new wholeFloats 10 115) (afEvents.take n) = .ok w) : w.pubs = ps := by
  rw [hr] at h
  injection h

theorem af_ops : afEvents.flatMap evOps = [.line 115 b!"a f=1i 105", .line 115 b!"a f=4i 112", .line 115 [], .tick 116 idOrder,
    .tick 120 idOrder, .line 125 b!"a f=1i 115", .line 125 b!"b g=7i 121", .line 125 [], .tick 125 idOrder, .tick 130 idOrder] := rfl

theorem af_wf : ∀ q ∈ afPts, q.WF := by
  intro q hq
  unfold afPts at hq
  simp only [List.mem_cons, List.not_mem_nil, or_false] at hq
  rcases hq with rfl | rfl | rfl | rfl
  all_goals
    refine ⟨⟨delimitable_of_not_mem (by decide) (by decide) (by decide), by decide +kernel, ?_⟩, by decide +kernel, by decide, by decide⟩
    intro f hf
    simp only [List.mem_cons, List.not_mem_nil, or_false] at hf
    subst hf
    exact ⟨delimitable_of_not_mem (by decide) (by decide) (by decide), by unfold Sample.WF; decide +kernel⟩

theorem af_inTime : InTime insertionSorter wholeFloats 10 115 afEvents afPts := by
  refine ⟨?_, ?_, ?_, by decide +kernel, ?_⟩
  · rw [af_ops]
    unfold Steady
    simp [AOp.now]
  · rw [af_ops]
    refine punctual_attentive (by decide) _ ?_
    simp [Punctual]
  · rw [af_ops]
    intro now l ts body hm hne hst
    have key : ∀ q ∈ afPts, l = q.bare → now - 10 ≤ q.ts ∧ q.ts ≤ now → now - 10 ≤ ts ∧ ts ≤ now := by
      intro q hq e h
      subst e
      rw [(bare_stamped (af_wf q hq) hst).1]
      exact h
    simp only [List.mem_cons, List.not_mem_nil, or_false, AOp.line.injEq, reduceCtorEq, false_or] at hm
    rcases hm with ⟨rfl, rfl⟩ | ⟨rfl, rfl⟩ | ⟨rfl, rfl⟩ | ⟨rfl, rfl⟩ | ⟨rfl, rfl⟩ | ⟨rfl, rfl⟩
    · exact key ⟨⟨b!"a", [(b!"f", ⟨false, b!"1i"⟩)]⟩, 105⟩ (by simp [afPts]) (by decide +kernel) (by decide)
    · exact key ⟨⟨b!"a", [(b!"f", ⟨false, b!"4i"⟩)]⟩, 112⟩ (by simp [afPts]) (by decide +kernel) (by decide)
    · exact absurd rfl hne
    · exact key ⟨⟨b!"a", [(b!"f", ⟨false, b!"1i"⟩)]⟩, 115⟩ (by simp [afPts]) (by decide +kernel) (by decide)
    · exact key ⟨⟨b!"b", [(b!"g", ⟨false, b!"7i"⟩)]⟩, 121⟩ (by simp [afPts]) (by decide +kernel) (by decide)
    · exact absurd rfl hne
  · intro w hr m hm
    have := af_run 4 [⟨b!"a f=1i 110\n", false⟩, ⟨b!"a f=3i 120\n", false⟩] (by decide +kernel) hr
    rw [this] at hm
    simp only [List.mem_cons, List.not_mem_nil, or_false] at hm
    rcases hm with rfl | rfl <;> decide

/-- All hypotheses of C123 are met by a run in which the second measurement waits for the end of its window, for the next period, and for the age limit of the writer; the row in the batch is the average of two measurements. -/
example : ∃ s : WSys, PlainFloats wholeFloats ∧ InTime insertionSorter wholeFloats 10 115 afEvents afPts ∧ (∀ q ∈ afPts, q.WF) ∧ OneKind wholeFloats (afPts.map (·.line)) ∧
    TakenWithin insertionSorter wholeFloats 10 115 afEvents [s] 10 ∧ endOf 10 112 = 120 ∧ (115 : Int) < endOf 10 112 + 10 ∧ endOf 10 112 + 10 ≤ lastLook 115 (afEvents.flatMap evOps) ∧
    PromptPastAll exFreshConf [s] (112 + 3 * 10 + 10 + exFreshConf.batchMaxAge + 1000000000) ∧ WEv.flush b!"a f=1i 110\na f=3i 120\n" 1000000130 ∈ s.hist := by
  obtain ⟨s, hs, hs2⟩ := pActs_hist
    (fun s => decide (WEv.recv b!"a f=1i 110\n" 125 ∈ s.hist) && decide (WEv.recv b!"a f=3i 120\n" 130 ∈ s.hist) && decide (WEv.flush b!"a f=1i 110\na f=3i 120\n" 1000000130 ∈ s.hist) &&
      decide (s.now = 1500000000) && (match s.phase with | .stopped => false | _ => true))
    (c := exFreshConf) (s0 := WSys.start exFreshConf 100000 0) (as := afActs) (by decide +kernel)
  simp only [Bool.and_eq_true, decide_eq_true_eq] at hs2
  obtain ⟨⟨⟨⟨r1, r2⟩, r3⟩, r4⟩, r5⟩ := hs2
  refine ⟨s, wholeFloats_plain, af_inTime, af_wf, ?_, ?_, by decide, by decide, by rw [af_ops]; decide, ?_, r3⟩
  · unfold afPts
    refine ⟨by decide, ?_⟩
    decide +kernel
  · intro seen e w hpre hrun m hm
    have h4 : seen ++ [e] = afEvents.take (seen ++ [e]).length := by
      obtain ⟨rest, h⟩ := hpre
      rw [← h, List.take_left]
    have hlen : (seen ++ [e]).length ≤ 4 := hpre.length_le
    have hlast : afEvents[seen.length]? = some e := by
      obtain ⟨rest, h⟩ := hpre
      rw [← h]; simp
    rw [h4] at hrun
    simp only [List.length_append, List.length_singleton] at hrun hlen
    generalize seen.length = n at hrun hlast hlen
    have hcases : n = 0 ∨ n = 1 ∨ n = 2 ∨ n = 3 := by omega
    rcases hcases with rfl | rfl | rfl | rfl
    · rw [af_run 1 [] (by decide +kernel) hrun] at hm
      cases hm
    · rw [af_run 2 [⟨b!"a f=1i 110\n", false⟩] (by decide +kernel) hrun] at hm
      rw [List.mem_singleton.1 hm]
      refine ⟨s, List.mem_singleton.2 rfl, 125, r1, ?_⟩
      injection hlast with hlast
      rw [← hlast]
      decide
    · rw [af_run 3 [⟨b!"a f=1i 110\n", false⟩] (by decide +kernel) hrun] at hm
      rw [List.mem_singleton.1 hm]
      refine ⟨s, List.mem_singleton.2 rfl, 125, r1, ?_⟩
      injection hlast with hlast
      rw [← hlast]
      decide
    · rw [af_run 4 [⟨b!"a f=1i 110\n", false⟩, ⟨b!"a f=3i 120\n", false⟩] (by decide +kernel) hrun] at hm
      injection hlast with hlast
      rw [← hlast]
      simp only [List.mem_cons, List.not_mem_nil, or_false] at hm
      rcases hm with rfl | rfl
      · exact ⟨s, List.mem_singleton.2 rfl, 125, r1, by decide⟩
      · exact ⟨s, List.mem_singleton.2 rfl, 130, r2, by decide⟩
  · intro s' hs'
    rw [List.mem_singleton.1 hs']
    refine ⟨⟨100000, 0, hs⟩, ?_, by rw [r4]; decide⟩
    intro h
    rw [h] at r5
    cases r5

end Spout.Delivery
