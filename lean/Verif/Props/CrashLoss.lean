import Verif.Props.WayThereHTTP

/-! # C129: what a crash can lose is recent

Each component keeps data in memory only for a bounded time; so if a process is killed at any moment, what is lost with it came in shortly before. -/

set_option linter.unusedSimpArgs false

namespace Spout.Delivery
open Spout Spout.Listener Spout.Spec

/-! ## The UDP listener -/

/-- What was sent and what waits, as parts of what came in. -/
structure SplitInv (c : BLimits) (seen : List UDPEvent) (s : BState) : Prop where
  parts : ∃ gone held, seen = gone ++ held ∧ s.1.flatten = gone.flatMap (fun x => completed x.data) ∧ s.2 = (held.filter fun x => decide (x.data ≠ [])).map fun x => (completed x.data, x.tRead)
  order : s.2.Pairwise fun x y => x.2 ≤ y.2
  young : ∀ f, seen.getLast? = some f → ∀ z ∈ s.2, f.tCheck < z.2 + c.age

theorem completed_nil : completed [] = [] := rfl

theorem bytes_held (held : List UDPEvent) : bytesOf ((held.filter fun x => decide (x.data ≠ [])).map fun x => (completed x.data, x.tRead)) = held.flatMap fun x => completed x.data := by
  induction held with
  | nil => rfl
  | cons x held ih =>
    by_cases hx : x.data = []
    · rw [List.filter_cons_of_neg (by simpa using hx), List.flatMap_cons, hx, completed_nil, List.nil_append]
      exact ih
    · rw [List.filter_cons_of_pos (by simpa using hx), List.map_cons, List.flatMap_cons, ← ih]
      simp [bytesOf]

theorem split_step {c : BLimits} {seen : List UDPEvent} {s : BState} (I : SplitInv c seen s) (e : UDPEvent) (h2 : ∀ x ∈ seen, x.tRead ≤ e.tRead) : SplitInv c (seen ++ [e]) (brun c s (udpOps e)) := by
  obtain ⟨gone, held, p1, p2, p3⟩ := I.parts
  obtain ⟨P, hP, hP2, hord⟩ : ∃ P : List (Bytes × Int), brun c s (udpOps e) = sendIf (full c P || oldEnough c.age e.tCheck P) (s.1, P) ∧
      P = ((held ++ [e]).filter fun x => decide (x.data ≠ [])).map (fun x => (completed x.data, x.tRead)) ∧ P.Pairwise (fun x y => x.2 ≤ y.2) := by
    by_cases he : e.data = []
    · refine ⟨s.2, by simp [udpOps, he, brun, bstep], ?_, I.order⟩
      rw [List.filter_append, List.filter_cons_of_neg (by simpa using he), List.filter_nil, List.append_nil, p3]
    · refine ⟨s.2 ++ [(completed e.data, e.tRead)], by simp [udpOps, he, brun, bstep], ?_, ?_⟩
      · rw [List.filter_append, List.filter_cons_of_pos (by simpa using he), List.filter_nil, List.map_append, p3]
        rfl
      · refine List.pairwise_append.2 ⟨I.order, List.pairwise_singleton .., ?_⟩
        intro z hz y hy
        rw [List.mem_singleton.1 hy]
        rw [p3] at hz
        obtain ⟨x, hx, rfl⟩ := List.mem_map.1 hz
        exact h2 x (by rw [p1]; exact List.mem_append_right _ (List.mem_filter.1 hx).1)
  rw [hP]
  unfold sendIf
  split
  · refine ⟨⟨seen ++ [e], [], by simp, ?_, rfl⟩, List.Pairwise.nil, by simp⟩
    show (s.1 ++ [bytesOf P]).flatten = _
    rw [List.flatten_append, p2, hP2, bytes_held, p1]
    simp
  · next hno =>
    refine ⟨⟨gone, held ++ [e], by rw [p1]; simp, p2, hP2⟩, hord, ?_⟩
    intro f hf
    rw [List.getLast?_append] at hf
    have hf : e = f := by simpa using hf
    subst hf
    by_cases hb : bytesOf P = []
    · have : P = [] := bytesOf_ne (fun z hz => by
        rw [hP2] at hz
        obtain ⟨x, hx, rfl⟩ := List.mem_map.1 hz
        exact (completed_ends _ (by simpa using (List.mem_filter.1 hx).2)).1) hb
      show ∀ z ∈ P, _
      rw [this]
      intro z hz
      cases hz
    · refine young_of_head hord ?_
      cases ho : oldEnough c.age e.tCheck P with
      | false => rfl
      | true => exact absurd ⟨hb, by rw [ho, Bool.or_true]⟩ hno

theorem split_run {c : BLimits} : ∀ (rest seen : List UDPEvent) (s : BState), (seen ++ rest).Pairwise (fun x y => x.tRead ≤ y.tRead) → SplitInv c seen s → SplitInv c (seen ++ rest) (brun c s (rest.flatMap udpOps)) := by
  intro rest
  induction rest with
  | nil => intro seen s _ I; rw [List.append_nil]; exact I
  | cons e rest ih =>
    intro seen s L I
    rw [List.flatMap_cons, brun_append]
    rw [show seen ++ e :: rest = (seen ++ [e]) ++ rest by simp] at L ⊢
    refine ih (seen ++ [e]) _ L (split_step I e ?_)
    intro x hx
    exact (List.pairwise_append.1 (List.pairwise_append.1 L).1).2.2 x hx e (by simp)

/-- **C129 (UDP listener).** Whenever a UDP listener is killed, all datagrams but the last few have been handed to NATS, whole and in order; each of those that are lost was read less than `batch_max_age` before the listener last looked at the clock. -/
theorem C129_udp {lc : LConf} {t0 : Int} {es : List UDPEvent} (hd : ∀ x ∈ es, x.data.length ≤ 65536) (ho : es.Pairwise fun x y => x.tRead ≤ y.tRead) {f : UDPEvent} (hf : es.getLast? = some f) :
    ∃ l gone held, udpRun (Listener.new lc t0) es = .ok l ∧ es = gone ++ held ∧ (l.pubs.map (·.data)).flatten = gone.flatMap (fun x => completed x.data) ∧
      ∀ x ∈ held, x.data ≠ [] → f.tCheck < x.tRead + lc.batchMaxAge := by
  obtain ⟨l, a1, a2⟩ := udp_run_tracks lc t0 es hd
  have I := split_run (c := lc.limits) es [] ([], []) ho ⟨⟨[], [], rfl, rfl, rfl⟩, List.Pairwise.nil, by simp⟩
  rw [List.nil_append] at I
  obtain ⟨gone, held, p1, p2, p3⟩ := I.parts
  refine ⟨l, gone, held, a1, p1, ?_, ?_⟩
  · rw [a2.pubs, flatMap_messagesOf, p2]
  · intro x hx hne
    exact I.young f hf (completed x.data, x.tRead) (by rw [p3]; exact List.mem_map.2 ⟨x, List.mem_filter.2 ⟨hx, by simpa using hne⟩, rfl⟩)

/-! ## The HTTP listener -/

/-- **C129 (HTTP listener).** Whenever an HTTP listener is killed, each line posted so far is in a message that was published, or was posted at most `batch_max_age + 2 * D` before. -/
theorem C129_http {D : Int} (hD : 0 ≤ D) {c : LConf} (hA : 0 ≤ c.batchMaxAge) {t0 : Int} {tr : List Timed} (R : HRun D c t0 tr) (hw : PostsWhole tr) {b : Timed} (hb : tr.getLast? = some b) {d : Bytes} {t : Int} (h : PostedAt tr d t) :
    (∀ line ∈ linesOf d, ∃ q s, PublishedAt tr q s ∧ line ∈ linesOf q.data ∧ t ≤ s) ∨ b.now ≤ t + c.batchMaxAge + 2 * D := by
  rcases Int.lt_or_le (t + c.batchMaxAge + 2 * D) b.now with hlate | hlate
  · left
    intro line hl
    obtain ⟨q, s, s1, s2, s3, -⟩ := C128_posted_line hD hA R hw h (List.mem_of_getLast? hb) hlate line hl
    exact ⟨q, s, s1, s2, s3⟩
  · exact Or.inr hlate

/-! ## The writer -/

/-- **C129 (writer).** Whenever a writer's process is killed, each message that a worker took up is in a batch that it has started to send, or was taken up at most `batch_max_age + 1 s` before. -/
theorem C129_writer (wc : WConf) (hage : 0 ≤ wc.batchMaxAge) (hr : wc.rules = []) (pages : Nat) (start : Int) (s : WSys)
    (h : Prompt wc (WSys.start wc pages start) s) (hp : s.phase ≠ .stopped) (d : Bytes) (r : Int) (hd : WEv.recv d r ∈ s.hist) :
    (∃ batch t, WEv.flush batch t ∈ s.hist ∧ d <:+: batch ∧ r ≤ t) ∨ s.now ≤ r + wc.batchMaxAge + 1000000000 := by
  rcases Int.lt_or_le (r + wc.batchMaxAge + 1000000000) s.now with hlate | hlate
  · obtain ⟨batch, t, h1, h2, h3, -⟩ := C109_writer wc hage hr pages start s h hp d r hd hlate
    exact Or.inl ⟨batch, t, h1, h2, h3⟩
  · exact Or.inr hlate

/-! ## The downsampler -/

/-- **C129 (downsampler).** Whenever a downsampler that gets its measurements and looks at the clock in time (`InTime`; C124 says when) is killed, each measurement that it took up is in a row that was published, aggregated with all the others of its window, or has a time less than two
periods before the downsampler last looked at the clock. -/
theorem C129_downsampler {S : Sorter} {fo : FloatOps} {p now0 : Int} (hp : 0 < p) (hpl : PlainFloats fo) {evs : List DEvent} {pts : List Point} (T : InTime S fo p now0 evs pts)
    (hw : ∀ q ∈ pts, q.WF) (C : OneKind fo (pts.map (·.line))) {q : Point} (hq : q ∈ pts) (hW : endOf p q.ts < 9223372036854775808) (h1 : now0 ≤ q.ts + p) :
    (∃ before after w rows r, evs = before ++ after ∧ DWorker.run S (DWorker.new fo p now0) before = .ok w ∧ Summary fo (inWindow p (endOf p q.ts) pts) rows ∧ r ∈ rows ∧ r.key = q.line.key ∧
      ∃ m ∈ w.pubs, Point.text ⟨r, endOf p q.ts⟩ ∈ linesOf m.data) ∨ lastLook now0 (evs.flatMap evOps) < q.ts + 2 * p := by
  rcases Int.lt_or_le (lastLook now0 (evs.flatMap evOps)) (q.ts + 2 * p) with hlt | hge
  · exact Or.inr hlt
  · left
    obtain ⟨f1, f2, f3⟩ := endOf_facts hp q.ts
    have hpos := (hw q hq).2.2.1
    obtain ⟨before, e, after, w, rows, a1, -, -, a4, a5, a6⟩ := C123_window hp hpl T hw C f1 (wrap64_of_inInt64 ⟨by omega, by omega⟩) (by omega) (by omega)
    have hkey : q.line.key ∈ rows.map (·.key) := by
      rw [a5.2.1]
      refine List.mem_map.2 ⟨q.line, ?_, rfl⟩
      unfold inWindow
      exact List.mem_map.2 ⟨q, List.mem_filter.2 ⟨hq, decide_eq_true ⟨f2, f3⟩⟩, rfl⟩
    obtain ⟨r, hr, hrk⟩ := List.mem_map.1 hkey
    exact ⟨before ++ [e], after, w, rows, r, by rw [a1]; simp, a4, a5, hr, hrk, a6 r hr⟩

/-! ## Cases -/

/-- The hypotheses of `C129_udp` are met; of three datagrams, the last is lost. -/
example : (∀ x ∈ [(⟨b!"a f=1", false, 1, 2, 2, fun _ => false⟩ : UDPEvent), ⟨b!"b f=2\n", false, 3, 4, 4, fun _ => false⟩, ⟨b!"c f=3", false, 12, 13, 13, fun _ => false⟩], x.data.length ≤ 65536) ∧
    [(⟨b!"a f=1", false, 1, 2, 2, fun _ => false⟩ : UDPEvent), ⟨b!"b f=2\n", false, 3, 4, 4, fun _ => false⟩, ⟨b!"c f=3", false, 12, 13, 13, fun _ => false⟩].Pairwise (fun x y => x.tRead ≤ y.tRead) ∧
    (match udpRun (Listener.new ⟨2, 1000, 1048576⟩ 0) [⟨b!"a f=1", false, 1, 2, 2, fun _ => false⟩, ⟨b!"b f=2\n", false, 3, 4, 4, fun _ => false⟩, ⟨b!"c f=3", false, 12, 13, 13, fun _ => false⟩] with
      | .ok l => some (l.pubs.map (·.data)) | .panic => none) = some [b!"a f=1\nb f=2\n"] := by
  refine ⟨by decide, by decide, by decide +kernel⟩

/-- In a run of C128's example that is cut off at 113, before the batch is sent, the measurement is lost; it was posted 1 before. -/
example : HRun 0 whConf 112 (whTr.take 4) ∧ PostedAt (whTr.take 4) b!"a f=4i 112\n" 112 ∧ (∃ b, (whTr.take 4).getLast? = some b ∧ b.now = 113 ∧ b.l.pubs = []) := by
  refine ⟨⟨rfl, ?_⟩, ⟨1, _, .body ⟨[b!"a f=4i"], b!" 112\n"⟩ 112, whA.l, rfl, ⟨Or.inl ⟨_, rfl⟩, by decide, by decide +kernel⟩, rfl, rfl, rfl⟩, _, rfl, rfl, rfl⟩
  intro i a b h1 h2
  have hi : i + 1 < 4 := by
    have := (List.getElem?_eq_some_iff.1 h2).1
    simp [whTr] at this
    omega
  rw [List.getElem?_take_of_lt (by omega)] at h1 h2
  exact wh_run.steps i a b h1 h2

/-- The hypotheses of `C129_downsampler` are met by the example of C123: the measurement of 105 is in a row, that of 112 in one that has just been published, that of 121 would be lost at 130. -/
example : PlainFloats wholeFloats ∧ InTime insertionSorter wholeFloats 10 115 afEvents afPts ∧ (∀ q ∈ afPts, q.WF ∧ endOf 10 q.ts < 9223372036854775808 ∧ (115 : Int) ≤ q.ts + 10) ∧
    OneKind wholeFloats (afPts.map (·.line)) ∧ lastLook 115 (afEvents.flatMap evOps) = 130 := by
  refine ⟨wholeFloats_plain, af_inTime, fun q hq => ⟨af_wf q hq, ?_⟩, ?_, by rw [af_ops]; decide⟩
  · have key : ∀ q ∈ afPts, endOf 10 q.ts < 9223372036854775808 ∧ (115 : Int) ≤ q.ts + 10 := by decide
    exact key q hq
  · unfold afPts
    refine ⟨by decide, ?_⟩
    decide +kernel

end Spout.Delivery
