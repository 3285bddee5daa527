import Verif.Props.DownsamplerWindows
import Verif.Lemmas.Splitter

set_option linter.unusedSimpArgs false

/-! # The downsampler worker (C51, C68) -/

namespace Spout
open Spec

/-- The operations of one iteration of the worker: the lines of the message, if there was one, then a
request for output. -/
def evOps (e : DEvent) : List AOp :=
  (match e.input with
    | .timeout => []
    | .msg text clk => (splitNL text).zipIdx.map fun x => .line (clk x.2) x.1) ++ [.tick e.now e.ord]

/-- The errors reported in a history. -/
def errsOf (h : List (AOp × AOut)) : List DErr :=
  h.flatMap fun x => match x.2 with | .errs es => es | .text _ => []

theorem errsOf_append (a b : List (AOp × AOut)) : errsOf (a ++ b) = errsOf a ++ errsOf b := by simp [errsOf]

theorem textsOf_append (a b : List (AOp × AOut)) : textsOf (a ++ b) = textsOf a ++ textsOf b := by simp [textsOf]

/-- A run of lines only: no text, and the errors of the outputs. -/
theorem line_outs {fo : FloatOps} (S : Sorter) (xs : List (Int × Bytes)) (a a' : Assigner fo) (outs : List AOut)
    (h : aRun S a (xs.map fun x => .line x.1 x.2) = .ok (a', outs)) :
    textsOf ((xs.map fun x => AOp.line x.1 x.2).zip outs) = [] ∧
    errsOf ((xs.map fun x => AOp.line x.1 x.2).zip outs) =
      outs.flatMap fun o => match o with | .errs es => es | .text _ => [] := by
  induction xs generalizing a outs with
  | nil =>
    simp only [List.map_nil, aRun, Go.ok.injEq, Prod.mk.injEq] at h
    obtain ⟨rfl, rfl⟩ := h
    exact ⟨rfl, rfl⟩
  | cons x xs ih =>
    simp only [List.map_cons, aRun] at h
    cases h1 : a.updateLine x.1 x.2 with
    | panic => rw [h1] at h; simp at h
    | ok r =>
      obtain ⟨a1, es⟩ := r
      rw [h1] at h
      simp only [Go.ok_bind] at h
      cases h2 : aRun S a1 (xs.map fun x => AOp.line x.1 x.2) with
      | panic => rw [h2] at h; simp at h
      | ok r =>
        obtain ⟨a2, os⟩ := r
        rw [h2] at h
        simp only [Go.ok_bind, Go.pure_eq, Go.ok.injEq, Prod.mk.injEq] at h
        obtain ⟨rfl, rfl⟩ := h
        obtain ⟨g1, g2⟩ := ih _ _ h2
        refine ⟨?_, ?_⟩
        · simpa [textsOf] using g1
        · simpa [errsOf] using g2

/-- A run of lines leaves the windows where they are. -/
theorem lines_legal {fo : FloatOps} {p now0 e : Int} (hp : 0 < p) (S : Sorter) {em : List Emission}
    (xs : List (Int × Bytes)) (a : Assigner fo) (got : List Got) (hist : List (AOp × AOut))
    (h1 : WRel p a e got) (h2 : Legal fo p now0 e got em hist) :
    ∃ a' outs got', aRun S a (xs.map fun x => AOp.line x.1 x.2) = .ok (a', outs) ∧ outs.length = xs.length ∧
      WRel p a' e got' ∧ Legal fo p now0 e got' em (hist ++ (xs.map fun x => AOp.line x.1 x.2).zip outs) := by
  induction xs generalizing a got hist with
  | nil => exact ⟨a, [], got, rfl, rfl, h1, by simpa using h2⟩
  | cons x xs ih =>
    obtain ⟨a1, es, got1, k1, k2, k3⟩ := updateLine_legal hp h1 h2 x.1 x.2
    obtain ⟨a2, os, got2, m1, m2, m3, m4⟩ := ih a1 got1 _ k2 k3
    exact ⟨a2, .errs es :: os, got2, by simp [aRun, k1, m1], by simp [m2], m3, by simpa using m4⟩

/-- The invariant of the worker. -/
structure DInv {fo : FloatOps} (p now0 : Int) (evs : List DEvent) (w : DWorker fo) (e : Int) (got : List Got)
    (em : List Emission) (hist : List (AOp × AOut)) : Prop where
  rel : WRel p w.a e got
  legal : Legal fo p now0 e got em hist
  ops : hist.map (·.1) = evs.flatMap evOps
  stream : (w.pubs.map (·.data)).flatten = (textsOf hist).flatten
  sizes : ∀ m ∈ w.pubs, m.data ≠ [] ∧ m.data.length ≤ 1048577
  received : w.stats.received = evs.countP (fun e => match e.input with | .msg _ _ => true | .timeout => false)
  times : w.stats.invalidTimestamps = (errsOf hist).countP (·.isTimestamp)
  lines : w.stats.invalidLines = (errsOf hist).countP (fun e => !e.isTimestamp)
  sent : w.stats.sent = (textsOf hist).countP (fun t => t ≠ [])
  failed : w.stats.failedPublish = w.pubs.countP (·.failed)

theorem receive_inv {fo : FloatOps} {p now0 : Int} (hp : 0 < p) (S : Sorter) {evs : List DEvent} {w : DWorker fo}
    {e : Int} {got : List Got} {em : List Emission} {hist : List (AOp × AOut)}
    (h : DInv p now0 evs w e got em hist) (ev : DEvent) :
    ∃ w' got' hist', w.receive ev.input = .ok w' ∧ WRel p w'.a e got' ∧ Legal fo p now0 e got' em hist' ∧
      hist'.map (·.1) ++ [.tick ev.now ev.ord] = (evs ++ [ev]).flatMap evOps ∧
      textsOf hist' = textsOf hist ∧ w'.pubs = w.pubs ∧ w'.stats.sent = w.stats.sent ∧
      w'.stats.failedPublish = w.stats.failedPublish ∧
      w'.stats.received = (evs ++ [ev]).countP (fun e => match e.input with | .msg _ _ => true | .timeout => false) ∧
      w'.stats.invalidTimestamps = (errsOf hist').countP (·.isTimestamp) ∧
      w'.stats.invalidLines = (errsOf hist').countP (fun e => !e.isTimestamp) := by
  cases hin : ev.input with
  | timeout =>
    refine ⟨w, got, hist, rfl, h.rel, h.legal, ?_, rfl, rfl, rfl, rfl, ?_, h.times, h.lines⟩
    · rw [List.flatMap_append, ← h.ops]; simp [evOps, hin]
    · rw [List.countP_append, ← h.received]; simp [List.countP_cons, hin]
  | msg text clk =>
    obtain ⟨a', outs, got', g1, g2, g3, g4⟩ := lines_legal hp S
      ((splitNL text).zipIdx.map fun x => (clk x.2, x.1)) w.a got hist h.rel h.legal
    obtain ⟨t1, t2⟩ := line_outs S _ _ _ _ g1
    have hm : (((splitNL text).zipIdx.map fun x => (clk x.2, x.1)).map fun x => AOp.line x.1 x.2) =
        ((splitNL text).zipIdx.map fun x => AOp.line (clk x.2) x.1) := by
      rw [List.map_map]; rfl
    rw [hm] at g1 g4 t1 t2
    have hupd := C24_update_is_lines fo S w.a a' clk text outs g1
    refine ⟨{ w with a := a', stats := { w.stats with
        received := w.stats.received + 1
        invalidTimestamps := w.stats.invalidTimestamps +
          (outs.flatMap fun o => match o with | .errs es => es | .text _ => []).countP (·.isTimestamp)
        invalidLines := w.stats.invalidLines +
          (outs.flatMap fun o => match o with | .errs es => es | .text _ => []).countP (fun e => !e.isTimestamp) } },
      got', _, by simp only [DWorker.receive, hupd, Go.ok_bind]; rfl, g3, g4, ?_, ?_, rfl, rfl, rfl, ?_, ?_, ?_⟩
    · rw [List.flatMap_append, ← h.ops, List.map_append]
      have hz : (((splitNL text).zipIdx.map fun x => AOp.line (clk x.2) x.1).zip outs).map (·.1) =
          (splitNL text).zipIdx.map fun x => AOp.line (clk x.2) x.1 := by
        apply List.map_fst_zip
        rw [g2]; simp
      rw [hz]
      simp [evOps, hin]
    · rw [textsOf_append, t1, List.append_nil]
    · rw [List.countP_append, ← h.received]; simp [List.countP_cons, hin]
    · rw [errsOf_append, List.countP_append, ← h.times, t2]
    · rw [errsOf_append, List.countP_append, ← h.lines, t2]

theorem emit_inv {fo : FloatOps} {p now0 : Int} (hp : 0 < p) (S : Sorter) {w : DWorker fo}
    {e : Int} {got : List Got} {em : List Emission} {hist : List (AOp × AOut)} (evs : List DEvent)
    (hrel : WRel p w.a e got) (hleg : Legal fo p now0 e got em hist) (ev : DEvent)
    (hops : hist.map (·.1) ++ [.tick ev.now ev.ord] = (evs ++ [ev]).flatMap evOps)
    (hstream : (w.pubs.map (·.data)).flatten = (textsOf hist).flatten)
    (hsizes : ∀ m ∈ w.pubs, m.data ≠ [] ∧ m.data.length ≤ 1048577)
    (hrec : w.stats.received = (evs ++ [ev]).countP (fun e => match e.input with | .msg _ _ => true | .timeout => false))
    (htimes : w.stats.invalidTimestamps = (errsOf hist).countP (·.isTimestamp))
    (hlines : w.stats.invalidLines = (errsOf hist).countP (fun e => !e.isTimestamp))
    (hsent : w.stats.sent = (textsOf hist).countP (fun t => t ≠ []))
    (hfail : w.stats.failedPublish = w.pubs.countP (·.failed)) :
    ∃ w' e' em' hist', w.emit S ev = .ok w' ∧ DInv p now0 (evs ++ [ev]) w' e' got em' hist' := by
  obtain ⟨e', em', h1, h2, -⟩ := bytes_legal hp hrel hleg S ev.now ev.ord
  unfold DWorker.emit
  simp only []
  by_cases hb : (w.a.bytes S ev.ord ev.now).2 = []
  · rw [if_neg (by simp [hb])]
    refine ⟨_, e', em', _, rfl, h1, h2, ?_, ?_, hsizes, hrec, ?_, ?_, ?_, hfail⟩
    · rw [List.map_append, ← hops]; rfl
    · rw [textsOf_snoc_text, hb]; simpa using hstream
    · rw [errsOf_append, List.countP_append, ← htimes]; simp [errsOf]
    · rw [errsOf_append, List.countP_append, ← hlines]; simp [errsOf]
    · rw [textsOf_snoc_text, List.countP_append, ← hsent, hb]; simp [List.countP_cons]
  · rw [if_pos (List.length_pos_iff.2 hb)]
    obtain ⟨cs, c1, c2, c3, -, -⟩ := splitAll_spec (w.a.bytes S ev.ord ev.now).2 maxNATSMsgSize (by decide)
    rw [c1, Go.ok_bind]
    have hdata : (cs.zipIdx.map fun x => (⟨x.1, ev.fail x.2⟩ : LPub)).map (·.data) = cs := by
      rw [List.map_map]
      show (cs.zipIdx.map fun x => x.1) = cs
      exact List.zipIdx_map_fst 0 cs
    refine ⟨_, e', em', _, rfl, h1, h2, ?_, ?_, ?_, hrec, ?_, ?_, ?_, ?_⟩
    · rw [List.map_append, ← hops]; rfl
    · show ((w.pubs ++ _).map (·.data)).flatten = _
      rw [List.map_append, hdata, List.flatten_append, hstream, c2, textsOf_snoc_text]; simp
    · intro m hm
      have hm : m ∈ w.pubs ++ cs.zipIdx.map fun x => (⟨x.1, ev.fail x.2⟩ : LPub) := hm
      rw [List.mem_append] at hm
      rcases hm with hm | hm
      · exact hsizes m hm
      · have : m.data ∈ cs := by rw [← hdata]; exact List.mem_map_of_mem (f := (·.data)) hm
        obtain ⟨k1, k2⟩ := c3 _ this
        exact ⟨k1, by unfold maxNATSMsgSize at k2; omega⟩
    · rw [errsOf_append, List.countP_append]
      show w.stats.invalidTimestamps = _
      rw [htimes]; simp [errsOf]
    · rw [errsOf_append, List.countP_append]
      show w.stats.invalidLines = _
      rw [hlines]; simp [errsOf]
    · rw [textsOf_snoc_text, List.countP_append]
      show w.stats.sent + 1 = _
      rw [hsent]; simp [List.countP_cons, hb]
    · show w.stats.failedPublish + _ = (w.pubs ++ _).countP _
      rw [List.countP_append, hfail]

theorem drun_inv {fo : FloatOps} {p now0 : Int} (hp : 0 < p) (S : Sorter) (rest : List DEvent) (evs : List DEvent)
    (w : DWorker fo) (e : Int) (got : List Got) (em : List Emission) (hist : List (AOp × AOut))
    (h : DInv p now0 evs w e got em hist) :
    ∃ w' e' got' em' hist', DWorker.run S w rest = .ok w' ∧ DInv p now0 (evs ++ rest) w' e' got' em' hist' := by
  induction rest generalizing evs w e got em hist with
  | nil => exact ⟨w, e, got, em, hist, rfl, by simpa using h⟩
  | cons ev rest ih =>
    obtain ⟨w1, got1, hist1, r1, r2, r3, r4, r5, r6, r7, r8, r9, r10, r11⟩ := receive_inv hp S h ev
    obtain ⟨w2, e2, em2, hist2, s1, s2⟩ := emit_inv hp S evs r2 r3 ev r4 (by rw [r5, r6]; exact h.stream)
      (by rw [r6]; exact h.sizes) r9 r10 r11 (by rw [r5, r7]; exact h.sent) (by rw [r6, r8]; exact h.failed)
    obtain ⟨w3, e3, got3, em3, hist3, t1, t2⟩ := ih _ w2 e2 got1 em2 hist2 s2
    refine ⟨w3, e3, got3, em3, hist3, ?_, by simpa using t2⟩
    rw [DWorker.run, DWorker.step, r1, Go.ok_bind, s1, Go.ok_bind]
    exact t1

theorem dstream (fo : FloatOps) (S : Sorter) (p now0 : Int) (hp : 0 < p) (evs : List DEvent) :
    ∃ w e got em outs, DWorker.run S (DWorker.new fo p now0) evs = .ok w ∧ WRel p w.a e got ∧
      outs.length = (evs.flatMap evOps).length ∧
      Legal fo p now0 e got em ((evs.flatMap evOps).zip outs) ∧
      (w.pubs.map (·.data)).flatten = (em.map (·.text)).flatten ∧
      w.stats.received = evs.countP (fun e => match e.input with | .msg _ _ => true | .timeout => false) ∧
      w.stats.invalidTimestamps = (errsOf ((evs.flatMap evOps).zip outs)).countP (fun e => e = .tooOld ∨ e = .tooNew) ∧
      w.stats.invalidLines = (errsOf ((evs.flatMap evOps).zip outs)).countP (fun e => e ≠ .tooOld ∧ e ≠ .tooNew) ∧
      w.stats.sent = (textsOf ((evs.flatMap evOps).zip outs)).countP (fun t => t ≠ []) ∧
      w.stats.failedPublish = w.pubs.countP (·.failed) := by
  obtain ⟨e0, h1, h2, h3⟩ := wrel_new fo p now0 hp
  obtain ⟨w, e, got, em, hist, r1, r2⟩ := drun_inv hp S evs [] (DWorker.new fo p now0) e0 [] [] []
    ⟨h3, .start e0 h3.aligned h1 h2, rfl, rfl, by simp [DWorker.new], rfl, rfl, rfl, rfl, rfl⟩
  rw [List.nil_append] at r2
  have hz : (evs.flatMap evOps).zip (hist.map (·.2)) = hist := by
    rw [← r2.ops]
    exact (List.zip_of_prod rfl rfl).symm
  obtain ⟨E0, f⟩ := legal_facts hp r2.legal
  refine ⟨w, e, got, em, hist.map (·.2), r1, r2.rel, ?_, ?_, ?_, r2.received, ?_, ?_, ?_, r2.failed⟩
  · rw [← r2.ops]; simp
  · rw [hz]; exact r2.legal
  · rw [r2.stream, f.texts]
  · rw [hz, r2.times]; apply List.countP_congr; intro x _; cases x <;> simp [DErr.isTimestamp]
  · rw [hz, r2.lines]; apply List.countP_congr; intro x _; cases x <;> simp [DErr.isTimestamp]
  · rw [hz]; exact r2.sent

/-- **C68.** In every history of a downsampler worker - messages, timer wake-ups, clock readings, map orders,
publish failures - nothing panics, and the messages handed to NATS are, in order and cut into
chunks only, the windows emitted by a specified downsampler that received the lines of the messages;
chunks are not empty and have at most 1048577 bytes; the counters count messages, lines with
timestamp errors, other errors, emitted windows and failed publishes. -/
theorem C68_downsampler_stream (fo : FloatOps) (S : Sorter) (p now0 : Int) (hp : 0 < p) (evs : List DEvent) :
    ∃ w e got em outs, DWorker.run S (DWorker.new fo p now0) evs = .ok w ∧
      outs.length = (evs.flatMap evOps).length ∧
      Legal fo p now0 e got em ((evs.flatMap evOps).zip outs) ∧
      (w.pubs.map (·.data)).flatten = (em.map (·.text)).flatten ∧
      w.stats.received = evs.countP (fun e => match e.input with | .msg _ _ => true | .timeout => false) ∧
      w.stats.invalidTimestamps = (errsOf ((evs.flatMap evOps).zip outs)).countP (fun e => e = .tooOld ∨ e = .tooNew) ∧
      w.stats.invalidLines = (errsOf ((evs.flatMap evOps).zip outs)).countP (fun e => e ≠ .tooOld ∧ e ≠ .tooNew) ∧
      w.stats.sent = (textsOf ((evs.flatMap evOps).zip outs)).countP (fun t => t ≠ []) ∧
      w.stats.failedPublish = w.pubs.countP (·.failed) := by
  obtain ⟨w, e, got, em, outs, h1, -, h⟩ := dstream fo S p now0 hp evs
  exact ⟨w, e, got, em, outs, h1, h⟩

/-- **C51 (partial).** Every message published by the downsampler is non-empty and has at most 1048577 bytes.
Missing: the limit itself, exceeded by one byte when a newline falls on it (see
`C51_http_message_too_large` for the same splitter). -/
theorem C51_downsampler_message_size_partial (fo : FloatOps) (S : Sorter) (p now0 : Int) (hp : 0 < p) (evs : List DEvent) :
    ∃ w, DWorker.run S (DWorker.new fo p now0) evs = .ok w ∧ ∀ m ∈ w.pubs, m.data ≠ [] ∧ m.data.length ≤ 1048577 := by
  obtain ⟨e0, h1, h2, h3⟩ := wrel_new fo p now0 hp
  obtain ⟨w, e, got, em, hist, r1, r2⟩ := drun_inv hp S evs [] (DWorker.new fo p now0) e0 [] [] []
    ⟨h3, .start e0 h3.aligned h1 h2, rfl, rfl, by simp [DWorker.new], rfl, rfl, rfl, rfl, rfl⟩
  exact ⟨w, r1, r2.sizes⟩

/-- A concrete history: two messages and two time-outs. -/
def exEvents : List DEvent :=
  [⟨.msg b!"a f=1i 5\na f=4i 6\n" (fun _ => 15), 15, idOrder, fun _ => false⟩, ⟨.timeout, 20, idOrder, fun _ => false⟩,
   ⟨.msg b!"a f=1i 5\nb g=7i\nc d" (fun _ => 21), 21, idOrder, fun _ => false⟩, ⟨.timeout, 41, idOrder, fun _ => true⟩,
   ⟨.timeout, 41, idOrder, fun _ => true⟩]

example : (match DWorker.run insertionSorter (DWorker.new wholeFloats 10 15) exEvents with
    | .ok w => some (w.pubs, w.stats)
    | .panic => none) =
    some ([⟨b!"a f=2i 10\n", false⟩, ⟨b!"b g=7i 30\n", true⟩], ⟨2, 2, 1, 1, 1⟩) := by decide +kernel

end Spout
