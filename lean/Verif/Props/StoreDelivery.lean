import Verif.Props.Delivery
import Verif.Props.WriterStore

/-! # What InfluxDB stores in the end, end to end (C111)

The pipeline of C65: a UDP listener, the workers of a filter and of a writer. -/

set_option linter.unusedSimpArgs false

namespace Spout.Delivery
open Spout Spout.Listener Spout.Spec

/-! ## Specification -/

variable {S : Sorter} {lc : LConf} {t0 : Int} {es : List UDPEvent} {delta : Int} {rules : List Rule} {junk : Bytes}
  {wc : WConf} {K V : Type} [DecidableEq K]

/-- The text is one complete line. -/
def OneLine (txt : Bytes) : Prop := ∃ body, NL ∉ body ∧ txt = body ++ [NL]

/-- The texts that the lines sent to the listener have on the subject `sub`. -/
def textsSent (S : Sorter) (es : List UDPEvent) (rules : List Rule) (junk sub : Bytes) : List Bytes :=
  (sentLines es).filterMap (textTo S rules junk sub)

/-- InfluxDB has handled lines from all workers: `ws` is some interleaving, or any other order, of lists that it may
have handled for each of them. -/
def HandledAll (ss : List WSys) (ws : List (Bytes × Int)) : Prop :=
  ∃ wss : List (List (Bytes × Int)), wss.length = ss.length ∧
    (∀ (i : Nat) (s : WSys) (l : List (Bytes × Int)), ss[i]? = some s → wss[i]? = some l → Handled s.hist l) ∧
    ws.Perm wss.flatten

/-! ## Proof -/

/-- The messages received by the writer's workers, as lists of texts. -/
theorem received_texts (p : Pipeline S lc t0 es delta rules junk wc) (sub : Bytes)
    (hn : p.AnyOrder sub) (ht : p.Timely) (hb : p.l.batch.bytes = []) :
    ∃ D : List (List Bytes), (p.writers.flatMap fun s => received s.hist) = D.map List.flatten ∧
      D.flatten.Perm (textsSent S es rules junk sub) := by
  obtain ⟨n1, n2, n3, n4⟩ := hn
  obtain ⟨w, st, hf⟩ := p.filtered
  obtain ⟨D, d1, d2⟩ := filter_messages S delta rules junk sub p.ms w st p.pubss hf
  rw [published_all sub _ n3, d1] at n4
  obtain ⟨D', g1, g2⟩ := perm_map_lift List.flatten n4 D rfl
  refine ⟨D', g2, ?_⟩
  refine g1.flatten.trans ?_
  rw [d2]
  obtain ⟨e1, -⟩ := listener_lines lc p.size t0 es p.datagrams p.l p.listened
  unfold textsSent
  rw [e1, hb, linesOf_nil, List.append_nil, flatMap_filterMap]
  rw [publishedL_all p.l n1] at n2
  have h1 : ((p.ms.map (·.data)).flatMap fun d => (linesOf d).filterMap (textTo S rules junk sub)).Perm
      ((p.l.pubs.map (·.data)).flatMap fun d => (linesOf d).filterMap (textTo S rules junk sub)) := by
    rw [List.flatMap_def, List.flatMap_def]
    exact (n2.map _).flatten
  refine List.Perm.trans ?_ h1
  rw [List.flatMap_map]
  apply perm_flatMap
  intro m hm
  refine (grouped_perm rules junk sub _
    (fun i out h => routed_lt_outcomes S rules delta m.now m.data i out h)).trans ?_
  obtain ⟨t1, t2, t3⟩ := ht.2 m hm
  have := accepted_timely S rules junk sub delta m ht.1 t1 t2 t3
  unfold accepted at this
  rw [this]

theorem linesOf_oneLines (g : List Bytes) (h : ∀ x ∈ g, OneLine x) : linesOf g.flatten = g := by
  rw [linesOf_flatten_complete]
  · induction g with
    | nil => rfl
    | cons x g ih =>
      obtain ⟨body, hb, e⟩ := h x (by simp)
      rw [List.flatMap_cons, ih (fun y hy => h y (List.mem_cons_of_mem _ hy)), e, linesOf_single body hb]
      rfl
  · intro x hx
    obtain ⟨body, -, rfl⟩ := h x hx
    exact Or.inr (by simp)

theorem complete_oneLines (g : List Bytes) (h : ∀ x ∈ g, OneLine x) : CompleteText g.flatten := by
  induction g with
  | nil => exact ⟨[], by simp, rfl⟩
  | cons x g ih =>
    obtain ⟨body, hb, rfl⟩ := h x (by simp)
    obtain ⟨ls, h1, h2⟩ := ih (fun y hy => h y (List.mem_cons_of_mem _ hy))
    refine ⟨body :: ls, ?_, ?_⟩
    · intro l hl
      rcases List.mem_cons.1 hl with rfl | hl
      · exact hb
      · exact h1 l hl
    · rw [List.flatten_cons, h2]
      simp

/-- Lines handled for one of several workers were received by one of them. -/
theorem handledAll_received {ss : List WSys} (hrun : ∀ s ∈ ss, WRun wc s) (hsize : 1 ≤ wc.batchMaxSize)
    (hwhole : ∀ s ∈ ss, WholeMessages wc s) {ws : List (Bytes × Int)} (hw : HandledAll ss ws) :
    ∀ w ∈ ws, ∃ s ∈ ss, w.1 ∈ linesReceived wc s := by
  obtain ⟨wss, hlen, hf, hperm⟩ := hw
  intro w hwm
  obtain ⟨l, hl, hws⟩ := List.mem_flatten.1 (hperm.mem_iff.1 hwm)
  obtain ⟨i, hi, e⟩ := List.mem_iff_getElem.1 hl
  have hi2 : i < ss.length := by omega
  have hs : ss[i] ∈ ss := List.getElem_mem hi2
  have hh := hf i ss[i] l (List.getElem?_eq_getElem hi2) (by rw [List.getElem?_eq_getElem hi, e])
  exact ⟨_, hs, handled_received hsize (hrun _ hs) (hwhole _ hs) hh w hws⟩

/-- Lines of a write that was accepted were handled. -/
theorem handledAll_accepted {ss : List WSys} (hrun : ∀ s ∈ ss, WRun wc s) {ws : List (Bytes × Int)} (hw : HandledAll ss ws)
    {s : WSys} (hs : s ∈ ss) {i : Nat} {d : Bytes} {r : Resp} {t : Int} (hfi : .first i d r t ∈ s.hist)
    (ha : Accepted s.hist i) {line : Bytes} (hl : line ∈ linesOf d) : ∃ t', (line, t') ∈ ws := by
  obtain ⟨wss, hlen, hf, hperm⟩ := hw
  obtain ⟨j, hj, e⟩ := List.mem_iff_getElem.1 hs
  have hj2 : j < wss.length := by omega
  have hh := hf j s wss[j] (by rw [List.getElem?_eq_getElem hj, e]) (List.getElem?_eq_getElem hj2)
  obtain ⟨t1, h1⟩ := handled_accepted (hrun s hs) hh i d r t hfi ha line hl
  exact ⟨t1, hperm.mem_iff.2 (List.mem_flatten.2 ⟨_, List.getElem_mem hj2, h1⟩)⟩

/-- What several workers store: the content of the lines they received. -/
theorem content_of_workers {ss : List WSys} (hrun : ∀ s ∈ ss, WRun wc s) (hsize : 1 ≤ wc.batchMaxSize)
    (hwhole : ∀ s ∈ ss, WholeMessages wc s) (ha : ∀ s ∈ ss, AllAccepted s) {T : List Bytes}
    (hall : ∀ line, (∃ s ∈ ss, line ∈ linesReceived wc s) ↔ line ∈ T) (sets : Int → Bytes → List (K × V))
    (hts : Timestamped sets T) (hcons : Consistent sets T) (ws : List (Bytes × Int)) (hw : HandledAll ss ws) (k : K) (v : V) :
    stored sets ws k = some v ↔ ∃ txt ∈ T, (k, v) ∈ sets 0 txt := by
  have hmem : ∀ v, (k, v) ∈ (ws.flatMap fun w => sets w.2 w.1) ↔ ∃ txt ∈ T, (k, v) ∈ sets 0 txt := by
    intro v
    rw [List.mem_flatMap]
    constructor
    · rintro ⟨w, hwm, hkv⟩
      have hr := (hall w.1).1 (handledAll_received hrun hsize hwhole hw w hwm)
      exact ⟨w.1, hr, by rw [hts w.1 hr 0 w.2]; exact hkv⟩
    · rintro ⟨txt, hr, hkv⟩
      obtain ⟨s, hs, hl⟩ := (hall txt).2 hr
      have hls := lines_sent hsize (hrun s hs) (hwhole s hs)
      rw [(ha s hs).1, show linesOf [] = [] from by simp [linesOf_nil], List.append_nil] at hls
      rw [← hls] at hl
      obtain ⟨d, hd, hld⟩ := List.mem_flatMap.1 hl
      obtain ⟨i, r, t, hfi⟩ := mem_firstBodies.1 hd
      obtain ⟨t1, h1⟩ := handledAll_accepted hrun hw hs hfi ((ha s hs).2 i d r t hfi) hld
      refine ⟨(txt, t1), h1, ?_⟩
      rw [hts txt hr t1 0]
      exact hkv
  rw [stored_eq]
  constructor
  · intro h
    exact (hmem v).1 (lastValue_mem h)
  · intro h
    obtain ⟨v', hv'⟩ := lastValue_some ((hmem v).2 h)
    obtain ⟨txt, htx, hkv⟩ := h
    obtain ⟨txt', htx', hkv'⟩ := (hmem v').1 (lastValue_mem hv')
    rw [hv', hcons txt htx txt' htx' 0 0 k v v' hkv hkv']

/-- **C111.** Suppose that no message is lost (they may overtake each other), the lines are timely, those for `sub` carry
timestamps, give no field of a point two different values, and fit in a write; that the listener holds nothing any more
and that the workers of the writer have sent everything and got everything accepted, at once or on retry.  Then InfluxDB
stores exactly what the lines sent to the listener for `sub` say - no matter how the lines were batched, routed through
workers, sent again or handled twice. -/
theorem C111_content (p : Pipeline S lc t0 es delta rules junk wc) (sub : Bytes) (hn : p.AnyOrder sub) (ht : p.Timely)
    (hb : p.l.batch.bytes = []) (hsize : 1 ≤ wc.batchMaxSize) (ha : ∀ s ∈ p.writers, AllAccepted s)
    (sets : Int → Bytes → List (K × V))
    (hlines : ∀ txt ∈ textsSent S es rules junk sub, OneLine txt ∧ txt.length ≤ wc.batchMaxSize + 1)
    (hts : Timestamped sets (textsSent S es rules junk sub)) (hcons : Consistent sets (textsSent S es rules junk sub))
    (ws : List (Bytes × Int)) (hw : HandledAll p.writers ws) (k : K) (v : V) :
    stored sets ws k = some v ↔ ∃ txt ∈ textsSent S es rules junk sub, (k, v) ∈ sets 0 txt := by
  obtain ⟨D, d1, d2⟩ := received_texts p sub hn ht hb
  have hD : ∀ g ∈ D, ∀ x ∈ g, OneLine x ∧ x.length ≤ wc.batchMaxSize + 1 := fun g hg x hx =>
    hlines x (d2.mem_iff.1 (List.mem_flatten.2 ⟨g, hg, hx⟩))
  have hmsg : ∀ s ∈ p.writers, ∀ m ∈ received s.hist, ∃ g ∈ D, m = g.flatten := by
    intro s hs m hm
    have : m ∈ D.map List.flatten := by
      rw [← d1]
      exact List.mem_flatMap.2 ⟨s, hs, hm⟩
    obtain ⟨g, hg, e⟩ := List.mem_map.1 this
    exact ⟨g, hg, e.symm⟩
  have hwhole : ∀ s ∈ p.writers, WholeMessages wc s := by
    intro s hs m hm
    obtain ⟨g, hg, rfl⟩ := hmsg s hs m hm
    refine ⟨complete_oneLines g (fun x hx => (hD g hg x hx).1), ?_⟩
    rw [linesOf_oneLines g (fun x hx => (hD g hg x hx).1)]
    exact fun x hx => (hD g hg x hx).2
  have hlr : ∀ s, linesReceived wc s = (received s.hist).flatMap linesOf := by
    intro s
    unfold linesReceived
    rw [p.norules]
    simp [pieces]
  have hall : ∀ line, (∃ s ∈ p.writers, line ∈ linesReceived wc s) ↔ line ∈ textsSent S es rules junk sub := by
    intro line
    constructor
    · rintro ⟨s, hs, hl⟩
      rw [hlr] at hl
      obtain ⟨m, hm, hl⟩ := List.mem_flatMap.1 hl
      obtain ⟨g, hg, rfl⟩ := hmsg s hs m hm
      rw [linesOf_oneLines g (fun x hx => (hD g hg x hx).1)] at hl
      exact d2.mem_iff.1 (List.mem_flatten.2 ⟨g, hg, hl⟩)
    · intro hl
      obtain ⟨g, hg, hlg⟩ := List.mem_flatten.1 (d2.mem_iff.2 hl)
      have : g.flatten ∈ p.writers.flatMap fun s => received s.hist := by
        rw [d1]
        exact List.mem_map.2 ⟨g, hg, rfl⟩
      obtain ⟨s, hs, hm⟩ := List.mem_flatMap.1 this
      refine ⟨s, hs, ?_⟩
      rw [hlr]
      refine List.mem_flatMap.2 ⟨_, hm, ?_⟩
      rw [linesOf_oneLines g (fun x hx => (hD g hg x hx).1)]
      exact hlg
  exact content_of_workers p.written hsize hwhole ha hall sets hts hcons ws hw k v

/-! ## A case

Two datagrams, each its own message; the second overtakes the first; two workers of the writer; the write of the first
line is handled, its answer is lost, and it is retried. -/

def exStoreEvents : List UDPEvent :=
  [⟨b!"cpu f=1 9900\nmem,h=1 f=2 9900\n", false, 1, 2, 3, fun _ => false⟩,
   ⟨b!"cpu,a=1 f=3 9950", false, 4, 5, 6, fun _ => false⟩]

def exStoreL : Listener := ⟨⟨1, 1000, 1048576⟩, ⟨[], 1048576, 0, 6⟩, ⟨2, 2, 0, 0⟩,
    [⟨b!"cpu f=1 9900\nmem,h=1 f=2 9900\n", false⟩, ⟨b!"cpu,a=1 f=3 9950\n", false⟩]⟩

def exStoreMs : List FMsg := [⟨10000, fun _ => false, b!"cpu,a=1 f=3 9950\n"⟩,
    ⟨10001, fun _ => false, b!"cpu f=1 9900\nmem,h=1 f=2 9900\n"⟩]

def exStorePubss : List (List Pub) := [[⟨b!"cpu-subject", b!"cpu,a=1 f=3 9950\n", false⟩],
    [⟨b!"cpu-subject", b!"cpu f=1 9900\n", false⟩, ⟨b!"tag-subject", b!"mem,h=1 f=2 9900\n", false⟩]]

def exStoreActs1 : List WAct := [.recv b!"cpu,a=1 f=3 9950\n", .check, .first (.status 204), .sent]

def exStoreHist1 : List WEv :=
  [.recv b!"cpu,a=1 f=3 9950\n" 0, .flush b!"cpu,a=1 f=3 9950\n" 0, .first 0 b!"cpu,a=1 f=3 9950\n" (.status 204) 0]

def exStoreActs2 : List WAct :=
  [.recv b!"cpu f=1 9900\n", .check, .first .transport, .handoff, .arm, .input, .sent, .arm, .tick 5, .fire,
   .finish (.status 204)]

def exStoreHist2 : List WEv :=
  [.recv b!"cpu f=1 9900\n" 0, .flush b!"cpu f=1 9900\n" 0, .first 0 b!"cpu f=1 9900\n" .transport 0, .queued 0 0,
   .attempt 0 b!"cpu f=1 9900\n" 5, .result 0 (.status 204) 5]

theorem exStore_handled1 : Handled exStoreHist1 [(b!"cpu,a=1 f=3 9950\n", 0)] := by
  have h0 : Handled [.recv b!"cpu,a=1 f=3 9950\n" 0] [] := Handled.other (h := []) _ .nil (by simp) (by simp)
  have h1 := Handled.other (.flush b!"cpu,a=1 f=3 9950\n" 0) h0 (by simp) (by simp)
  have h2 := Handled.firstOk 0 b!"cpu,a=1 f=3 9950\n" (.status 204) 0 h1 ok204
  have e : linesOf b!"cpu,a=1 f=3 9950\n" = [b!"cpu,a=1 f=3 9950\n"] := by decide
  simpa [e, exStoreHist1] using h2

theorem exStore_handled2 : Handled exStoreHist2 [(b!"cpu f=1 9900\n", 0), (b!"cpu f=1 9900\n", 5)] := by
  have h0 : Handled [.recv b!"cpu f=1 9900\n" 0] [] := Handled.other (h := []) _ .nil (by simp) (by simp)
  have h1 := Handled.other (.flush b!"cpu f=1 9900\n" 0) h0 (by simp) (by simp)
  have h2 := Handled.other (.first 0 b!"cpu f=1 9900\n" .transport 0) h1
    (by intro i d r t h; injection h with _ _ h; subst h; exact notOk_transport) (by simp)
  have h3 := Handled.late b!"cpu f=1 9900\n" b!"cpu f=1 9900\n" 0 h2 (Or.inl ⟨0, .transport, 0, by simp, notOk_transport⟩)
    (by decide)
  have h4 := Handled.other (.queued 0 0) h3 (by simp) (by simp)
  have h7 := Handled.other (.attempt 0 b!"cpu f=1 9900\n" 5) h4 (by simp) (by simp)
  have h8 := Handled.late b!"cpu f=1 9900\n" b!"cpu f=1 9900\n" 5 h7 (Or.inr ⟨0, 5, by simp⟩) (by decide)
  have h9 := Handled.retryOk 0 (.status 204) 5 h8 ok204 (by
    intro d t0 hm line hl
    have hd : d = b!"cpu f=1 9900\n" := by
      simp at hm
      exact hm.1
    subst hd
    have : line = b!"cpu f=1 9900\n" := by
      have e : linesOf b!"cpu f=1 9900\n" = [b!"cpu f=1 9900\n"] := by decide
      rw [e] at hl
      simpa using hl
    subst this
    exact ⟨5, by simp⟩)
  simpa [exStoreHist2] using h9

theorem timely_of {line : Bytes} {now delta v off : Int} (h : extractTimestamp line = .ok (v, off))
    (hw : now - delta < v ∧ v < now + delta) : Timely now delta line := by
  by_cases hx : ∃ v' off', HasTs line v' off'
  · obtain ⟨v', off', hts⟩ := hx
    have := extractTimestamp_some hts
    rw [h] at this
    injection this with this
    injection this with this _
    subst this
    exact Or.inl ⟨v, off', hts, hw⟩
  · right
    intro v' off' hts
    exact hx ⟨v', off', hts⟩

/-- All hypotheses of C111_content are met by this run. -/
example : ∃ (p : Pipeline insertionSorter ⟨1, 1000, 1048576⟩ 0 exStoreEvents 1000 exRules b!"junk" exStoreConf)
    (ws : List (Bytes × Int)), p.AnyOrder b!"cpu-subject" ∧ p.Timely ∧ p.l.batch.bytes = [] ∧
    (∀ s ∈ p.writers, AllAccepted s) ∧ p.writers.length = 2 ∧
    (∀ txt ∈ textsSent insertionSorter exStoreEvents exRules b!"junk" b!"cpu-subject",
      OneLine txt ∧ txt.length ≤ exStoreConf.batchMaxSize + 1) ∧
    Timestamped exSets (textsSent insertionSorter exStoreEvents exRules b!"junk" b!"cpu-subject") ∧
    Consistent exSets (textsSent insertionSorter exStoreEvents exRules b!"junk" b!"cpu-subject") ∧
    HandledAll p.writers ws ∧ ws.length = 3 ∧ stored exSets ws (.inr (b!"cpu,a=1", b!"f", b!"9950")) = some b!"3" := by
  obtain ⟨s1, a1, a2⟩ := wRun_hist (fun s => (s.hist, unsentBytes s)) (exStoreHist1, []) (c := exStoreConf) 100000 0
    exStoreActs1 (by decide +kernel)
  obtain ⟨s2, b1, b2⟩ := wRun_hist (fun s => (s.hist, unsentBytes s)) (exStoreHist2, []) (c := exStoreConf) 100000 0
    exStoreActs2 (by decide +kernel)
  simp only [Prod.mk.injEq] at a2 b2
  obtain ⟨a2, a3⟩ := a2
  obtain ⟨b2, b3⟩ := b2
  have hl : udpRun (Listener.new ⟨1, 1000, 1048576⟩ 0) exStoreEvents = .ok exStoreL := by decide +kernel
  have hf : (match filterRun insertionSorter (FWorker.new 1000 exRules b!"junk") (FStats.init exRules.length) exStoreMs with
      | .ok (_, _, x) => some x | .panic => none) = some exStorePubss := by decide +kernel
  have hf2 : ∃ w st, filterRun insertionSorter (FWorker.new 1000 exRules b!"junk") (FStats.init exRules.length) exStoreMs =
      .ok (w, st, exStorePubss) := by
    cases hc : filterRun insertionSorter (FWorker.new 1000 exRules b!"junk") (FStats.init exRules.length) exStoreMs with
    | panic => rw [hc] at hf; cases hf
    | ok x =>
      obtain ⟨w, st, y⟩ := x
      rw [hc] at hf
      injection hf with hf
      subst hf
      exact ⟨w, st, rfl⟩
  have hts : textsSent insertionSorter exStoreEvents exRules b!"junk" b!"cpu-subject" =
      [b!"cpu f=1 9900\n", b!"cpu,a=1 f=3 9950\n"] := by decide +kernel
  rw [hts]
  have hs1 : ∀ t, exSets t b!"cpu f=1 9900\n" = [(.inr (b!"cpu", b!"f", b!"9900"), b!"1")] := fun t => rfl
  have hs2 : ∀ t, exSets t b!"cpu,a=1 f=3 9950\n" = [(.inr (b!"cpu,a=1", b!"f", b!"9950"), b!"3")] := fun t => rfl
  refine ⟨⟨exStoreL, exStoreMs, exStorePubss, [s1, s2], by decide, by decide, hl, hf2, rfl, by
      intro s hs
      have : s = s1 ∨ s = s2 := by simpa using hs
      rcases this with rfl | rfl
      · exact a1
      · exact b1⟩,
    [(b!"cpu f=1 9900\n", 0), (b!"cpu,a=1 f=3 9950\n", 0), (b!"cpu f=1 9900\n", 5)], ?_, ?_, rfl, ?_, rfl, ?_, ?_, ?_,
    ⟨[[(b!"cpu,a=1 f=3 9950\n", 0)], [(b!"cpu f=1 9900\n", 0), (b!"cpu f=1 9900\n", 5)]], rfl, ?_, by decide⟩,
    rfl, by decide⟩
  · refine ⟨show ∀ q ∈ exStoreL.pubs, q.failed = false by decide, ?_,
      show ∀ q ∈ exStorePubss.flatten, q.failed = false by decide, ?_⟩
    · show (exStoreMs.map (·.data)).Perm (publishedL exStoreL)
      exact List.Perm.swap _ _ _
    · show ([s1, s2].flatMap fun s => received s.hist).Perm (published b!"cpu-subject" exStorePubss.flatten)
      simp only [List.flatMap_cons, List.flatMap_nil, List.append_nil, a2, b2]
      decide
  · refine ⟨by decide, ?_⟩
    show ∀ m ∈ exStoreMs, _
    unfold exStoreMs
    intro m hm
    have key : ∀ line ∈ [b!"cpu f=1 9900\n", b!"mem,h=1 f=2 9900\n", b!"cpu,a=1 f=3 9950\n"],
        ∃ v ∈ [(9900 : Int), 9950], ∃ off ∈ [(8 : Int), 12], extractTimestamp line = .ok (v, off) := by decide +kernel
    have fin : ∀ now ∈ [(10000 : Int), 10001], ∀ line ∈ [b!"cpu f=1 9900\n", b!"mem,h=1 f=2 9900\n", b!"cpu,a=1 f=3 9950\n"],
        Timely now 1000 line := by
      intro now hnow line hline
      obtain ⟨v, hv, off, -, e⟩ := key line hline
      refine timely_of e ?_
      have hn : now = 10000 ∨ now = 10001 := by simpa using hnow
      have hv' : v = 9900 ∨ v = 9950 := by simpa using hv
      omega
    rcases List.mem_cons.1 hm with rfl | hm
    · refine ⟨by decide, by decide, fun line hline => fin _ (by simp) line ?_⟩
      revert line
      decide
    · rcases List.mem_cons.1 hm with rfl | hm
      · refine ⟨by decide, by decide, fun line hline => fin _ (by simp) line ?_⟩
        revert line
        decide
      · cases hm
  · intro s hs
    have : s = s1 ∨ s = s2 := by simpa using hs
    rcases this with rfl | rfl
    · refine ⟨a3, ?_⟩
      intro i d r t hf
      rw [a2] at hf ⊢
      simp [exStoreHist1] at hf
      rw [hf.1]
      exact Or.inl ⟨b!"cpu,a=1 f=3 9950\n", .status 204, 0, by simp [exStoreHist1], ok204⟩
    · refine ⟨b3, ?_⟩
      intro i d r t hf
      rw [b2] at hf ⊢
      simp [exStoreHist2] at hf
      rw [hf.1]
      exact Or.inr ⟨.status 204, 5, by simp [exStoreHist2], ok204⟩
  · intro txt htx
    have : txt = b!"cpu f=1 9900\n" ∨ txt = b!"cpu,a=1 f=3 9950\n" := by simpa using htx
    rcases this with rfl | rfl
    · exact ⟨⟨b!"cpu f=1 9900", by decide, rfl⟩, by decide⟩
    · exact ⟨⟨b!"cpu,a=1 f=3 9950", by decide, rfl⟩, by decide⟩
  · intro txt htx t t'
    have : txt = b!"cpu f=1 9900\n" ∨ txt = b!"cpu,a=1 f=3 9950\n" := by simpa using htx
    rcases this with rfl | rfl <;> rfl
  · intro l hl l' hl' t t' k v v' ha hb
    have hm : l = b!"cpu f=1 9900\n" ∨ l = b!"cpu,a=1 f=3 9950\n" := by simpa using hl
    have hm' : l' = b!"cpu f=1 9900\n" ∨ l' = b!"cpu,a=1 f=3 9950\n" := by simpa using hl'
    rcases hm with rfl | rfl <;> rcases hm' with rfl | rfl <;> simp only [hs1, hs2, List.mem_singleton, Prod.mk.injEq] at ha hb
    · rw [ha.2, hb.2]
    · rw [ha.1] at hb; exact absurd hb.1 (by decide)
    · rw [ha.1] at hb; exact absurd hb.1 (by decide)
    · rw [ha.2, hb.2]
  · intro i s l h1 h2
    match i with
    | 0 =>
      have h1 : [s1, s2][0]? = some s := h1
      simp only [List.getElem?_cons_zero, Option.some.injEq] at h1 h2
      rw [← h1, ← h2, a2]
      exact exStore_handled1
    | 1 =>
      have h1 : [s1, s2][1]? = some s := h1
      simp only [List.getElem?_cons_succ, List.getElem?_cons_zero, Option.some.injEq] at h1 h2
      rw [← h1, ← h2, b2]
      exact exStore_handled2
    | i + 2 => cases h2

end Spout.Delivery
