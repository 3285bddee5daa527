import Verif.Props.WayThere
import Verif.Props.DeploymentInv

/-! # C109: the batch is sent after the line came in, too

`C109_end_to_end` says that the text of a line is in a batch that is sent by some time. If the same text had been sent before, that would be true of the earlier batch. Here the time at which the batch is sent is bounded from below as well, so it is the line itself that arrives. -/

set_option linter.unusedSimpArgs false

namespace Spout.Delivery
open Spout Spout.Listener Spout.Spec Spout.Deploy

/-! ## Specification -/

/-- The clock of a UDP listener is not set back: each iteration first reads, then looks at the clock, and then comes the next. -/
structure ClockForward (es : List UDPEvent) : Prop where
  read : ∀ x ∈ es, x.tRead ≤ x.tCheck
  next : es.Pairwise fun x y => x.tCheck ≤ y.tRead

variable {S : Sorter} {lc : LConf} {t0 : Int} {es : List UDPEvent} {delta : Int} {rules : List Rule} {junk : Bytes} {wc : WConf}

/-- Each message is taken up by the filter after the iteration that published it has looked at the clock, and within `N`. -/
def Pipeline.FilterTakes (p : Pipeline S lc t0 es delta rules junk wc) (N : Int) : Prop :=
  ∀ q x, PublishedBy lc t0 es q x → ∃ m ∈ p.ms, m.data = q.data ∧ x.tCheck ≤ m.now ∧ m.now ≤ x.tCheck + N

/-- Each message that the filter publishes on `sub` is taken up by one of the writer's workers after the filter took up the message it came from, and within `N`. -/
def Pipeline.WriterTakes (p : Pipeline S lc t0 es delta rules junk wc) (sub : Bytes) (N : Int) : Prop :=
  ∀ (i : Nat) (m : FMsg) (pubs : List Pub), p.ms[i]? = some m → p.pubss[i]? = some pubs →
    ∀ q ∈ pubs, q.subject = sub → ∃ s ∈ p.writers, ∃ r, WEv.recv q.data r ∈ s.hist ∧ m.now ≤ r ∧ r ≤ m.now + N

/-! ## The listener -/

theorem udpRun_split : ∀ (a b : List UDPEvent) (l l' : Listener), udpRun l (a ++ b) = .ok l' → ∃ m, udpRun l a = .ok m ∧ udpRun m b = .ok l' := by
  intro a
  induction a with
  | nil => intro b l l' h; exact ⟨l, rfl, h⟩
  | cons e a ih =>
    intro b l l' h
    rw [List.cons_append, udpRun] at h
    rw [udpRun]
    cases hs : l.udpStep e with
    | panic => rw [hs] at h; cases h
    | ok x =>
      rw [hs, Go.ok_bind] at h
      rw [Go.ok_bind]
      exact ih b x l' h

theorem udpRun_join : ∀ (a b : List UDPEvent) (l m : Listener), udpRun l a = .ok m → udpRun l (a ++ b) = udpRun m b := by
  intro a
  induction a with
  | nil => intro b l m h; injection h with h; subst h; rfl
  | cons e a ih =>
    intro b l m h
    rw [udpRun] at h
    rw [List.cons_append, udpRun]
    cases hs : l.udpStep e with
    | panic => rw [hs] at h; cases h
    | ok x =>
      rw [hs, Go.ok_bind] at h
      rw [Go.ok_bind]
      exact ih b x m h

/-- What is published during some iterations is published by one of them. -/
theorem published_during : ∀ (rest seen after : List UDPEvent) (l l' : Listener) (q : LPub), udpRun (Listener.new lc t0) seen = .ok l → udpRun l rest = .ok l' →
    ∃ ps, l'.pubs = l.pubs ++ ps ∧ (q ∈ ps → ∃ x ∈ rest, PublishedBy lc t0 (seen ++ rest ++ after) q x) := by
  intro rest
  induction rest with
  | nil =>
    intro seen after l l' q _ h
    injection h with h
    subst h
    exact ⟨[], by simp, by simp⟩
  | cons e rest ih =>
    intro seen after l l' q h1 h2
    rw [udpRun] at h2
    cases hs : l.udpStep e with
    | panic => rw [hs] at h2; cases h2
    | ok x =>
      rw [hs, Go.ok_bind] at h2
      obtain ⟨-, ps1, e1⟩ := udpStep_pubs hs
      have hx : udpRun (Listener.new lc t0) (seen ++ [e]) = .ok x := by
        rw [udpRun_join _ _ _ _ h1, udpRun, hs, Go.ok_bind]
        rfl
      obtain ⟨ps2, e2, e3⟩ := ih (seen ++ [e]) after x l' q hx h2
      refine ⟨ps1 ++ ps2, by rw [e2, e1, List.append_assoc], ?_⟩
      intro hq
      rcases List.mem_append.1 hq with hq | hq
      · exact ⟨e, List.mem_cons_self, seen, rest ++ after, l, x, ps1, by simp, h1, hx, e1, hq⟩
      · obtain ⟨y, y1, y2⟩ := e3 hq
        refine ⟨y, List.mem_cons_of_mem _ y1, ?_⟩
        rw [show seen ++ e :: rest ++ after = seen ++ [e] ++ rest ++ after by simp]
        exact y2

/-- **C109 (the listener's message).** Each line of a datagram read at time `t` is in a message that is published by an iteration that looked at the clock between `t` and `t + batch_max_age + G`. -/
theorem C109_listener_window (G : Int) (lc : LConf) (hsize : lc.batchMaxSize ≤ 1048576) (hA : 0 ≤ lc.batchMaxAge) (t0 : Int) (before after : List UDPEvent) (e : UDPEvent)
    (hd : ∀ x ∈ before ++ e :: after, x.data.length ≤ 65507) (hc : ClockForward (before ++ e :: after)) (hG : ChecksEvery G e after) (hlong : ∃ x ∈ e :: after, e.tRead + lc.batchMaxAge ≤ x.tCheck)
    (line : Bytes) (hline : line ∈ linesOf (completed e.data)) :
    ∃ q x, PublishedBy lc t0 (before ++ e :: after) q x ∧ line ∈ linesOf q.data ∧ e.tRead ≤ x.tCheck ∧ x.tCheck ≤ e.tRead + lc.batchMaxAge + G := by
  have hne : e.data ≠ [] := by
    intro h
    rw [h] at hline
    exact absurd hline (by simp [completed, linesOf_nil])
  have hm : ∀ b ∈ before, b.tRead ≤ e.tRead := by
    intro b hb
    have h1 := (List.pairwise_append.1 hc.next).2.2 b hb e List.mem_cons_self
    have h2 := hc.read b (List.mem_append_left _ hb)
    omega
  rcases C89_udp_delay G lc hA t0 before after e (fun x hx => Nat.le_trans (hd x hx) (by omega)) hne hm hG.1 hG.2 with
    h | ⟨now, later, f, l, h1, h2, h3, h4, h5⟩
  · obtain ⟨x, hx, hx2⟩ := hlong
    have := h x hx
    omega
  · obtain ⟨l0, r1, r2⟩ := udpRun_split before now _ _ h4
    obtain ⟨l0', s1, s2, s3⟩ := C48_udp_stream lc t0 before (fun x hx => Nat.le_trans (hd x (List.mem_append_left _ hx)) (by omega))
    rw [r1] at s1
    injection s1 with s1
    subst s1
    have hd' : ∀ x ∈ before ++ now, x.data.length ≤ 65507 := by
      intro x hx
      apply hd
      rw [h1]
      rcases List.mem_append.1 hx with hx | hx
      · exact List.mem_append_left _ hx
      · exact List.mem_append_right _ (List.mem_append_left _ hx)
    obtain ⟨-, hq⟩ := listener_lines lc hsize t0 (before ++ now) hd' l h4
    obtain ⟨ps, p1, -⟩ := published_during now before later l0 l ⟨[], false⟩ r1 r2
    -- what was waiting before, and the datagram, are in the messages published since
    have hpre : l0.batch.bytes ++ completed e.data <+: (ps.map (·.data)).flatten := by
      rw [p1, List.map_append, List.flatten_append, List.map_append, List.flatten_append, ← s2] at h5
      simp only [List.map_cons, List.map_nil, List.flatten_cons, List.flatten_nil, List.append_nil] at h5
      rw [List.append_assoc] at h5
      exact (List.prefix_append_right_inj _).1 h5
    have hce : completed e.data = [] ∨ (completed e.data).getLast? = some NL := completed_complete _
    have hend : l0.batch.bytes ++ completed e.data = [] ∨ (l0.batch.bytes ++ completed e.data).getLast? = some NL := by
      rcases hce with hce | hce
      · rw [hce] at hline
        exact absurd hline (by simp [linesOf_nil])
      · right
        rw [List.getLast?_append, hce]
        rfl
    have hl2 := mem_linesOf_prefix hpre hend line (by
      rw [linesOf_append _ _ s3]
      exact List.mem_append_right _ hline)
    rw [linesOf_flatten_complete _ (by
      intro d hdm
      obtain ⟨q', hq', rfl⟩ := List.mem_map.1 hdm
      exact hq q' (by rw [p1]; exact List.mem_append_right _ hq'))] at hl2
    obtain ⟨d, hdm, hld⟩ := List.mem_flatMap.1 hl2
    obtain ⟨q, hqm, rfl⟩ := List.mem_map.1 hdm
    obtain ⟨ps', p1', p2'⟩ := published_during now before later l0 l q r1 r2
    rw [p1] at p1'
    have p1' := List.append_cancel_left p1'
    subst p1'
    obtain ⟨x, hx, hpx⟩ := p2' hqm
    rw [List.append_assoc, ← h1] at hpx
    refine ⟨q, x, hpx, hld, ?_, ?_⟩
    · have hxin : x ∈ e :: after := by rw [h1]; exact List.mem_append_left _ hx
      have hrx := hc.read x (List.mem_append_right _ hxin)
      rcases List.mem_cons.1 hxin with rfl | hxa
      · exact hrx
      · have h6 := (List.pairwise_cons.1 (List.pairwise_append.1 hc.next).2.1).1 x hxa
        have h7 := hc.read e (by simp)
        omega
    · obtain ⟨a, ha⟩ := List.getLast?_eq_some_iff.1 h2
      rw [ha] at hx
      rcases List.mem_append.1 hx with hx | hx
      · have h6 := (List.pairwise_append.1 hc.next).2.1
        rw [h1, ha] at h6
        have h7 := (List.pairwise_append.1 (List.pairwise_append.1 h6).1).2.2 x hx f (by simp)
        have h8 := hc.read f (by rw [h1, ha]; simp)
        omega
      · rw [List.mem_singleton.1 hx]
        exact h3

/-! ## End to end -/

/-- **C109 (the line itself).** If the listener looks at the clock at least every `G`, a message takes at most `N1` to the filter and from there at most `N2` to a worker of the writer, then each line of a datagram read at time `t` that belongs to `sub` (and
is timely when the filter sees it) is in a batch that the writer starts to send after `t`, and at `t + batch_max_age of the listener + G + N1 + N2 + batch_max_age of the writer + 1 s` at the latest. -/
theorem C109_window (G N1 N2 : Int) (before after : List UDPEvent) (e : UDPEvent) (hes : es = before ++ e :: after)
    (p : Pipeline S lc t0 es delta rules junk wc) (sub : Bytes) (hA : 0 ≤ lc.batchMaxAge) (hW : 0 ≤ wc.batchMaxAge)
    (hc : ClockForward es) (hG : ChecksEvery G e after) (hlong : ∃ x ∈ e :: after, e.tRead + lc.batchMaxAge ≤ x.tCheck)
    (ht : p.Timely) (hf : p.FilterTakes N1) (hw : p.WriterTakes sub N2)
    (hs : p.PromptPast (e.tRead + lc.batchMaxAge + G + N1 + N2 + wc.batchMaxAge + 1000000000))
    (line txt : Bytes) (hline : line ∈ linesOf (completed e.data)) (hx : textTo S rules junk sub line = some txt) :
    ∃ s ∈ p.writers, ∃ batch t, WEv.flush batch t ∈ s.hist ∧ txt <:+: batch ∧ e.tRead ≤ t ∧
      t ≤ e.tRead + lc.batchMaxAge + G + N1 + N2 + wc.batchMaxAge + 1000000000 := by
  subst hes
  obtain ⟨q, x, hq, hlq, x1, x2⟩ := C109_listener_window G lc p.size hA t0 before after e p.datagrams hc hG hlong line hline
  obtain ⟨m, hmm, hmd, hm1, hm2⟩ := hf q x hq
  obtain ⟨w, st, hfr⟩ := p.filtered
  obtain ⟨t1, t2, t3⟩ := ht.2 m hmm
  rw [← hmd] at hlq
  obtain ⟨i, pubs, g1, g2, q2, g3, g4, g5⟩ := filter_line delta rules junk sub p.ms w st p.pubss hfr m hmm ht.1 t1 t2
    line txt hlq (t3 line hlq) hx
  obtain ⟨s, hsw, r, hr, hr1, hr2⟩ := hw i m pubs g1 g2 q2 g3 g4
  obtain ⟨⟨pages, start, hpr⟩, hph, hnow⟩ := hs s hsw
  obtain ⟨batch, t, k1, k2, k3, k4⟩ := C109_writer wc hW p.norules pages start s hpr hph q2.data r hr (by omega)
  exact ⟨s, hsw, batch, t, k1, g5.trans k2, by omega, by omega⟩

/-- All hypotheses of C109_window are met by a run in which a line waits for the age limit of the listener and for
that of the writer. -/
example : ∃ (p : Pipeline insertionSorter ⟨5, 1000, 1048576⟩ 0 exFreshEvents 1000 exRules b!"junk" exFreshConf)
    (e : UDPEvent) (after : List UDPEvent), exFreshEvents = [] ++ e :: after ∧ ClockForward exFreshEvents ∧ ChecksEvery 2000 e after ∧
    (∃ x ∈ e :: after, e.tRead + 1000 ≤ x.tCheck) ∧ p.Timely ∧ p.FilterTakes 100 ∧
    p.WriterTakes b!"cpu-subject" 100 ∧ p.PromptPast (e.tRead + 1000 + 2000 + 100 + 100 + 10 + 1000000000) ∧
    b!"cpu f=1\n" ∈ linesOf (completed e.data) ∧
    textTo insertionSorter exRules b!"junk" b!"cpu-subject" b!"cpu f=1\n" = some b!"cpu f=1\n" := by
  obtain ⟨s, hs, hs2⟩ := pActs_hist
    (fun s => decide (WEv.recv b!"cpu f=1\n" 2100 ∈ s.hist) && decide (s.now = 1500000000) &&
      (match s.phase with | .stopped => false | _ => true))
    (c := exFreshConf) (s0 := WSys.start exFreshConf 100000 0) (as := exFreshActs) (by decide +kernel)
  simp only [Bool.and_eq_true, decide_eq_true_eq] at hs2
  obtain ⟨⟨r1, r2⟩, r3⟩ := hs2
  have hl : udpRun (Listener.new ⟨5, 1000, 1048576⟩ 0) exFreshEvents = .ok exFreshL := by decide +kernel
  have hf : (match filterRun insertionSorter (FWorker.new 1000 exRules b!"junk") (FStats.init exRules.length) exFreshMs with
      | .ok (_, _, x) => some x | .panic => none) = some exFreshPubss := by decide +kernel
  have hf2 : ∃ w st, filterRun insertionSorter (FWorker.new 1000 exRules b!"junk") (FStats.init exRules.length) exFreshMs =
      .ok (w, st, exFreshPubss) := by
    cases hc : filterRun insertionSorter (FWorker.new 1000 exRules b!"junk") (FStats.init exRules.length) exFreshMs with
    | panic => rw [hc] at hf; cases hf
    | ok x =>
      obtain ⟨w, st, y⟩ := x
      rw [hc] at hf
      injection hf with hf
      subst hf
      exact ⟨w, st, rfl⟩
  refine ⟨⟨exFreshL, exFreshMs, exFreshPubss, [s], by decide, by decide, hl, hf2, rfl, by
      intro s' hs'
      have : s' = s := by simpa using hs'
      subst this
      exact ⟨100000, 0, hs.reach⟩⟩,
    ⟨b!"cpu f=1", false, 1, 2, 3, fun _ => false⟩, [⟨[], false, 2000, 2001, 2002, fun _ => false⟩], rfl, ⟨by decide, by decide⟩, ?_, ?_, ?_, ?_, ?_,
    ?_, by decide, by decide +kernel⟩
  · refine ⟨by decide, ?_⟩
    intro a b x y h
    cases a with
    | nil =>
      simp only [List.nil_append, List.cons.injEq] at h
      obtain ⟨rfl, rfl, -⟩ := h
      decide
    | cons z a =>
      simp only [List.cons_append, List.cons.injEq] at h
      obtain ⟨-, h⟩ := h
      have := congrArg List.length h
      simp only [List.length_append, List.length_cons, List.length_nil] at this
      omega
  · exact ⟨_, List.mem_cons_of_mem _ (List.mem_cons_self ..), by decide⟩
  · refine ⟨by decide, ?_⟩
    show ∀ m ∈ exFreshMs, _
    unfold exFreshMs
    intro m hm
    rcases List.mem_cons.1 hm with rfl | hm
    · refine ⟨by decide, by decide, ?_⟩
      intro line hline
      right
      intro v off hts
      have h1 : extractTimestamp line = .ok (-1, -1) := by
        clear hts
        revert line
        decide +kernel
      have := extractTimestamp_some hts
      rw [h1] at this
      injection this with this
      injection this with _ this
      obtain ⟨-, pre, ts, -, -, -, -, e⟩ := hts
      omega
    · cases hm
  · intro q x hq
    obtain ⟨seen, after, l1, l2, ps, hes, g1, g2, g3, g4⟩ := hq
    show ∃ m ∈ exFreshMs, _
    unfold exFreshEvents at hes
    match seen, hes with
    | [], hr =>
      exfalso
      simp only [List.nil_append, List.cons.injEq] at hr
      have hno : (match udpRun (Listener.new ⟨5, 1000, 1048576⟩ 0) [⟨b!"cpu f=1", false, 1, 2, 3, fun _ => false⟩] with
          | .ok l => l.pubs.length | .panic => 1) = 0 := by decide +kernel
      rw [List.nil_append, ← hr.1] at g2
      rw [g2] at hno
      have h0 : l2.pubs.length = 0 := hno
      rw [g3, List.length_append] at h0
      have : ps = [] := List.eq_nil_of_length_eq_zero (by omega)
      rw [this] at g4
      cases g4
    | [y], hr =>
      simp only [List.cons_append, List.nil_append, List.cons.injEq] at hr
      obtain ⟨hy, hx, -⟩ := hr
      subst hy
      subst hx
      have g2' := g2
      rw [show ([⟨b!"cpu f=1", false, 1, 2, 3, fun _ => false⟩] ++ [⟨[], false, 2000, 2001, 2002, fun _ => false⟩] : List UDPEvent) = exFreshEvents from rfl, hl] at g2'
      injection g2' with g2'
      have h5 : q ∈ exFreshL.pubs := by rw [g2', g3]; exact List.mem_append_right _ g4
      have hq2 : q = ⟨b!"cpu f=1\n", false⟩ := by simpa [exFreshL] using h5
      subst hq2
      exact ⟨_, List.mem_cons_self .., rfl, by decide, by decide⟩
    | y :: z :: zs, hr =>
      have := congrArg List.length hr
      simp at this
  · intro i m pubs h1 h2 q hq _
    match i with
    | 0 =>
      have h1 : exFreshMs[0]? = some m := h1
      have h2 : exFreshPubss[0]? = some pubs := h2
      simp only [exFreshMs, exFreshPubss, List.getElem?_cons_zero, Option.some.injEq] at h1 h2
      subst h1
      subst h2
      have hq2 : q = ⟨b!"cpu-subject", b!"cpu f=1\n", false⟩ := by simpa using hq
      subst hq2
      exact ⟨s, List.mem_cons_self .., 2100, r1, by decide, by decide⟩
    | i + 1 =>
      have h1 : exFreshMs[i + 1]? = some m := h1
      simp [exFreshMs] at h1
  · intro s' hs'
    have : s' = s := by simpa using hs'
    subst this
    refine ⟨⟨100000, 0, hs⟩, ?_, by rw [r2]; decide⟩
    intro h
    rw [h] at r3
    cases r3

end Spout.Delivery
