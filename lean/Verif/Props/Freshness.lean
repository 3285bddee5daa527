import Verif.Props.Delivery
import Verif.Props.ListenerBatching

/-! # How long a line takes from the socket to the first write (C109)

A UDP listener, a filter and the workers of a writer as in C65.  NATS and the scheduler are represented by bounds on
the time that each hop takes. -/

set_option linter.unusedSimpArgs false

namespace Spout.Delivery
open Spout Spout.Listener Spout.Spec

/-! ## Specification -/

variable {S : Sorter} {lc : LConf} {t0 : Int} {es : List UDPEvent} {delta : Int} {rules : List Rule} {junk : Bytes}
  {wc : WConf}

/-- Each message the listener publishes is taken up by the filter within `N` of the listener's iteration: `seen` are the
iterations so far, `f` the last of them, `l` the listener after it. -/
def Pipeline.FilterWithin (p : Pipeline S lc t0 es delta rules junk wc) (N : Int) : Prop :=
  ∀ (seen : List UDPEvent) (f : UDPEvent) (l : Listener), seen <+: es → seen.getLast? = some f →
    udpRun (Listener.new lc t0) seen = .ok l → ∀ q ∈ l.pubs, ∃ m ∈ p.ms, m.data = q.data ∧ m.now ≤ f.tCheck + N

/-- Each message that the filter publishes on `sub` is taken up by one of the writer's workers within `N` of the time at
which the filter took up the message it came from. -/
def Pipeline.WriterWithin (p : Pipeline S lc t0 es delta rules junk wc) (sub : Bytes) (N : Int) : Prop :=
  ∀ (i : Nat) (m : FMsg) (pubs : List Pub), p.ms[i]? = some m → p.pubss[i]? = some pubs →
    ∀ q ∈ pubs, q.subject = sub → ∃ s ∈ p.writers, ∃ r, WEv.recv q.data r ∈ s.hist ∧ r ≤ m.now + N

/-- Every worker of the writer is scheduled promptly, is running, and its clock is past `t`. -/
def Pipeline.PromptPast (p : Pipeline S lc t0 es delta rules junk wc) (t : Int) : Prop :=
  ∀ s ∈ p.writers, (∃ pages start, Prompt wc (WSys.start wc pages start) s) ∧ s.phase ≠ .stopped ∧ t < s.now

/-- The listener looks at the clock within `G` of reading `e`, and then at least every `G`. -/
def ChecksEvery (G : Int) (e : UDPEvent) (after : List UDPEvent) : Prop :=
  e.tCheck ≤ e.tRead + G ∧
  ∀ (a b : List UDPEvent) (x y : UDPEvent), e :: after = a ++ x :: y :: b → y.tCheck ≤ x.tCheck + G

/-! ## The writer -/

/-- A step of the writer adds events of which none is the sending of a batch, or just that. -/
theorem wstep_hist {c : WConf} {s s' : WSys} (h : WStep c s s') :
    (∃ evs, s'.hist = s.hist ++ evs ∧ ∀ d t, WEv.flush d t ∉ evs) ∨ ∃ d t, s'.hist = s.hist ++ [.flush d t] := by
  cases h with
  | flush chunks hp h hc => exact Or.inr ⟨_, _, rfl⟩
  | fire dl gone b' q hp hd ht hq =>
    rw [(reportWrite_same c _).2.1]
    left
    exact ⟨_, List.append_assoc _ _ _, by simp⟩
  | finish i r hp =>
    rw [(finishRetry_same c _ r).2.1]
    exact Or.inl ⟨_, rfl, by simp⟩
  | fireEmpty dl gone hp hd ht hq => exact Or.inl ⟨_, rfl, by simp⟩
  | input i buf q gone hp hc hq =>
    left
    exact ⟨_, List.append_assoc _ _ _, by simp⟩
  | tick t ht => exact Or.inl ⟨[], by simp, by simp⟩
  | _ => first
    | exact Or.inl ⟨_, rfl, by simp⟩
    | exact Or.inl ⟨[], by simp, by simp⟩

theorem prompt_flush {c : WConf} {s0 s : WSys} (h : Prompt c s0 s) (h0 : s0.hist = []) (h1 h2 : List WEv) (d : Bytes)
    (t : Int) (e : s.hist = h1 ++ .flush d t :: h2) :
    ∃ a b, Prompt c s0 a ∧ WStep c a b ∧ a.hist = h1 ∧ b.hist = h1 ++ [.flush d t] := by
  induction h generalizing h2 with
  | refl => rw [h0] at e; cases h1 <;> cases e
  | @step b d' hab hst hsel hchk ih =>
    rcases wstep_hist hst with ⟨evs, g1, g2⟩ | ⟨dd, tt, g1⟩
    · rw [g1] at e
      rcases List.append_eq_append_iff.1 e with ⟨x, e1, e2⟩ | ⟨x, e1, e2⟩
      · exfalso
        apply g2 d t
        rw [e2]
        simp
      · cases x with
        | nil =>
          exfalso
          apply g2 d t
          rw [← (show WEv.flush d t :: h2 = evs by simpa using e2)]
          simp
        | cons y ys =>
          simp only [List.cons_append, List.cons.injEq] at e2
          obtain ⟨rfl, -⟩ := e2
          exact ih ys e1
    · rw [g1] at e
      rcases List.append_eq_append_iff.1 e with ⟨x, e1, e2⟩ | ⟨x, e1, e2⟩
      · cases x with
        | nil =>
          simp only [List.nil_append, List.cons.injEq] at e2
          obtain ⟨e3, -⟩ := e2
          refine ⟨b, d', hab, hst, by simpa using e1.symm, ?_⟩
          rw [g1, e3, e1]
          simp
        | cons y ys => cases ys <;> cases e2
      · cases x with
        | nil =>
          simp only [List.nil_append, List.cons.injEq] at e2
          obtain ⟨e3, -⟩ := e2
          refine ⟨b, d', hab, hst, by simpa using e1, ?_⟩
          rw [g1, ← e3, e1]
          simp
        | cons y ys =>
          simp only [List.cons_append, List.cons.injEq] at e2
          obtain ⟨rfl, -⟩ := e2
          exact ih ys e1

/-- What was received is waiting or was part of a batch that was sent. -/
theorem recv_pending_or_sent (h : List WEv) (d : Bytes) (r : Int) (hr : WEv.recv d r ∈ h) :
    (d, r) ∈ pending [] h ∨ ∃ h1 h2 d' t, h = h1 ++ .flush d' t :: h2 ∧ (d, r) ∈ pending [] h1 := by
  have key : ∀ (g : List WEv), WEv.recv d r ∈ g.reverse →
      (d, r) ∈ pending [] g.reverse ∨ ∃ h1 h2 d' t, g.reverse = h1 ++ .flush d' t :: h2 ∧ (d, r) ∈ pending [] h1 := by
    intro g
    induction g with
    | nil => intro hm; cases hm
    | cons e g ih =>
      intro hm
      rw [List.reverse_cons] at hm ⊢
      rw [pending_snoc]
      rcases List.mem_append.1 hm with hm | hm
      · rcases ih hm with ih | ⟨h1, h2, d', t, e1, e2⟩
        · cases e with
          | flush d' t => exact Or.inr ⟨g.reverse, [], d', t, rfl, ih⟩
          | recv d' t => exact Or.inl (List.mem_append_left _ ih)
          | _ => exact Or.inl ih
        · exact Or.inr ⟨h1, h2 ++ [e], d', t, by rw [e1]; simp, e2⟩
      · have : e = WEv.recv d r := (show WEv.recv d r = e by simpa using hm).symm
        subst this
        left
        exact List.mem_append_right _ (by simp [pieces])
  have := key h.reverse (by simpa using hr)
  simpa using this

theorem infix_dataOf (p : List (Bytes × Int)) (x : Bytes × Int) (hx : x ∈ p) : x.1 <:+: dataOf p := by
  obtain ⟨a, b, rfl⟩ := List.append_of_mem hx
  exact ⟨dataOf a, dataOf b, by unfold dataOf; simp⟩

/-- A batch is sent when the clock shows the time that is recorded. -/
theorem flush_now {c : WConf} {s s' : WSys} (hst : WStep c s s') {d : Bytes} {t : Int} (hf : s'.hist = s.hist ++ [.flush d t]) : t = s.now := by
  suffices hp : s.phase = .check ∧ t = s.now from hp.2
  cases hst with
  | flush chunks hp h hc =>
    simp at hf
    exact ⟨hp, hf.2.symm⟩
  | fire dl gone b' q hp hd ht hq =>
    rw [(reportWrite_same c _).2.1] at hf
    have := List.append_cancel_left (by simpa using hf : s.hist ++ _ = s.hist ++ _)
    have := congrArg List.getLast? this
    simp at this
  | finish i r hp =>
    rw [(finishRetry_same c _ r).2.1] at hf
    simp at hf
  | fireEmpty dl gone hp hd ht hq =>
    exfalso
    have : WEv.flush d t ∈ (gone.map fun g => WEv.expired g.id s.now) := by
      have := List.append_cancel_left hf
      rw [this]; simp
    obtain ⟨g, -, hg⟩ := List.mem_map.1 this
    cases hg
  | input i buf q gone hp hc hq =>
    have := congrArg List.getLast? hf
    simp at this
  | _ => simp at hf

/-- **C109 (writer).** A message taken up at time `r` by a promptly scheduled worker that is still running more than
`batch_max_age` and a second later has been sent, whole and in one batch, after that and by then. -/
theorem C109_writer (wc : WConf) (hage : 0 ≤ wc.batchMaxAge) (hr : wc.rules = []) (pages : Nat) (start : Int) (s : WSys)
    (h : Prompt wc (WSys.start wc pages start) s) (hp : s.phase ≠ .stopped) (d : Bytes) (r : Int)
    (hd : WEv.recv d r ∈ s.hist) (hlate : r + wc.batchMaxAge + 1000000000 < s.now) :
    ∃ batch t, WEv.flush batch t ∈ s.hist ∧ d <:+: batch ∧ r ≤ t ∧ t ≤ r + wc.batchMaxAge + 1000000000 := by
  rcases recv_pending_or_sent s.hist d r hd with h1 | ⟨h1, h2, d', t, e1, e2⟩
  · have := C69_age_bound wc hage pages start s h hp (d, r) (by rw [hr]; exact h1)
    have h3 : s.now - r ≤ wc.batchMaxAge + 1000000000 := this
    omega
  · obtain ⟨g1, -, -⟩ := C35_sent_at_limit wc s ⟨pages, start, h.reach⟩ h1 h2 d' t e1
    obtain ⟨a, b, p1, p2, p3, p4⟩ := prompt_flush h rfl h1 h2 d' t e1
    have h3 := C69_sent_in_time wc hage pages start a b p1 p2 d' t (by rw [p4, p3]) (d, r) (by rw [hr, p3]; exact e2)
    have h4 : t - r ≤ wc.batchMaxAge + 1000000000 := h3
    have h5 := (pending_sorted ⟨pages, start, p1.reach⟩).1 (d, r) (by rw [hr, p3]; exact e2)
    have h6 := flush_now p2 (d := d') (t := t) (by rw [p4, p3])
    have h7 : r ≤ a.now := h5
    refine ⟨d', t, by rw [e1]; simp, ?_, by omega, by omega⟩
    rw [g1, hr]
    exact infix_dataOf _ (d, r) e2

/-! ## The listener -/

theorem mem_linesOf_prefix {a b : Bytes} (h : a <+: b) (ha : a = [] ∨ a.getLast? = some NL) (line : Bytes)
    (hl : line ∈ linesOf a) : line ∈ linesOf b := by
  obtain ⟨c, rfl⟩ := h
  rw [linesOf_append a c ha]
  exact List.mem_append_left _ hl

/-- **C109 (listener).** Each line of a datagram read at time `t` is in a message published by an iteration that looked
at the clock at `t + batch_max_age + G` at the latest. -/
theorem C109_listener (G : Int) (lc : LConf) (hsize : lc.batchMaxSize ≤ 1048576) (hA : 0 ≤ lc.batchMaxAge) (t0 : Int)
    (before after : List UDPEvent) (e : UDPEvent)
    (hd : ∀ x ∈ before ++ e :: after, x.data.length ≤ 65507)
    (hm : ∀ b ∈ before, b.tRead ≤ e.tRead) (hG : ChecksEvery G e after)
    (hlong : ∃ x ∈ e :: after, e.tRead + lc.batchMaxAge ≤ x.tCheck)
    (line : Bytes) (hline : line ∈ linesOf (completed e.data)) :
    ∃ (now later : List UDPEvent) (f : UDPEvent) (l : Listener), e :: after = now ++ later ∧ now.getLast? = some f ∧
      f.tCheck ≤ e.tRead + lc.batchMaxAge + G ∧ udpRun (Listener.new lc t0) (before ++ now) = .ok l ∧
      ∃ q ∈ l.pubs, line ∈ linesOf q.data := by
  have hne : e.data ≠ [] := by
    intro h
    rw [h] at hline
    exact absurd hline (by simp [completed, linesOf_nil])
  rcases C89_udp_delay G lc hA t0 before after e (fun x hx => Nat.le_trans (hd x hx) (by omega)) hne hm hG.1 hG.2 with
    h | ⟨now, later, f, l, h1, h2, h3, h4, h5⟩
  · obtain ⟨x, hx, hx2⟩ := hlong
    have := h x hx
    omega
  · refine ⟨now, later, f, l, h1, h2, h3, h4, ?_⟩
    have hd' : ∀ x ∈ before ++ now, x.data.length ≤ 65507 := by
      intro x hx
      apply hd
      rw [h1]
      rcases List.mem_append.1 hx with hx | hx
      · exact List.mem_append_left _ hx
      · exact List.mem_append_right _ (List.mem_append_left _ hx)
    obtain ⟨-, hq⟩ := listener_lines lc hsize t0 (before ++ now) hd' l h4
    have hcomp : ∀ d ∈ (before ++ [e]).map fun x => completed x.data, d = [] ∨ d.getLast? = some NL := by
      intro d hdm
      obtain ⟨x, -, rfl⟩ := List.mem_map.1 hdm
      exact completed_complete _
    have hpub : ∀ d ∈ l.pubs.map (·.data), d = [] ∨ d.getLast? = some NL := by
      intro d hdm
      obtain ⟨q, hqm, rfl⟩ := List.mem_map.1 hdm
      exact hq q hqm
    have hin : line ∈ linesOf ((before ++ [e]).map fun x => completed x.data).flatten := by
      rw [linesOf_flatten_complete _ hcomp]
      exact List.mem_flatMap.2 ⟨completed e.data, List.mem_map.2 ⟨e, by simp, rfl⟩, hline⟩
    have hcf : ((before ++ [e]).map fun x => completed x.data).flatten = [] ∨
        ((before ++ [e]).map fun x => completed x.data).flatten.getLast? = some NL := by
      rw [List.map_append, List.flatten_append]
      rcases completed_complete e.data with h | h
      · exact absurd h (completed_ends _ hne).1
      · right
        simp only [List.map_cons, List.map_nil, List.flatten_cons, List.flatten_nil, List.append_nil]
        rw [List.getLast?_append, h]
        rfl
    have := mem_linesOf_prefix h5 hcf line hin
    rw [linesOf_flatten_complete _ hpub] at this
    obtain ⟨d, hdm, hld⟩ := List.mem_flatMap.1 this
    obtain ⟨q, hqm, rfl⟩ := List.mem_map.1 hdm
    exact ⟨q, hqm, hld⟩

/-! ## The filter -/

/-- The text of a timely line is part of a message published for the message that contains it. -/
theorem filter_line (delta : Int) (rules : List Rule) (junk sub : Bytes) (ms : List FMsg)
    (w : FWorker) (st : FStats) (pubss : List (List Pub))
    (h : filterRun S (FWorker.new delta rules junk) (FStats.init rules.length) ms = .ok (w, st, pubss))
    (m : FMsg) (hm : m ∈ ms) (hpos : 0 < delta) (h1 : InInt64 (m.now - delta)) (h2 : InInt64 (m.now + delta))
    (line txt : Bytes) (hl : line ∈ linesOf m.data) (ht : Timely m.now delta line)
    (hx : textTo S rules junk sub line = some txt) :
    ∃ (i : Nat) (pubs : List Pub), ms[i]? = some m ∧ pubss[i]? = some pubs ∧
      ∃ q ∈ pubs, q.subject = sub ∧ txt <:+: q.data := by
  obtain ⟨st', pubss', g1, g2⟩ := C16_history S delta rules junk ms
  rw [h] at g1
  injection g1 with g1
  injection g1 with _ g1
  injection g1 with _ g1
  subst g1
  obtain ⟨i, hi, hmi⟩ := List.mem_iff_getElem.1 hm
  have hi2 : i < pubss.length := by
    have := congrArg List.length g2
    simp only [List.length_map] at this
    omega
  refine ⟨i, pubss[i], by rw [List.getElem?_eq_getElem hi, hmi], List.getElem?_eq_getElem hi2, ?_⟩
  have g3 : (pubss[i]).map (fun p => (p.subject, p.data)) = expectedPubs rules junk (outcomes S rules delta m.now m.data) := by
    have := congrArg (fun (x : List (List (Bytes × Bytes))) => x[i]?) g2
    simp only [List.getElem?_map, List.getElem?_eq_getElem hi, List.getElem?_eq_getElem hi2, Option.map_some,
      Option.some.injEq] at this
    rw [this, hmi]
  obtain ⟨D, d1, d2⟩ := message_groups rules junk sub _ (noEmpty_outcomes S rules delta m.now m.data)
  have hin : txt ∈ grouped rules junk sub (outcomes S rules delta m.now m.data) := by
    rw [(grouped_perm rules junk sub _
      (fun i out h => routed_lt_outcomes S rules delta m.now m.data i out h)).mem_iff]
    unfold outcomes
    rw [List.filterMap_map]
    refine List.mem_filterMap.2 ⟨line, hl, ?_⟩
    rw [Function.comp, onSub_outcome, if_neg, hx]
    rcases ht with ⟨v, off, hts, hw⟩ | hn
    · exact C17_in_window_accepted S rules m.now delta v off line hts hw h1 h2
    · exact C17_no_timestamp_accepted S rules m.now delta line hn hpos h1 h2
  rw [← d2] at hin
  obtain ⟨g, hg, hxg⟩ := List.mem_flatten.1 hin
  have hg2 : g.flatten ∈ onSubject sub (pubss[i]) := by
    rw [onSubject_pairs, g3, d1]
    exact List.mem_map.2 ⟨g, hg, rfl⟩
  unfold onSubject at hg2
  obtain ⟨q, hq, hqd⟩ := List.mem_map.1 hg2
  obtain ⟨hq1, hq2⟩ := List.mem_filter.1 hq
  refine ⟨q, hq1, by simpa using hq2, ?_⟩
  rw [hqd]
  obtain ⟨a, b, rfl⟩ := List.append_of_mem hxg
  exact ⟨a.flatten, b.flatten, by simp⟩

/-! ## End to end -/

/-- **C109.** If the listener looks at the clock at least every `G`, a message takes at most `N1` to the filter and from
there at most `N2` to a worker of the writer, then each line of a datagram read at time `t` that belongs to `sub` (and
is timely when the filter sees it) is in a batch that the writer starts to send at
`t + batch_max_age of the listener + G + N1 + N2 + batch_max_age of the writer + 1 s` at the latest. -/
theorem C109_end_to_end (G N1 N2 : Int) (before after : List UDPEvent) (e : UDPEvent) (hes : es = before ++ e :: after)
    (p : Pipeline S lc t0 es delta rules junk wc) (sub : Bytes)
    (hA : 0 ≤ lc.batchMaxAge) (hW : 0 ≤ wc.batchMaxAge)
    (hm : ∀ b ∈ before, b.tRead ≤ e.tRead) (hG : ChecksEvery G e after)
    (hlong : ∃ x ∈ e :: after, e.tRead + lc.batchMaxAge ≤ x.tCheck)
    (ht : p.Timely) (hf : p.FilterWithin N1) (hw : p.WriterWithin sub N2)
    (hs : p.PromptPast (e.tRead + lc.batchMaxAge + G + N1 + N2 + wc.batchMaxAge + 1000000000))
    (line txt : Bytes) (hline : line ∈ linesOf (completed e.data)) (hx : textTo S rules junk sub line = some txt) :
    ∃ s ∈ p.writers, ∃ batch t, WEv.flush batch t ∈ s.hist ∧ txt <:+: batch ∧
      t ≤ e.tRead + lc.batchMaxAge + G + N1 + N2 + wc.batchMaxAge + 1000000000 := by
  obtain ⟨now, later, f, l, h1, h2, h3, h4, q, hq, hlq⟩ := C109_listener G lc p.size hA t0 before after e
    (by rw [← hes]; exact p.datagrams) hm hG hlong line hline
  have hlast : (before ++ now).getLast? = some f := by
    rw [List.getLast?_append, h2]
    rfl
  obtain ⟨m, hmm, hmd, hmt⟩ := hf (before ++ now) f l ⟨later, by rw [hes, h1]; simp⟩ hlast h4 q hq
  obtain ⟨w, st, hfr⟩ := p.filtered
  obtain ⟨t1, t2, t3⟩ := ht.2 m hmm
  rw [← hmd] at hlq
  obtain ⟨i, pubs, g1, g2, q2, g3, g4, g5⟩ := filter_line delta rules junk sub p.ms w st p.pubss hfr m hmm ht.1 t1 t2
    line txt hlq (t3 line hlq) hx
  obtain ⟨s, hsw, r, hr, hrt⟩ := hw i m pubs g1 g2 q2 g3 g4
  obtain ⟨⟨pages, start, hpr⟩, hph, hnow⟩ := hs s hsw
  obtain ⟨batch, t, k1, k2, -, k3⟩ := C109_writer wc hW p.norules pages start s hpr hph q2.data r hr (by omega)
  refine ⟨s, hsw, batch, t, k1, ?_, by omega⟩
  exact g5.trans k2

/-! ## A case -/

/-- The writer sends a batch when it is 10 ns old. -/
def exFreshConf : WConf := ⟨5, 1000, 10, [], 1, 5, 100⟩

/-- The writer takes up the message, wakes up a second later, sends it and waits for more. -/
def exFreshActs : List WAct :=
  [.tick 2100, .recv b!"cpu f=1\n", .check, .tick 1000002100, .wake, .check, .first (.status 204), .sent,
   .tick 1500000000]

/-- A datagram and, a little more than `batch_max_age` later, a read that times out. -/
def exFreshEvents : List UDPEvent :=
  [⟨b!"cpu f=1", false, 1, 2, 3, fun _ => false⟩, ⟨[], false, 2000, 2001, 2002, fun _ => false⟩]

/-- The listener after them: it has published one message. -/
def exFreshL : Listener :=
  ⟨⟨5, 1000, 1048576⟩, ⟨[], 1048576, 0, 2002⟩, ⟨1, 1, 0, 0⟩, [⟨b!"cpu f=1\n", false⟩]⟩

/-- What the filter received and published. -/
def exFreshMs : List FMsg := [⟨2050, fun _ => false, b!"cpu f=1\n"⟩]

def exFreshPubss : List (List Pub) := [[⟨b!"cpu-subject", b!"cpu f=1\n", false⟩]]

theorem pActs_hist (f : WSys → Bool) {c : WConf} {s0 : WSys} {as : List WAct}
    (h : (pActs c s0 as).map f = some true) : ∃ s, Prompt c s0 s ∧ f s = true := by
  cases hs : pActs c s0 as with
  | none => rw [hs] at h; cases h
  | some s =>
    rw [hs] at h
    simp only [Option.map_some, Option.some.injEq] at h
    exact ⟨s, pActs_sound (.refl _) hs, h⟩

/-- All hypotheses of C109_end_to_end are met by a run in which a line waits for the age limit of the listener and for
that of the writer. -/
example : ∃ (p : Pipeline insertionSorter ⟨5, 1000, 1048576⟩ 0 exFreshEvents 1000 exRules b!"junk" exFreshConf)
    (e : UDPEvent) (after : List UDPEvent), exFreshEvents = [] ++ e :: after ∧ ChecksEvery 2000 e after ∧
    (∃ x ∈ e :: after, e.tRead + 1000 ≤ x.tCheck) ∧ p.Timely ∧ p.FilterWithin 100 ∧
    p.WriterWithin b!"cpu-subject" 100 ∧ p.PromptPast (e.tRead + 1000 + 2000 + 100 + 100 + 10 + 1000000000) ∧
    b!"cpu f=1\n" ∈ linesOf (completed e.data) ∧
    textTo insertionSorter exRules b!"junk" b!"cpu-subject" b!"cpu f=1\n" = some b!"cpu f=1\n" := by
  obtain ⟨s, hs, hs2⟩ := pActs_hist
    (fun s => decide (WEv.recv b!"cpu f=1\n" 2100 ∈ s.hist) && decide (s.now = 1500000000) &&
      (match s.phase with | .stopped => false | _ => true))
    (c := exFreshConf) (s0 := WSys.start exFreshConf 100000 0) (as := exFreshActs) (by decide +kernel)
  simp only [Bool.and_eq_true, decide_eq_true_eq] at hs2
  obtain ⟨⟨r1, r2⟩, r3⟩ := hs2
  have hl : udpRun (Listener.new ⟨5, 1000, 1048576⟩ 0) exFreshEvents = .ok exFreshL := by decide +kernel
  have hf : (match filterRun insertionSorter (FWorker.new 1000 exRules b!"junk") (FStats.init exRules.length) exFreshMs with
      | .ok (_, _, x) => some x | .panic => none) = some exFreshPubss := by decide +kernel
  have hf2 : ∃ w st, filterRun insertionSorter (FWorker.new 1000 exRules b!"junk") (FStats.init exRules.length) exFreshMs =
      .ok (w, st, exFreshPubss) := by
    cases hc : filterRun insertionSorter (FWorker.new 1000 exRules b!"junk") (FStats.init exRules.length) exFreshMs with
    | panic => rw [hc] at hf; cases hf
    | ok x =>
      obtain ⟨w, st, y⟩ := x
      rw [hc] at hf
      injection hf with hf
      subst hf
      exact ⟨w, st, rfl⟩
  refine ⟨⟨exFreshL, exFreshMs, exFreshPubss, [s], by decide, by decide, hl, hf2, rfl, by
      intro s' hs'
      have : s' = s := by simpa using hs'
      subst this
      exact ⟨100000, 0, hs.reach⟩⟩,
    ⟨b!"cpu f=1", false, 1, 2, 3, fun _ => false⟩, [⟨[], false, 2000, 2001, 2002, fun _ => false⟩], rfl, ?_, ?_, ?_, ?_, ?_,
    ?_, by decide, by decide +kernel⟩
  · refine ⟨by decide, ?_⟩
    intro a b x y h
    cases a with
    | nil =>
      simp only [List.nil_append, List.cons.injEq] at h
      obtain ⟨rfl, rfl, -⟩ := h
      decide
    | cons z a =>
      simp only [List.cons_append, List.cons.injEq] at h
      obtain ⟨-, h⟩ := h
      have := congrArg List.length h
      simp only [List.length_append, List.length_cons, List.length_nil] at this
      omega
  · exact ⟨_, List.mem_cons_of_mem _ (List.mem_cons_self ..), by decide⟩
  · refine ⟨by decide, ?_⟩
    show ∀ m ∈ exFreshMs, _
    unfold exFreshMs
    intro m hm
    rcases List.mem_cons.1 hm with rfl | hm
    · refine ⟨by decide, by decide, ?_⟩
      intro line hline
      right
      intro v off hts
      have h1 : extractTimestamp line = .ok (-1, -1) := by
        clear hts
        revert line
        decide +kernel
      have := extractTimestamp_some hts
      rw [h1] at this
      injection this with this
      injection this with _ this
      obtain ⟨-, pre, ts, -, -, -, -, e⟩ := hts
      omega
    · cases hm
  · intro seen f l hpre hlast hrun q hq
    show ∃ m ∈ exFreshMs, _
    have hs3 : seen = [] ∨ seen = [⟨b!"cpu f=1", false, 1, 2, 3, fun _ => false⟩] ∨ seen = exFreshEvents := by
      obtain ⟨rest, hrest⟩ := hpre
      unfold exFreshEvents at hrest ⊢
      match seen, hrest with
      | [], _ => exact Or.inl rfl
      | [x], hr =>
        simp only [List.cons_append, List.cons.injEq] at hr
        rw [hr.1]
        exact Or.inr (Or.inl rfl)
      | [x, y], hr =>
        simp only [List.cons_append, List.cons.injEq] at hr
        rw [hr.1, hr.2.1]
        exact Or.inr (Or.inr rfl)
      | x :: y :: z :: zs, hr => 
        have := congrArg List.length hr
        simp at this
    rcases hs3 with rfl | rfl | rfl
    · cases hlast
    · have hno : (match udpRun (Listener.new ⟨5, 1000, 1048576⟩ 0) [⟨b!"cpu f=1", false, 1, 2, 3, fun _ => false⟩] with
          | .ok l => l.pubs.length | .panic => 1) = 0 := by decide +kernel
      rw [hrun] at hno
      have : l.pubs = [] := List.eq_nil_of_length_eq_zero hno
      rw [this] at hq
      cases hq
    · rw [hl] at hrun
      injection hrun with hrun
      subst hrun
      have hq2 : q = ⟨b!"cpu f=1\n", false⟩ := by simpa [exFreshL] using hq
      subst hq2
      simp only [exFreshEvents, List.getLast?_cons_cons, List.getLast?_singleton, Option.some.injEq] at hlast
      subst hlast
      exact ⟨_, List.mem_cons_self .., rfl, by decide⟩
  · intro i m pubs h1 h2 q hq _
    match i with
    | 0 =>
      have h1 : exFreshMs[0]? = some m := h1
      have h2 : exFreshPubss[0]? = some pubs := h2
      simp only [exFreshMs, exFreshPubss, List.getElem?_cons_zero, Option.some.injEq] at h1 h2
      subst h1
      subst h2
      have hq2 : q = ⟨b!"cpu-subject", b!"cpu f=1\n", false⟩ := by simpa using hq
      subst hq2
      exact ⟨s, List.mem_cons_self .., 2100, r1, by decide⟩
    | i + 1 =>
      have h1 : exFreshMs[i + 1]? = some m := h1
      simp [exFreshMs] at h1
  · intro s' hs'
    have : s' = s := by simpa using hs'
    subst this
    refine ⟨⟨100000, 0, hs⟩, ?_, by rw [r2]; decide⟩
    intro h
    rw [h] at r3
    cases r3

end Spout.Delivery
