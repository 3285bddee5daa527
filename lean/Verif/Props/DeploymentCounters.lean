import Verif.Props.DeploymentRaw
import Verif.Props.WriterStats

/-! # C99: the counters of a deployment add up

What cmd/influx-spout/e2e_large_test.go:116-140 checks for one run: the counters of the filters account for every line that was sent to the listeners, and
those of the writers and downsamplers for every message. -/

set_option linter.unusedSimpArgs false

namespace Spout.Deploy
open Spout Spout.Listener Spout.Pool Spout.Spec Spout.Delivery

universe u

/-! ## Specification -/

variable {d : Setup}

/-- The line belongs to rule `i`: the first that matches (C15, C20). -/
def forRule (d : Setup) (i : Nat) (line : Bytes) : Bool := match routeIdx d.S d.rules line with | .ok (some (some j)) => j == i | _ => false

/-- The line belongs to some rule. -/
def forSomeRule (d : Setup) (line : Bytes) : Bool := match routeIdx d.S d.rules line with | .ok (some (some _)) => true | _ => false

/-- No rule matches the line. -/
def forNone (d : Setup) (line : Bytes) : Bool := match routeIdx d.S d.rules line with | .ok (some none) => true | _ => false

/-- The tags of the line can be parsed. -/
def parses (d : Setup) (line : Bytes) : Bool := match routeIdx d.S d.rules line with | .ok none => false | _ => true

/-- The messages of listeners that could not be published. -/
def State.unpublished (s : State d) : List Bytes := s.sources.flatMap fun y => (y.l.pubs.filter (·.failed)).map (·.data)

/-- The lines sent to the listeners that no filter has processed: in a message a filter is working on, or on the way to the filters (or dropped), or that could not be published; in a listener. -/
def State.unprocessed (s : State d) : List Bytes :=
  ((s.filters.workers.flatMap fun f => f.working.toList) ++ s.filters.onTheWay ++ s.unpublished).flatMap linesOf ++ s.sources.flatMap LComp.holds

/-- The value of a counter over all filters (each worker's part, see `FComp`; those of crashed processes as they were then). -/
def State.total (s : State d) (counter : FStats → Nat) : Nat := (s.filters.workers.map fun f => counter f.st).sum

/-- `triggered` of rule `i`. -/
def trig (i : Nat) (st : FStats) : Nat := (st.triggered[i]?).getD 0

/-- Nobody but the listeners publishes to the filters. -/
structure OnlyListeners (s : State d) : Prop where
  rules : ∀ r ∈ d.rules, r.subject ≠ d.lsub
  junk : d.junk ≠ d.lsub
  downs : ∀ y ∈ s.downs, y.out ≠ d.lsub

/-! ## Proofs -/

variable {s0 s : State d} {x : WComp}

/-- The lines a worker has processed. -/
def FComp.lines (f : FComp) : List Bytes := f.past.flatMap fun m => linesOf m.data

theorem lsub_out (I : Inv s) (h : OnlyListeners s) :
    onSubj d.lsub s.out = s.sources.flatMap fun y => (y.l.pubs.filter fun p => !p.failed).map (·.data) :=
  out_to_filters (x := noWriter ⟨0, 0, 0, [], 0, 0, 0⟩ []) I ⟨h.rules, h.junk, fun y hy => ⟨h.downs y hy, fun h => by cases h⟩, fun h => by cases h⟩

theorem filter_received (I : Inv s) : ((s.filters.workers.map FComp.taken).flatten ++ s.filters.onTheWay).Perm (onSubj d.lsub s.out) := by
  have h1 := I.filters.all
  have h2 := queues_each_once (s.filters.all.map (·.queue)) (by
    intro q hq
    obtain ⟨y, hy, rfl⟩ := List.mem_map.1 hq
    exact ⟨_, _, I.filters.run y hy⟩)
  rw [flatMap_got I.filters, List.flatMap_map] at h2
  rw [List.flatMap_cons, List.flatMap_nil, List.append_nil] at h1
  refine List.Perm.trans ?_ h1
  unfold Group.onTheWay
  rw [← List.append_assoc]
  exact (h2.symm.append_right _)

theorem failed_split (l : List LPub) : ((l.filter fun p => !p.failed).map (·.data) ++ (l.filter (·.failed)).map (·.data)).Perm (l.map (·.data)) := by
  rw [← List.map_append]
  apply List.Perm.map
  have := List.filter_append_perm (fun p : LPub => !p.failed) l
  simpa using this

/-- The lines the filters have processed and the others are those sent to the listeners. -/
theorem lines_balance (I : Inv s) (ho : OnlyListeners s) (hb : SmallBatches s) (sent : List (List Bytes)) (hs : Each2 Sent s.sources sent) :
    ((s.filters.workers.flatMap FComp.lines) ++ s.unprocessed).Perm sent.flatten := by
  have h1 := filter_received I
  rw [lsub_out I ho] at h1
  have h2 := h1.append_right s.unpublished
  have h3 : ((s.sources.flatMap fun y => (y.l.pubs.filter fun p => !p.failed).map (·.data)) ++ s.unpublished).Perm (s.sources.flatMap fun y => y.l.pubs.map (·.data)) := by
    refine (flatMap_append_perm _ _ _).symm.trans ?_
    exact perm_flatMap _ _ _ fun y _ => failed_split _
  have h4 := flatMap_perm linesOf (h2.trans h3)
  have h5 := (h4.append_right (s.sources.flatMap LComp.holds)).trans (sources_sent I hb sent hs).symm
  refine List.Perm.trans ?_ h5
  unfold State.unprocessed
  rw [← List.append_assoc]
  refine List.Perm.append_right _ ?_
  have e1 : ((s.filters.workers.map FComp.taken).flatten).Perm ((s.filters.workers.flatMap fun f => f.past.map (·.data)) ++ s.filters.workers.flatMap fun f => f.working.toList) := by
    rw [← List.flatMap_def]
    exact flatMap_append_perm _ _ _
  have e2 := flatMap_perm linesOf ((e1.append_right s.filters.onTheWay).append_right s.unpublished)
  refine List.Perm.trans (List.Perm.of_eq ?_) e2.symm
  simp only [List.flatMap_append, List.append_assoc]
  congr 1
  rw [List.flatMap_assoc]
  apply flatMap_congr'
  intro f _
  unfold FComp.lines
  rw [List.flatMap_map]

theorem sum_count {α : Type u} (l : List α) (f : α → Nat) (g : α → List Bytes) (p : Bytes → Bool) (h : ∀ a ∈ l, f a = (g a).countP p) :
    (l.map f).sum = (l.flatMap g).countP p := by
  induction l with
  | nil => rfl
  | cons a l ih =>
    rw [List.map_cons, List.sum_cons, List.flatMap_cons, List.countP_append, h a List.mem_cons_self, ih fun b hb => h b (List.mem_cons_of_mem _ hb)]

theorem sum_length {α : Type u} (l : List α) (f : α → Nat) (g : α → List Bytes) (h : ∀ a ∈ l, f a = (g a).length) :
    (l.map f).sum = (l.flatMap g).length := by
  have := sum_count l f g (fun _ => true) fun a ha => by rw [h a ha, List.countP_true]
  rw [this, List.countP_true]

/-- What C22 says of a worker. -/
theorem worker_counts (I : Inv s) {f : FComp} (hf : f ∈ s.filters.workers) :
    let os := f.past.flatMap fun m => outcomes d.S d.rules d.delta m.now m.data
    f.st.processed = f.lines.length ∧
    f.st.processed = f.st.passed + f.st.rejected + f.st.invalidTime + os.countP Outcome.isUnparsed ∧
    f.st.passed = os.countP Outcome.isRouted ∧ f.st.rejected = os.countP Outcome.isJunk ∧ f.st.invalidTime = os.countP Outcome.isBadTime ∧
    f.st.triggered = (List.range d.rules.length).map (fun i => os.countP (Outcome.isRoutedTo i)) ∧ f.st.passed = f.st.triggered.sum ∧
    f.st.failedPublish = f.pubss.flatten.countP (·.failed) := by
  intro os
  obtain ⟨st, pubss, h1, h2, h3⟩ := C22_counters d.S d.delta d.rules d.junk f.past
  rw [I.fran f hf] at h1
  injection h1 with h1
  simp only [Prod.mk.injEq] at h1
  obtain ⟨-, rfl, rfl⟩ := h1
  refine ⟨?_, h3⟩
  rw [h2]
  unfold FComp.lines
  rw [List.length_flatMap]

theorem outcome_route (S : Sorter) (rules : List Rule) (now a b : Int) (line : Bytes) (h : outcome S rules now a b line ≠ .badTime) :
    (∀ i, (outcome S rules now a b line).isRoutedTo i = match routeIdx S rules line with | .ok (some (some j)) => j == i | _ => false) ∧
    ((outcome S rules now a b line).isRouted = match routeIdx S rules line with | .ok (some (some _)) => true | _ => false) ∧
    ((outcome S rules now a b line).isJunk = match routeIdx S rules line with | .ok (some none) => true | _ => false) := by
  obtain ⟨ts, hts⟩ := filterTimestamp_safe line now
  unfold outcome at h ⊢
  rw [hts] at h ⊢
  simp only at h ⊢
  by_cases hw : a < ts ∧ ts < b
  · rw [if_pos hw] at h ⊢
    unfold emitted routeIdx
    cases hp : newParsedLine line with
    | panic => exact ⟨fun _ => rfl, rfl, rfl⟩
    | ok o =>
      cases o with
      | none => exact ⟨fun _ => rfl, rfl, rfl⟩
      | some pl =>
        cases hl : lookupParsed 0 rules (sortTags S pl) with
        | panic => simp [hl, Bind.bind, Go.bind, Pure.pure, Outcome.isRoutedTo, Outcome.isRouted, Outcome.isJunk]
        | ok o => cases o <;> simp [hl, Bind.bind, Go.bind, Pure.pure, Outcome.isRoutedTo, Outcome.isRouted, Outcome.isJunk]
  · rw [if_neg hw] at h
    exact absurd rfl h

theorem outcome_unparsed (S : Sorter) (rules : List Rule) (now a b : Int) (line : Bytes) (h : (outcome S rules now a b line).isUnparsed = true) :
    routeIdx S rules line = .ok none := by
  obtain ⟨ts, hts⟩ := filterTimestamp_safe line now
  unfold outcome at h
  rw [hts] at h
  simp only at h
  by_cases hw : a < ts ∧ ts < b
  · rw [if_pos hw] at h
    split at h <;> first | assumption | cases h
  · rw [if_neg hw] at h
    cases h

theorem timely_outcome (hpos : 0 < d.delta) {m : FMsg} (h1 : InInt64 (m.now - d.delta)) (h2 : InInt64 (m.now + d.delta)) {line : Bytes}
    (h : Delivery.Timely m.now d.delta line) : outcome d.S d.rules m.now (wrap64 (m.now - d.delta)) (wrap64 (m.now + d.delta)) line ≠ .badTime := by
  rcases h with ⟨v, off, hts, hw⟩ | hn
  · exact C17_in_window_accepted d.S d.rules m.now d.delta v off line hts hw h1 h2
  · exact C17_no_timestamp_accepted d.S d.rules m.now d.delta line hn hpos h1 h2

theorem count_outcomes {f : FComp} (p : Outcome → Bool) (q : Bytes → Bool)
    (h : ∀ m ∈ f.past, ∀ line ∈ linesOf m.data, p (outcome d.S d.rules m.now (wrap64 (m.now - d.delta)) (wrap64 (m.now + d.delta)) line) = q line) :
    (f.past.flatMap fun m => outcomes d.S d.rules d.delta m.now m.data).countP p = f.lines.countP q := by
  unfold FComp.lines
  revert h
  induction f.past with
  | nil => intro _; rfl
  | cons m ms ih =>
    intro h
    rw [List.flatMap_cons, List.flatMap_cons, List.countP_append, List.countP_append, ih fun a ha => h a (List.mem_cons_of_mem _ ha)]
    congr 1
    unfold outcomes
    rw [List.countP_map]
    apply List.countP_congr
    intro line hl
    rw [Function.comp, h m List.mem_cons_self line hl]

/-- **C99 (`processed`).** In every state a deployment can reach, whatever has failed, been dropped or crashed: `processed`, over all filters, is the number of lines sent to the listeners, less those that no
filter has processed. -/
theorem C99_processed (h0 : Start d s0) (h : Reach d s0 s) (ho : OnlyListeners s) (hb : SmallBatches s) (sent : List (List Bytes)) (hs : Each2 Sent s.sources sent) :
    s.total (·.processed) + s.unprocessed.length = sent.flatten.length := by
  have I := inv_reach h0 h
  rw [← (lines_balance I ho hb sent hs).length_eq, List.length_append]
  congr 1
  exact sum_length _ _ _ fun f hf => (worker_counts I hf).1

theorem sum_le {α : Type u} (l : List α) (f g : α → Nat) (h : ∀ a ∈ l, f a ≤ g a) : (l.map f).sum ≤ (l.map g).sum := by
  induction l with
  | nil => exact Nat.le_refl _
  | cons a l ih =>
    rw [List.map_cons, List.map_cons, List.sum_cons, List.sum_cons]
    have := h a List.mem_cons_self
    have := ih fun b hb => h b (List.mem_cons_of_mem _ hb)
    omega

theorem sum_congr {α : Type u} (l : List α) (f g : α → Nat) (h : ∀ a ∈ l, f a = g a) : (l.map f).sum = (l.map g).sum := by
  rw [List.map_congr_left h]

theorem sum_add {α : Type u} (l : List α) (f g : α → Nat) : (l.map fun a => f a + g a).sum = (l.map f).sum + (l.map g).sum := by
  induction l with
  | nil => rfl
  | cons a l ih => rw [List.map_cons, List.map_cons, List.map_cons, List.sum_cons, List.sum_cons, List.sum_cons, ih]; omega

/-- **C99 (every line is counted once).** In every state a deployment can reach: `passed`, `rejected` and `invalid_time` together are at most `processed`, and exactly that if the tags of all lines sent to the listeners can be parsed; `passed` is the sum of
`triggered` over all rules; `failed_nats_publish` of the filters is the number of their messages that could not be published. -/
theorem C99_each_line_counted (h0 : Start d s0) (h : Reach d s0 s) :
    s.total (·.passed) + s.total (·.rejected) + s.total (·.invalidTime) ≤ s.total (·.processed) ∧
    (∀ sent : List (List Bytes), OnlyListeners s → SmallBatches s → Each2 Sent s.sources sent → (∀ line ∈ sent.flatten, parses d line = true) →
      s.total (·.passed) + s.total (·.rejected) + s.total (·.invalidTime) = s.total (·.processed)) ∧
    s.total (·.passed) = ((List.range d.rules.length).map fun i => s.total (trig i)).sum ∧
    s.total (·.failedPublish) = (s.filters.workers.flatMap fun f => f.pubss.flatten).countP (·.failed) := by
  have I := inv_reach h0 h
  unfold State.total
  refine ⟨?_, ?_, ?_, ?_⟩
  · rw [← sum_add, ← sum_add]
    apply sum_le
    intro f hf
    have := (worker_counts I hf).2.1
    show f.st.passed + f.st.rejected + f.st.invalidTime ≤ f.st.processed
    omega
  · intro sent ho hb hs hp
    rw [← sum_add, ← sum_add]
    apply sum_congr
    intro f hf
    have h1 := (worker_counts I hf).2.1
    have h2 := count_outcomes (d := d) (f := f) Outcome.isUnparsed (fun _ => false) (by
      intro m hm line hl
      have hmem : line ∈ sent.flatten := by
        refine (lines_balance I ho hb sent hs).subset ?_
        exact List.mem_append_left _ (List.mem_flatMap.2 ⟨f, hf, List.mem_flatMap.2 ⟨m, hm, hl⟩⟩)
      have h3 := hp line hmem
      cases ho : (outcome d.S d.rules m.now (wrap64 (m.now - d.delta)) (wrap64 (m.now + d.delta)) line).isUnparsed with
      | false => rfl
      | true =>
        have := outcome_unparsed _ _ _ _ _ _ ho
        unfold parses at h3
        rw [this] at h3
        cases h3)
    rw [List.countP_false] at h2
    have h2 : _ = 0 := h2
    show f.st.passed + f.st.rejected + f.st.invalidTime = f.st.processed
    omega
  · have e : ∀ f ∈ s.filters.workers, f.st.passed = ((List.range d.rules.length).map fun i => trig i f.st).sum := by
      intro f hf
      have w := worker_counts I hf
      rw [w.2.2.2.2.2.2.1]
      congr 1
      apply List.ext_getElem?
      intro i
      unfold trig
      rw [w.2.2.2.2.2.1, List.getElem?_map, List.getElem?_map]
      by_cases hi : i < d.rules.length
      · rw [List.getElem?_range hi]
        simp only [Option.map_some]
        rw [List.getElem?_map, List.getElem?_range hi]
        rfl
      · rw [List.getElem?_eq_none (by rw [List.length_range]; omega)]
        rfl
    rw [sum_congr _ _ _ e]
    generalize s.filters.workers = ws
    induction ws with
    | nil =>
      generalize List.range d.rules.length = r
      induction r with
      | nil => rfl
      | cons i r ih => rw [List.map_cons, List.sum_cons, ← ih]; rfl
    | cons f ws ih =>
      rw [List.map_cons, List.sum_cons, ih, ← sum_add]
      rfl
  · have e : ∀ f ∈ s.filters.workers, f.st.failedPublish = f.pubss.flatten.countP (·.failed) := fun f hf => (worker_counts I hf).2.2.2.2.2.2.2
    rw [sum_congr _ _ _ e]
    generalize s.filters.workers = ws
    induction ws with
    | nil => rfl
    | cons f ws ih => rw [List.map_cons, List.sum_cons, ih, List.flatMap_cons, List.countP_append]

/-- **C99 (the lines of each rule).** If the lines were in the time window when they were processed, then in every state a deployment can reach: `triggered` of a rule, over all filters, is the number of lines sent to the listeners that belong to the rule, less those that no filter
has processed; `passed` and `rejected` are those numbers for lines that belong to some rule or to none; `invalid_time` is 0. -/
theorem C99_triggered (h0 : Start d s0) (h : Reach d s0 s) (ho : OnlyListeners s) (hb : SmallBatches s) (sent : List (List Bytes)) (hs : Each2 Sent s.sources sent)
    (ht : s.Timely) :
    (∀ i, i < d.rules.length → s.total (trig i) + s.unprocessed.countP (forRule d i) = sent.flatten.countP (forRule d i)) ∧
    s.total (·.passed) + s.unprocessed.countP (forSomeRule d) = sent.flatten.countP (forSomeRule d) ∧
    s.total (·.rejected) + s.unprocessed.countP (forNone d) = sent.flatten.countP (forNone d) ∧
    s.total (·.invalidTime) = 0 := by
  have I := inv_reach h0 h
  have B := lines_balance I ho hb sent hs
  have ok : ∀ f ∈ s.filters.workers, ∀ m ∈ f.past, ∀ line ∈ linesOf m.data,
      outcome d.S d.rules m.now (wrap64 (m.now - d.delta)) (wrap64 (m.now + d.delta)) line ≠ .badTime := by
    intro f hf m hm line hl
    obtain ⟨h1, h2, h3⟩ := ht.2 f hf m hm
    exact timely_outcome ht.1 h1 h2 (h3 line hl)
  have route := fun f hf m hm line hl => outcome_route d.S d.rules m.now _ _ line (ok f hf m hm line hl)
  refine ⟨?_, ?_, ?_, ?_⟩
  · intro i hi
    rw [← B.countP_eq, List.countP_append]
    congr 1
    apply sum_count
    intro f hf
    unfold trig
    rw [(worker_counts I hf).2.2.2.2.2.1, List.getElem?_map, List.getElem?_range hi]
    exact count_outcomes _ _ fun m hm line hl => (route f hf m hm line hl).1 i
  · rw [← B.countP_eq, List.countP_append]
    congr 1
    apply sum_count
    intro f hf
    refine (worker_counts I hf).2.2.1.trans ?_
    exact count_outcomes _ _ fun m hm line hl => (route f hf m hm line hl).2.1
  · rw [← B.countP_eq, List.countP_append]
    congr 1
    apply sum_count
    intro f hf
    refine (worker_counts I hf).2.2.2.1.trans ?_
    exact count_outcomes _ _ fun m hm line hl => (route f hf m hm line hl).2.2
  · have : s.total (·.invalidTime) = (s.filters.workers.flatMap FComp.lines).countP (fun _ => false) := by
      apply sum_count
      intro f hf
      refine (worker_counts I hf).2.2.2.2.1.trans ?_
      apply count_outcomes
      intro m hm line hl
      have := ok f hf m hm line hl
      revert this
      cases outcome d.S d.rules m.now (wrap64 (m.now - d.delta)) (wrap64 (m.now + d.delta)) line <;> simp [Outcome.isBadTime]
    rw [this, List.countP_false]
    rfl

theorem recv_count (h : List WEv) : h.countP isRecv = (received h).length := by
  induction h with
  | nil => rfl
  | cons e h ih =>
    unfold received at ih ⊢
    rw [List.countP_cons, List.flatMap_cons, List.length_append, ih]
    cases e <;> simp [isRecv] <;> omega

/-- **C99 (messages).** In every state a deployment can reach: `received` of a writer (over all processes of a queue group) and the number of messages on the way to it (or dropped) together are the number of messages published on its subjects; likewise for each
subscription of a downsampler. -/
theorem C99_messages (h0 : Start d s0) (h : Reach d s0 s) :
    (∀ x ∈ s.writers, (x.inp.workers.map (·.stats.received)).sum + x.inp.onTheWay.length = (x.subjects.flatMap fun subj => onSubj subj s.out).length) ∧
    ∀ y ∈ s.downs, 0 < y.period → (y.inp.workers.map (·.w.stats.received)).sum + y.inp.onTheWay.length = (onSubj y.subject s.out).length := by
  have I := inv_reach h0 h
  constructor
  · intro x hx
    have hw := I.writers x hx
    rw [← (writer_received hw).length_eq, List.length_append, ← List.flatMap_def]
    congr 1
    apply sum_length
    intro k hk
    rw [(C44_counters_exact x.conf k (hw.2 k hk)).1, recv_count]
  · intro y hy hp
    obtain ⟨hg, q, k, hall, hrun⟩ := I.downs y hy
    have h1 := hg.all
    have h2 := queues_each_once (y.inp.all.map (·.queue)) (by
      intro q hq
      obtain ⟨z, hz, rfl⟩ := List.mem_map.1 hq
      exact ⟨_, _, hg.run z hz⟩)
    rw [flatMap_got hg, List.flatMap_map] at h2
    rw [List.flatMap_cons, List.flatMap_nil, List.append_nil] at h1
    have h3 : ((y.inp.workers.map fun k => messagesIn k.evs).flatten ++ y.inp.onTheWay).Perm (onSubj y.subject s.out) := by
      refine List.Perm.trans ?_ h1
      unfold Group.onTheWay
      rw [← List.append_assoc]
      exact (h2.symm.append_right _)
    rw [← h3.length_eq, List.length_append, ← List.flatMap_def]
    congr 1
    apply sum_length
    intro k' hk'
    unfold Group.workers at hk'
    rw [hall] at hk'
    simp only [List.flatMap_cons, List.flatMap_nil, List.append_nil, List.mem_singleton] at hk'
    subst hk'
    obtain ⟨w, e, got, em, outs, r1, -, -, -, r2, -⟩ := C68_downsampler_stream d.fo d.S y.period y.now0 hp k'.evs
    rw [hrun] at r1
    injection r1 with r1
    rw [r1, r2]
    unfold messagesIn
    induction k'.evs with
    | nil => rfl
    | cons ev evs ih =>
      rw [List.countP_cons, List.flatMap_cons, List.length_append, ih]
      cases ev.input <;> simp <;> omega

/-- Nothing was lost on the way to the filters: NATS has dropped nothing, and the processes that have crashed held nothing. -/
structure NothingLostF (s : State d) : Prop where
  listeners : ∀ y ∈ s.crashed, y.holds = []
  filters : s.filters.gone = []
  working : ∀ f ∈ s.filters.deadWorkers, f.working = none

/-- **C99 (in the end).** If no publish has failed (nor will that of a request being read), the lines are timely and nothing was lost on the way to the filters, then a deployment that is not stopped and in which a filter is running can go on, without anything being sent to it, until
nothing is left to do; then, over all filters, `processed` is the number of lines sent to the listeners, `triggered` of each rule the number of those that belong to it, `passed` and `rejected` the numbers of those that belong to some rule and to none, and
`invalid_time` and `failed_nats_publish` are 0. -/
theorem C99_in_the_end (h0 : Start d s0) (h : Reach d s0 s) (hr : s.Running) (ha : s.Acyclic) (hb : SmallBatches s)
    (sent : List (List Bytes)) (hf : s.Fine sent) (now : Int) (hT : InTime d now sent.flatten) (hm : s.filters.members ≠ []) (N : NothingLostF s) :
    ∃ s', Run d s s' ∧ SameSetup s s' ∧ SameLost s s' ∧ s'.Finished ∧ s'.Running ∧ s'.Fine sent ∧
      s'.total (·.processed) = sent.flatten.length ∧
      (∀ i, i < d.rules.length → s'.total (trig i) = sent.flatten.countP (forRule d i)) ∧
      s'.total (·.passed) = sent.flatten.countP (forSomeRule d) ∧
      s'.total (·.rejected) = sent.flatten.countP (forNone d) ∧
      s'.total (·.invalidTime) = 0 ∧ s'.total (·.failedPublish) = 0 := by
  obtain ⟨s', C, hfin⟩ := finish (F := True) (sent := sent) (s0 := s) (s := s) (fun _ => ⟨now, hT⟩)
    ⟨.refl, .refl s, .refl s, inv_reach h0 h, hr, ha, fun _ => ⟨hf, hb⟩⟩
  obtain ⟨G, hb'⟩ := C.fine trivial
  have ho : OnlyListeners s' := by
    refine ⟨ha.rules, ha.junk, ?_⟩
    intro y hy
    obtain ⟨z, hz, e⟩ := mem_of_map C.same.downs hy
    simp only [Prod.mk.injEq] at e
    rw [← e.2.1]
    exact (ha.downs z hz).1
  have hreach := h.run C.reach
  have hu : s'.unprocessed = [] := by
    unfold State.unprocessed
    have e1 : (s'.filters.workers.flatMap fun f => f.working.toList) = [] := by
      rw [List.flatMap_eq_nil_iff]
      intro f hf
      rw [Group.workers_split] at hf
      rcases List.mem_append.1 hf with hf | hf
      · rw [hfin.working f hf]; rfl
      · rw [Group.deadWorkers_eq C.same.filters] at hf
        rw [N.working f hf]; rfl
    have e2 : s'.filters.onTheWay = [] := by
      rw [hfin.filters.onTheWay ((Group.fixed_eq C.same.filters).2.2 hm), Group.gone_eq C.same.filters C.lost.filters]
      exact N.filters
    have e3 : s'.unpublished = [] := by
      unfold State.unpublished
      rw [List.flatMap_eq_nil_iff]
      intro y hy
      rw [List.filter_eq_nil_iff.2 fun q hq => by rw [G.published.1 y hy q hq]; simp]
      rfl
    have e4 : s'.sources.flatMap LComp.holds = [] := by
      rw [List.flatMap_eq_nil_iff]
      intro y hy
      rcases List.mem_append.1 hy with hy | hy
      · exact hfin.holds y hy
      · rw [C.same.crashed] at hy
        exact N.listeners y hy
    rw [e1, e2, e3, e4]
    rfl
  have p1 := C99_processed h0 hreach ho hb' sent G.sent
  obtain ⟨t1, t2, t3, t4⟩ := C99_triggered h0 hreach ho hb' sent G.sent G.timely
  rw [hu] at p1 t1 t2 t3
  refine ⟨s', C.reach, C.same, C.lost, hfin, C.running, G, p1, t1, t2, t3, t4, ?_⟩
  rw [(C99_each_line_counted h0 hreach).2.2.2, List.countP_eq_zero]
  intro q hq
  obtain ⟨f, hf, hq⟩ := List.mem_flatMap.1 hq
  rw [G.published.2 f hf q hq]
  simp

theorem one_rule_text (i : Nat) (r : Rule) (hr : d.rules[i]? = some r) (ho : OneRule d.rules d.junk r.subject) (line : Bytes) :
    (textTo d.S d.rules d.junk r.subject line).isSome = forRule d i line := by
  obtain ⟨hj, k, hk⟩ := ho
  have hik := hk i r hr rfl
  subst hik
  unfold textTo subjectOf forRule emitted routeIdx
  cases hp : newParsedLine line with
  | panic => rfl
  | ok o =>
    cases o with
    | none => rfl
    | some pl =>
      cases hl : lookupParsed 0 d.rules (sortTags d.S pl) with
      | panic => simp [hl, Bind.bind, Go.bind, Pure.pure]
      | ok o =>
        cases o with
        | none => simp [hl, Bind.bind, Go.bind, Pure.pure, hj]
        | some j =>
          simp only [hl, Bind.bind, Go.bind, Pure.pure]
          cases hjr : d.rules[j]? with
          | none =>
            simp
            intro e
            rw [e, hr] at hjr
            cases hjr
          | some r' =>
            by_cases e : r'.subject = r.subject
            · simp [e, hk j r' hjr e]
            · simp [e]
              intro e'
              rw [e', hr] at hjr
              injection hjr with hjr
              exact e (by rw [hjr])

/-- **C99 (`triggered` counts what is written).** If nothing was lost and nothing is under way to a writer without rules of its own whose subject is that of one rule of the filters, then `triggered` of the rule, over all filters, is the number of lines its workers together have sent to InfluxDB. -/
theorem C99_triggered_is_written (h0 : Start d s0) (h : Reach d s0 s) (hx : x ∈ s.writers) (hsep : Separate s x) (hb : SmallBatches s)
    (sent : List (List Bytes)) (hs : Each2 Sent s.sources sent) (hf : s.NoFailure) (ht : s.Timely) (hq : Quiet s x)
    (i : Nat) (r : Rule) (hr : d.rules[i]? = some r) (ho : OneRule d.rules d.junk r.subject) (hsub : x.subjects = [r.subject]) (hn : x.conf.rules = []) :
    ∃ sentBy : List (List Bytes), sentBy.map List.flatten = x.inp.workers.map (fun k => firstData k.hist) ∧
      sentBy.flatten.Perm (textsFor d x sent.flatten) ∧ sentBy.flatten.length = s.total (trig i) := by
  obtain ⟨sentBy, h1, h2⟩ := C88_deployment_exactly_once h0 h hx hsep hb sent hs (Or.inl hn) hf ht hq
  rw [hn, kept_norules] at h2
  refine ⟨sentBy, h1, h2, ?_⟩
  have hi : i < d.rules.length := (List.getElem?_eq_some_iff.1 hr).1
  have t := (C99_triggered h0 h ⟨hsep.rules, hsep.junk, fun y hy => (hsep.downs y hy).1⟩ hb sent hs ht).1 i hi
  have hu : s.unprocessed = [] := by
    unfold State.unprocessed
    have e1 : (s.filters.workers.flatMap fun f => f.working.toList) = [] := by
      rw [List.flatMap_eq_nil_iff]
      intro f hf
      rw [hq.working f hf]; rfl
    have e3 : s.unpublished = [] := by
      unfold State.unpublished
      rw [List.flatMap_eq_nil_iff]
      intro y hy
      rw [List.filter_eq_nil_iff.2 fun q hq => by rw [hf.1 y hy q hq]; simp]
      rfl
    rw [e1, hq.filters, e3, List.flatMap_eq_nil_iff.2 hq.listeners]
    rfl
  rw [hu, List.countP_nil, Nat.add_zero] at t
  rw [t, h2.length_eq]
  unfold textsFor
  rw [List.length_flatMap]
  induction sent.flatten with
  | nil => rfl
  | cons line ls ih =>
    rw [List.map_cons, List.sum_cons, List.countP_cons, ih, hsub, Nat.add_comm]
    congr 1
    unfold textsTo
    rw [← one_rule_text i r hr ho line]
    cases h : textTo d.S d.rules d.junk r.subject line <;> simp [h]

/-! ## A deployment that meets the hypotheses -/

theorem ex_counts_lines : exSent.flatten.length = 3 ∧ exSent.flatten.countP (forRule exSetup 0) = 2 ∧ exSent.flatten.countP (forRule exSetup 1) = 1 ∧ exSent.flatten.countP (forSomeRule exSetup) = 3 ∧
    exSent.flatten.countP (forNone exSetup) = 0 := by decide +kernel

theorem ex_one_rule : OneRule exSetup.rules exSetup.junk b!"cpu-subject" := by
  refine ⟨by decide, 0, ?_⟩
  intro j r hj hr
  cases j with
  | zero => rfl
  | succ j =>
    exfalso
    revert hj
    show exRules[j + 1]? = some r → False
    cases j with
    | zero =>
      intro hj
      injection hj with hj
      rw [← hj] at hr
      exact absurd hr (by decide)
    | succ j => simp [exRules]

/-- Three lines have been sent to the listeners of C95's deployment, two of them about `cpu`; none has been processed.  In the end `processed` and `passed` are 3, `triggered` of the two rules 2 and 1, and `rejected` is 0; the writer for `cpu` has sent as many lines as `triggered` of its rule tells. -/
theorem ex_counters : exBusy.total (·.processed) = 0 ∧ exBusy.unprocessed.length = 3 ∧
    ∃ s', Run exSetup exBusy s' ∧ s'.Finished ∧ s'.total (·.processed) = 3 ∧ s'.total (trig 0) = 2 ∧ s'.total (trig 1) = 1 ∧ s'.total (·.passed) = 3 ∧ s'.total (·.rejected) = 0 ∧
      ∃ x, s'.writers[0]? = some x ∧ ∃ sentBy : List (List Bytes), sentBy.map List.flatten = x.inp.workers.map (fun k => firstData k.hist) ∧ sentBy.flatten.length = s'.total (trig 0) := by
  have hb : SmallBatches exBusy := by
    intro l got hl
    simp only [exBusy, exStart, State.sources, List.append_nil, List.mem_cons, List.not_mem_nil, or_false, LComp.udp.injEq, reduceCtorEq] at hl
    rw [hl.1]; decide
  have hT : InTime exSetup 10000 exSent.flatten :=
    ⟨by decide, by decide, fun line hline => Or.inr (ex_no_ts line (by revert line; decide +kernel))⟩
  have z : exBusy.total (·.processed) = 0 := by decide +kernel
  have c := C99_processed ex_start ex_reach ⟨by decide, by decide, fun y hy => (ex_acyclic.downs y hy).1⟩ hb exSent ex_fine.sent
  rw [z, ex_counts_lines.1, Nat.zero_add] at c
  refine ⟨z, c, ?_⟩
  obtain ⟨s', h1, h2, hl, h3, -, hfine, p1, p2, p3, p4, -⟩ := C99_in_the_end ex_start ex_reach ex_running ex_acyclic hb exSent ex_fine 10000 hT (by decide)
    ⟨(fun y hy => by cases hy), rfl, (fun f hf => by cases hf)⟩
  obtain ⟨c1, c2, c2', c3, c4⟩ := ex_counts_lines
  refine ⟨s', h1, h3, p1.trans c1, (p2 0 (by decide)).trans c2, (p2 1 (by decide)).trans c2', p3.trans c3, p4.trans c4, ?_⟩
  obtain ⟨x, hx, e1, e2, e3, e4⟩ := h2.writer hl (i := 0) rfl
  have hsep : Separate s' x := h2.separate e1 (x := ⟨[b!"cpu-subject"], exWConf, exGroup b!"cpu-subject" [WSys.start exWConf 0 0, WSys.start exWConf 0 0]⟩) ⟨by decide, by decide, (fun y hy => by
    rw [List.mem_singleton.1 hy]
    decide), by decide⟩
  have hb' : SmallBatches s' := by
    intro l got hlg
    have hc : s'.crashed = [] := h2.crashed
    unfold State.sources at hlg
    rw [hc, List.append_nil] at hlg
    obtain ⟨z, hz, e⟩ := mem_of_map h2.listeners hlg
    cases z with
    | udp l0 got0 =>
      have : l0.conf = l.conf := by injection e
      rw [← this]
      exact hb l0 got0 (List.mem_append_left _ hz)
    | http _ _ _ _ => injection e with e _; cases e
  have hq : Quiet s' x := by
    refine ⟨?_, ?_, ?_, ?_, ?_⟩
    · intro y hy
      have hc : s'.crashed = [] := h2.crashed
      unfold State.sources at hy
      rw [hc, List.append_nil] at hy
      exact h3.holds y hy
    · rw [h3.filters.onTheWay ((Group.fixed_eq h2.filters).2.2 (by decide)), Group.gone_eq h2.filters hl.filters]; rfl
    · intro f hf
      rw [Group.workers_split] at hf
      rcases List.mem_append.1 hf with hf | hf
      · exact h3.working f hf
      · rw [Group.deadWorkers_eq h2.filters] at hf; cases hf
    · rw [(h3.writers x (get_mem hx)).1.onTheWay ((Group.fixed_eq e3).2.2 (by decide)), Group.gone_eq e3 e4]; rfl
    · intro k hk
      rw [Group.workers_split] at hk
      rcases List.mem_append.1 hk with hk | hk
      · exact ((h3.writers x (get_mem hx)).2 k hk).unsent
      · rw [Group.deadWorkers_eq e3] at hk; cases hk
  obtain ⟨sentBy, a, -, b⟩ := C99_triggered_is_written ex_start (ex_reach.run h1) (get_mem hx) hsep hb' exSent hfine.sent hfine.published hfine.timely hq 0 exRules[0] rfl
    ex_one_rule e1 (by rw [e2]; rfl)
  exact ⟨x, hx, sentBy, a, b⟩

end Spout.Deploy
