import Verif.Props.DeploymentSettles
import Verif.Props.StoreDelivery

/-! # What InfluxDB stores in the end, for deployments (C111) -/

set_option linter.unusedSimpArgs false

namespace Spout.Deploy
open Spout Spout.Listener Spout.Pool Spout.Spec Spout.Delivery

variable {d : Setup} {s0 s : State d} {x : WComp} {K V : Type} [DecidableEq K]

/-! ## Specification -/

/-- The texts for the writer are complete lines that fit in a write. -/
def FitTexts (d : Setup) (x : WComp) (lines : List Bytes) : Prop :=
  ∀ txt ∈ textsFor d x lines, OneLine txt ∧ txt.length ≤ x.conf.batchMaxSize + 1

/-- Every write of a worker of the writer was accepted, at once or on retry. -/
def AcceptedAll (x : WComp) : Prop := ∀ k ∈ x.inp.workers, ∀ i d r t, .first i d r t ∈ k.hist → Accepted k.hist i

/-! ## Proof -/

open Classical in
/-- The lines of messages that consist of complete lines. -/
theorem linesReceived_texts {wc : WConf} {k : WSys} {g : List (List Bytes)} (hg : g.map List.flatten = received k.hist)
    (h1 : ∀ m ∈ g, ∀ t ∈ m, OneLine t) : linesReceived wc k = kept wc.rules g.flatten := by
  unfold linesReceived
  rw [← hg]
  clear hg
  induction g with
  | nil => rw [List.flatten_nil, kept_nil]; rfl
  | cons m g ih =>
    rw [List.map_cons, List.flatMap_cons, ih fun m' hm' => h1 m' (List.mem_cons_of_mem _ hm'), List.flatten_cons, kept_append]
    congr 1
    have hl := linesOf_oneLines m (h1 m (by simp))
    unfold pieces kept
    cases wc.rules with
    | nil => simp [hl]
    | cons r rs =>
      simp only [hl, reduceCtorEq, if_false]
      have : ∀ t ∈ m.filter fun t => decide (LineMatches (r :: rs) t), linesOf t = [t] := by
        intro t ht
        obtain ⟨body, hb, rfl⟩ := h1 m (by simp) t (List.mem_filter.1 ht).1
        exact linesOf_single body hb
      rw [flatMap_congr_mem this]
      simp

theorem whole_texts {wc : WConf} {k : WSys} {g : List (List Bytes)} (hg : g.map List.flatten = received k.hist)
    (h1 : ∀ m ∈ g, ∀ t ∈ m, OneLine t ∧ t.length ≤ wc.batchMaxSize + 1) : WholeMessages wc k := by
  intro m hm
  rw [← hg] at hm
  obtain ⟨g', hg', rfl⟩ := List.mem_map.1 hm
  refine ⟨complete_oneLines g' fun t ht => (h1 g' hg' t ht).1, ?_⟩
  rw [linesOf_oneLines g' fun t ht => (h1 g' hg' t ht).1]
  exact fun t ht => (h1 g' hg' t ht).2

/-- Messages of complete lines, for several workers. -/
theorem workers_texts {wc : WConf} : ∀ {ks : List WSys} {gotBy : List (List (List Bytes))},
    gotBy.map (List.map List.flatten) = ks.map (fun k => received k.hist) →
    (∀ t ∈ gotBy.flatten.flatten, OneLine t ∧ t.length ≤ wc.batchMaxSize + 1) →
    (∀ k ∈ ks, WholeMessages wc k) ∧ (ks.flatMap fun k => linesReceived wc k) = kept wc.rules gotBy.flatten.flatten
  | [], [], _, _ => ⟨(fun k hk => by cases hk), by rw [List.flatten_nil, List.flatten_nil, kept_nil]; rfl⟩
  | k :: ks, g :: gotBy, h, ht => by
    rw [List.map_cons, List.map_cons] at h
    injection h with h h'
    have hg : ∀ m ∈ g, ∀ t ∈ m, OneLine t ∧ t.length ≤ wc.batchMaxSize + 1 := fun m hm t htm =>
      ht t (List.mem_flatten.2 ⟨m, List.mem_flatten.2 ⟨g, by simp, hm⟩, htm⟩)
    obtain ⟨ih1, ih2⟩ := workers_texts h' fun t htm => ht t (by
      obtain ⟨m, hm, htm⟩ := List.mem_flatten.1 htm
      exact List.mem_flatten.2 ⟨m, by rw [List.flatten_cons]; exact List.mem_append_right _ hm, htm⟩)
    refine ⟨?_, ?_⟩
    · intro k' hk'
      rcases List.mem_cons.1 hk' with rfl | hk'
      · exact whole_texts h hg
      · exact ih1 k' hk'
    · rw [List.flatMap_cons, ih2, linesReceived_texts h fun m hm t htm => (hg m hm t htm).1, List.flatten_cons,
        List.flatten_append, kept_append]

theorem mem_kept {rules : List Rule} {t : Bytes} {l l' : List Bytes} (h : ∀ t, t ∈ l → t ∈ l') (ht : t ∈ kept rules l) :
    t ∈ kept rules l' := by
  unfold kept at ht ⊢
  split
  · rename_i hr
    rw [if_pos hr] at ht
    exact h t ht
  · rename_i hr
    rw [if_neg hr] at ht
    rw [List.mem_filter] at ht ⊢
    exact ⟨h t ht.1, ht.2⟩

/-- **C111 (nothing else, in every reachable state).** Whatever publishes fail, messages NATS drops, processes crash and
are started again, and writes are rejected, sent again or handled late: InfluxDB never stores anything but what the text
of a line sent to a listener says. -/
theorem C111_nothing_else (h0 : Start d s0) (h : Reach d s0 s) (hx : x ∈ s.writers) (hsep : Separate s x)
    (hb : SmallBatches s) (sent : List (List Bytes)) (hs : Each2 Sent s.sources sent) (hsize : 1 ≤ x.conf.batchMaxSize)
    (hl : FitTexts d x sent.flatten) (sets : Int → Bytes → List (K × V)) (ws : List (Bytes × Int))
    (hw : HandledAll x.inp.workers ws) (k : K) (v : V) (hk : stored sets ws k = some v) :
    ∃ txt ∈ kept x.conf.rules (textsFor d x sent.flatten), ∃ t, (k, v) ∈ sets t txt := by
  have I := inv_reach h0 h
  obtain ⟨gotBy, rest, h1, h2⟩ := received_at_most (systemOf I (I.writers x hx) hsep hb sent hs)
  rw [systemOf_sent] at h2
  have hsub : ∀ t, t ∈ gotBy.flatten.flatten → t ∈ textsFor d x sent.flatten := fun t ht =>
    h2.mem_iff.1 (List.mem_append_left _ ht)
  obtain ⟨w1, w2⟩ := workers_texts (wc := x.conf) h1 fun t ht => hl t (hsub t ht)
  rw [stored_eq] at hk
  obtain ⟨w, hwm, hkv⟩ := List.mem_flatMap.1 (lastValue_mem hk)
  obtain ⟨s', hs', hr⟩ := handledAll_received (I.writers x hx).2 hsize w1 hw w hwm
  have hr : w.1 ∈ kept x.conf.rules gotBy.flatten.flatten := by
    rw [← w2]
    exact List.mem_flatMap.2 ⟨s', hs', hr⟩
  exact ⟨w.1, mem_kept hsub hr, w.2, hkv⟩

/-- **C111 (accepted is stored, in every reachable state).** If the texts for the writer carry timestamps and give no field
of a point two different values, then what the lines of an accepted write say is stored from then on - whatever fails,
crashes, is sent again or handled late. -/
theorem C111_accepted_is_stored (h0 : Start d s0) (h : Reach d s0 s) (hx : x ∈ s.writers) (hsep : Separate s x)
    (hb : SmallBatches s) (sent : List (List Bytes)) (hs : Each2 Sent s.sources sent) (hsize : 1 ≤ x.conf.batchMaxSize)
    (hl : FitTexts d x sent.flatten) (sets : Int → Bytes → List (K × V))
    (hts : Timestamped sets (kept x.conf.rules (textsFor d x sent.flatten)))
    (hcons : Consistent sets (kept x.conf.rules (textsFor d x sent.flatten))) (ws : List (Bytes × Int))
    (hw : HandledAll x.inp.workers ws) (w : WSys) (hwk : w ∈ x.inp.workers) (i : Nat) (data : Bytes) (r : Resp) (t : Int)
    (hf : .first i data r t ∈ w.hist) (ha : Accepted w.hist i) (line : Bytes) (hline : line ∈ linesOf data) (k : K) (v : V)
    (t' : Int) (hk : (k, v) ∈ sets t' line) : stored sets ws k = some v := by
  have I := inv_reach h0 h
  obtain ⟨gotBy, rest, h1, h2⟩ := received_at_most (systemOf I (I.writers x hx) hsep hb sent hs)
  rw [systemOf_sent] at h2
  have hsub : ∀ t, t ∈ gotBy.flatten.flatten → t ∈ textsFor d x sent.flatten := fun t ht =>
    h2.mem_iff.1 (List.mem_append_left _ ht)
  obtain ⟨w1, w2⟩ := workers_texts (wc := x.conf) h1 fun t ht => hl t (hsub t ht)
  have hrec : ∀ z ∈ ws, z.1 ∈ kept x.conf.rules (textsFor d x sent.flatten) := by
    intro z hz
    obtain ⟨s', hs', hr⟩ := handledAll_received (I.writers x hx).2 hsize w1 hw z hz
    refine mem_kept hsub ?_
    rw [← w2]
    exact List.mem_flatMap.2 ⟨s', hs', hr⟩
  obtain ⟨t1, hm⟩ := handledAll_accepted (I.writers x hx).2 hw hwk hf ha hline
  have h3 : (k, v) ∈ ws.flatMap fun z => sets z.2 z.1 :=
    List.mem_flatMap.2 ⟨_, hm, by rw [hts line (hrec _ hm) t' t1] at hk; exact hk⟩
  obtain ⟨v', hv'⟩ := lastValue_some h3
  obtain ⟨z, hz, hkv⟩ := List.mem_flatMap.1 (lastValue_mem hv')
  have := hcons line (hrec _ hm) z.1 (hrec z hz) t' z.2 k v v' hk hkv
  rw [stored_eq, hv', this]

/-- **C111 (deployments).** In every reachable state of a deployment of any number of listeners, filters and writers, which
may have started and crashed at any time: if no publish of a listener or filter has failed, the lines were timely, nothing is
under way to a writer, every write of its workers was in the end accepted, and the texts for it are complete lines that fit in
a write, carry timestamps and give no field of a point two different values, then InfluxDB stores exactly what the lines sent to the listeners for the
writer's subjects (those that match its rules, if it has rules) say. -/
theorem C111_deployment (h0 : Start d s0) (h : Reach d s0 s) (hx : x ∈ s.writers) (hsep : Separate s x)
    (hb : SmallBatches s) (sent : List (List Bytes)) (hs : Each2 Sent s.sources sent) (hf : s.NoFailure) (ht : s.Timely)
    (hq : Quiet s x) (hsize : 1 ≤ x.conf.batchMaxSize) (ha : AcceptedAll x) (hl : FitTexts d x sent.flatten)
    (sets : Int → Bytes → List (K × V)) (hts : Timestamped sets (kept x.conf.rules (textsFor d x sent.flatten)))
    (hcons : Consistent sets (kept x.conf.rules (textsFor d x sent.flatten))) (ws : List (Bytes × Int))
    (hw : HandledAll x.inp.workers ws) (k : K) (v : V) :
    stored sets ws k = some v ↔ ∃ txt ∈ kept x.conf.rules (textsFor d x sent.flatten), (k, v) ∈ sets 0 txt := by
  have I := inv_reach h0 h
  obtain ⟨gotBy, queued, h1, h2, h3⟩ := in_one_place (systemOf I (I.writers x hx) hsep hb sent hs) (systemOf_noFailure hf)
    (systemOf_timely ht)
  rw [systemOf_sent, systemOf_held] at h3
  have h2 : queued.map List.flatten = x.inp.onTheWay := h2
  rw [hq.writers] at h2
  have hqd : queued = [] := List.map_eq_nil_iff.1 h2
  subst hqd
  have hfw : (systemOf I (I.writers x hx) hsep hb sent hs).filters.flatMap (·.working) = [] := by
    rw [List.flatMap_eq_nil_iff]
    intro w hw
    obtain ⟨f, -, rfl⟩ := List.mem_map.1 hw
    show f.1.working.toList = []
    rw [hq.working f.1 f.2]; rfl
  have hfl : inQueues (systemOf I (I.writers x hx) hsep hb sent hs).fqueues ++ (systemOf I (I.writers x hx) hsep hb sent hs).toFilter = [] :=
    hq.filters
  rw [hfw, List.nil_append, hfl, List.flatMap_eq_nil_iff.2 hq.listeners] at h3
  have h3 : gotBy.flatten.flatten.Perm (textsFor d x sent.flatten) := by
    simpa [textsFor] using h3
  obtain ⟨w1, w2⟩ := workers_texts (wc := x.conf) h1 fun t ht => hl t (h3.mem_iff.1 ht)
  refine content_of_workers (I.writers x hx).2 hsize w1 (fun k hk => ⟨hq.unsent k hk, ha k hk⟩) ?_ sets hts hcons ws hw k v
  intro line
  have hm := (kept_perm x.conf.rules h3).mem_iff (a := line)
  rw [← w2, List.mem_flatMap] at hm
  exact hm

/-- **C111 (under every fair schedule).** Let nothing more be sent to the listeners of a deployment in which a filter is
running.  Under every schedule in which something is done as long as anything is left to do, there is a moment from which on,
if until then no publish has failed and the lines were timely, InfluxDB stores exactly what the lines sent to the listeners
say, for every writer that has a running process, whose subjects are separate, for which nothing was lost and whose writes were in the end
accepted. -/
theorem C111_settles (h0 : Start d s0) (h : Reach d s0 s) (A : s.Acyclic) (B : s.Sizes) (hb : SmallBatches s)
    (hm : s.filters.members ≠ []) (sent : List (List Bytes)) (hs : Each2 Sent s.sources sent) {f : Nat → State d}
    (F : Schedule d s f) (hf : Fair f) :
    ∃ N, ∀ n, N ≤ n → (f n).NoFailure → (f n).Timely → ∀ x ∈ (f n).writers, x.inp.members ≠ [] → Separate (f n) x →
      NothingLost (f n) x → AcceptedAll x → FitTexts d x sent.flatten → ∀ (sets : Int → Bytes → List (K × V)),
      Timestamped sets (kept x.conf.rules (textsFor d x sent.flatten)) →
      Consistent sets (kept x.conf.rules (textsFor d x sent.flatten)) →
      ∀ ws : List (Bytes × Int), HandledAll x.inp.workers ws → ∀ (k : K) (v : V),
        stored sets ws k = some v ↔ ∃ txt ∈ kept x.conf.rules (textsFor d x sent.flatten), (k, v) ∈ sets 0 txt := by
  obtain ⟨N, hN⟩ := C101_fair_finishes h0 h A B F hf
  refine ⟨N, fun n hn a b x hx hxm hsep hl ha hfit sets hts hcons ws hw k v => ?_⟩
  have hsame : SameSetup s (f n) := by
    have := F.same (Nat.zero_le n)
    rw [F.start] at this
    exact this
  obtain ⟨-, -, B', hrun⟩ := F.ok (inv_reach h0 h) A B n
  exact C111_deployment h0 (h.run hrun) hx hsep (hsame.small hb) sent (F.sent hs n) a b
    ((hN n hn).quiet hx ((Group.fixed_eq hsame.filters).2.2 hm) hxm hl) (B' x hx) ha hfit sets hts hcons ws hw k v

/-! ## A case

A listener, a filter and a writer with one worker each.  A datagram with two lines goes through; the first write of the
line about `cpu` is handled although its answer is lost, and it is written again. -/

def stState (l : LComp) (f : Group FComp) (w : Group WSys) : State exSetup :=
  ⟨[l], [], f, [], [⟨[b!"cpu-subject"], exStoreConf, w⟩]⟩

def stGroup {W : Type} (subject : Bytes) (pending arrived todo jobs got : List Bytes) (k : W) : Group W :=
  ⟨[⟨subject, pending, []⟩], [⟨⟨[arrived], [todo], jobs, [got], [true], false⟩, [k]⟩], []⟩

def stEvent : UDPEvent := ⟨b!"cpu f=1 9900\nmem,h=1 f=2 9900\n", false, 1, 2, 3, fun _ => false⟩

def stMsg : Bytes := b!"cpu f=1 9900\nmem,h=1 f=2 9900\n"

def stLine : Bytes := b!"cpu f=1 9900\n"

def stL : Listener := ⟨⟨1, 1000, 1048576⟩, ⟨[], 1048576, 0, 3⟩, ⟨1, 1, 0, 0⟩, [⟨stMsg, false⟩]⟩

def stPubs : List Pub := [⟨b!"cpu-subject", stLine, false⟩, ⟨b!"tag-subject", b!"mem,h=1 f=2 9900\n", false⟩]

theorem st_filter : ∃ w st, (FComp.new exSetup).w.processBatch insertionSorter (FComp.new exSetup).st 10000 (fun _ => false) stMsg =
    .ok (w, st, stPubs) := by
  have h : (match (FComp.new exSetup).w.processBatch insertionSorter (FComp.new exSetup).st 10000 (fun _ => false) stMsg with
      | .ok (_, _, x) => some x | .panic => none) = some stPubs := by decide +kernel
  cases hc : (FComp.new exSetup).w.processBatch insertionSorter (FComp.new exSetup).st 10000 (fun _ => false) stMsg with
  | panic => rw [hc] at h; cases h
  | ok x =>
    obtain ⟨w, st, y⟩ := x
    rw [hc] at h
    injection h with h
    subst h
    exact ⟨w, st, rfl⟩

def stStart : State exSetup :=
  stState (.udp (Listener.new ⟨1, 1000, 1048576⟩ 0) []) (stGroup b!"influx-spout" [] [] [] [] [] (FComp.new exSetup))
    (stGroup b!"cpu-subject" [] [] [] [] [] (WSys.start exStoreConf 100000 0))

theorem st_start : Start exSetup stStart := by
  refine ⟨?_, rfl, ⟨⟨rfl, ?_, rfl⟩, ?_⟩, (fun y hy => by cases hy), ?_⟩
  · intro y hy
    rw [List.mem_singleton.1 hy]
    exact ⟨_, _, Or.inl rfl⟩
  · intro y hy
    rw [List.mem_singleton.1 hy]; rfl
  · intro y hy f hf
    rw [List.mem_singleton.1 hy] at hf
    exact List.mem_singleton.1 hf
  · intro y hy
    rw [List.mem_singleton.1 hy]
    refine ⟨⟨rfl, ?_, rfl⟩, ?_⟩
    · intro z hz
      rw [List.mem_singleton.1 hz]; rfl
    · intro z hz k hk
      rw [List.mem_singleton.1 hz] at hk
      exact ⟨100000, 0, List.mem_singleton.1 hk⟩

theorem st_deliver {W : Type} (subject : Bytes) (m : Bytes) (arrived todo jobs got : List Bytes) (k : W) :
    Group.Step (stGroup subject [m] arrived todo jobs got k) (stGroup subject [] (arrived ++ [m]) (todo ++ [m]) jobs got k) :=
  Group.Step.deliver (stGroup subject [m] arrived todo jobs got k) 0 0 ⟨⟨[arrived], [todo], jobs, [got], [true], false⟩, [k]⟩
    ⟨subject, [m], []⟩ [] [] m arrived todo rfl rfl rfl rfl rfl

theorem st_push {W : Type} (subject : Bytes) (m : Bytes) (arrived got : List Bytes) (k : W) :
    Group.Step (stGroup subject [] arrived [m] [] got k) (stGroup subject [] arrived [] [m] got k) :=
  Group.Step.queue (stGroup subject [] arrived [m] [] got k) 0 ⟨⟨[arrived], [[m]], [], [got], [true], false⟩, [k]⟩ _ rfl
    (.push ⟨[arrived], [[m]], [], [got], [true], false⟩ 0 m [] rfl (by simp [capacity])) rfl rfl

theorem st_take {W : Type} (subject : Bytes) (m : Bytes) (arrived got : List Bytes) (k k' : W) :
    Group.Take (stGroup subject [] arrived [] [m] got k) m k k' (stGroup subject [] arrived [] [] (got ++ [m]) k') :=
  Group.Take.mk 0 0 ⟨⟨[arrived], [[]], [m], [got], [true], false⟩, [k]⟩ [] got rfl rfl rfl rfl rfl

theorem st_work {W : Type} (subject : Bytes) (pending arrived todo jobs got : List Bytes) (k k' : W) :
    Group.Work (stGroup subject pending arrived todo jobs got k) k k' (stGroup subject pending arrived todo jobs got k') :=
  Group.Work.mk 0 0 ⟨⟨[arrived], [todo], jobs, [got], [true], false⟩, [k]⟩ rfl rfl

def stWriter (c : Group WSys) : WComp := ⟨[b!"cpu-subject"], exStoreConf, c⟩

theorem st_in (l : LComp) (f : Group FComp) {c c' : Group WSys} (h : Group.Step c c') : Step exSetup (stState l f c) (stState l f c') :=
  Step.writerIn (stState l f c) 0 (stWriter c) c' rfl h

theorem st_do (l : LComp) (f : Group FComp) {c c' : Group WSys} {k k' : WSys} (hr : WStep exStoreConf k k')
    (hm : received k'.hist = received k.hist) (h : c.Work k k' c') : Step exSetup (stState l f c) (stState l f c') :=
  Step.writer (stState l f c) 0 (stWriter c) c' k k' rfl hr hm h

theorem st_recv (l : LComp) (f : Group FComp) {c c' : Group WSys} {k k' : WSys} {m : Bytes} (hr : WStep exStoreConf k k')
    (hm : k'.hist = k.hist ++ [.recv m k.now]) (h : c.Take m k k' c') : Step exSetup (stState l f c) (stState l f c') :=
  Step.writerTake (stState l f c) 0 (stWriter c) m c' k k' rfl hr hm h

theorem st_publish (l : LComp) (arrived todo jobs got arrived' todo' jobs' got' : List Bytes) (f : FComp) (k : WSys) :
    (stState l (stGroup b!"influx-spout" [] arrived todo jobs got f) (stGroup b!"cpu-subject" [] arrived' todo' jobs' got' k)).publish (outF stPubs) =
    stState l (stGroup b!"influx-spout" [] arrived todo jobs got f) (stGroup b!"cpu-subject" [stLine] arrived' todo' jobs' got' k) := rfl

/-- The datagram has arrived, and its lines are on the way to the filter. -/
def stBusy : State exSetup :=
  stState (.udp stL [stEvent]) (stGroup b!"influx-spout" [stMsg] [] [] [] [] (FComp.new exSetup))
    (stGroup b!"cpu-subject" [] [] [] [] [] (WSys.start exStoreConf 100000 0))

theorem st_busy : Reach exSetup stStart stBusy :=
  Reach.refl.step (Step.udp stStart 0 (Listener.new ⟨1, 1000, 1048576⟩ 0) stL [] stEvent rfl (by decide) (by decide +kernel))

/-- The message reaches the filter, and its line about `cpu` the queue of the writer. -/
theorem st_reach : ∃ w st, (FComp.new exSetup).w.processBatch insertionSorter (FComp.new exSetup).st 10000 (fun _ => false) stMsg =
      .ok (w, st, stPubs) ∧ QRun exSetup stBusy
    (stState (.udp stL [stEvent]) (stGroup b!"influx-spout" [] [stMsg] [] [] [stMsg]
        ⟨w, st, none, [⟨10000, fun _ => false, stMsg⟩], [stPubs]⟩)
      (stGroup b!"cpu-subject" [] [stLine] [] [stLine] [] (WSys.start exStoreConf 100000 0))) := by
  obtain ⟨w, st, hp⟩ := st_filter
  refine ⟨w, st, hp, ?_⟩
  have r2 : QRun exSetup stBusy (stState (.udp stL [stEvent]) (stGroup b!"influx-spout" [] [stMsg] [stMsg] [] [] (FComp.new exSetup))
      (stGroup b!"cpu-subject" [] [] [] [] [] (WSys.start exStoreConf 100000 0))) :=
    QRun.refl.step (Step.filterIn _ _ (st_deliver _ _ _ _ _ _ _)) rfl
  have r3 : QRun exSetup stBusy (stState (.udp stL [stEvent]) (stGroup b!"influx-spout" [] [stMsg] [] [stMsg] [] (FComp.new exSetup))
      (stGroup b!"cpu-subject" [] [] [] [] [] (WSys.start exStoreConf 100000 0))) :=
    r2.step (Step.filterIn _ _ (st_push _ _ _ _ _)) rfl
  have r4 : QRun exSetup stBusy (stState (.udp stL [stEvent]) (stGroup b!"influx-spout" [] [stMsg] [] [] [stMsg] { FComp.new exSetup with working := some stMsg })
      (stGroup b!"cpu-subject" [] [] [] [] [] (WSys.start exStoreConf 100000 0))) :=
    r3.step (Step.filterTake _ _ stMsg _ rfl (st_take _ _ _ _ _ _)) rfl
  have e := st_publish (.udp stL [stEvent]) [stMsg] [] [] [stMsg] [] [] [] [] ⟨w, st, none, [⟨10000, fun _ => false, stMsg⟩], [stPubs]⟩ (WSys.start exStoreConf 100000 0)
  have r5' : QRun exSetup stBusy ((stState (.udp stL [stEvent]) (stGroup b!"influx-spout" [] [stMsg] [] [] [stMsg]
        ⟨w, st, none, [⟨10000, fun _ => false, stMsg⟩], [stPubs]⟩)
      (stGroup b!"cpu-subject" [] [] [] [] [] (WSys.start exStoreConf 100000 0))).publish (outF stPubs)) :=
    r4.step (Step.filterDo (stState (.udp stL [stEvent]) (stGroup b!"influx-spout" [] [stMsg] [] [] [stMsg] { FComp.new exSetup with working := some stMsg })
      (stGroup b!"cpu-subject" [] [] [] [] [] (WSys.start exStoreConf 100000 0))) { FComp.new exSetup with working := some stMsg } stMsg 10000 (fun _ => false) w st stPubs _ rfl hp (st_work _ _ _ _ _ _ _ _)) rfl
  rw [e] at r5'
  have r5 : QRun exSetup stBusy (stState (.udp stL [stEvent]) (stGroup b!"influx-spout" [] [stMsg] [] [] [stMsg]
        ⟨w, st, none, [⟨10000, fun _ => false, stMsg⟩], [stPubs]⟩)
      (stGroup b!"cpu-subject" [stLine] [] [] [] [] (WSys.start exStoreConf 100000 0))) := r5'
  have r6 : QRun exSetup stBusy (stState (.udp stL [stEvent]) (stGroup b!"influx-spout" [] [stMsg] [] [] [stMsg]
        ⟨w, st, none, [⟨10000, fun _ => false, stMsg⟩], [stPubs]⟩)
      (stGroup b!"cpu-subject" [] [stLine] [stLine] [] [] (WSys.start exStoreConf 100000 0))) :=
    r5.step (st_in _ _ (st_deliver _ _ _ _ _ _ _)) rfl
  exact r6.step (st_in _ _ (st_push _ _ _ _ _)) rfl

/-- Steps of the worker other than receiving a message. -/
def stActs (k : WSys) : List WAct → Option WSys
  | [] => some k
  | a :: as => (wAct exStoreConf k a).bind fun k1 => if received k1.hist = received k.hist then stActs k1 as else none

theorem st_writer {l : LComp} {f : Group FComp} (arrived got : List Bytes) {as : List WAct} : ∀ {k k' : WSys},
    QRun exSetup stBusy (stState l f (stGroup b!"cpu-subject" [] arrived [] [] got k)) → stActs k as = some k' →
    QRun exSetup stBusy (stState l f (stGroup b!"cpu-subject" [] arrived [] [] got k')) := by
  induction as with
  | nil =>
    intro k k' hr h
    simp only [stActs] at h
    injection h with h
    rw [← h]; exact hr
  | cons a as ih =>
    intro k k' hr h
    simp only [stActs] at h
    cases ha : wAct exStoreConf k a with
    | none => rw [ha] at h; cases h
    | some k1 =>
      rw [ha] at h
      have h : (if received k1.hist = received k.hist then stActs k1 as else none) = some k' := h
      by_cases hm : received k1.hist = received k.hist
      · rw [if_pos hm] at h
        exact ih (hr.step (st_do _ _ (wAct_sound ha) hm (st_work _ _ _ _ _ _ _ _)) rfl) h
      · rw [if_neg hm] at h; cases h

def stK (k : WSys) : Option WSys := (wAct exStoreConf k (.recv stLine)).bind fun k1 =>
  if k1.hist = k.hist ++ [.recv stLine k.now] then
    stActs k1 [.check, .first .transport, .handoff, .arm, .input, .sent, .arm, .tick 5, .fire, .finish (.status 204)]
  else none

def stRest (k : WSys) : Bool := (match k.phase with | .handoff _ _ _ => false | _ => true) && k.ch.isNone && k.queue.isEmpty

/-- The line is written, its answer is lost, and it is written again. -/
theorem st_end : ∃ (w : FWorker) (st : FStats) (k : WSys), k.hist = exStoreHist2 ∧ unsentBytes k = [] ∧ Rest k ∧ QRun exSetup stBusy
    (stState (.udp stL [stEvent]) (stGroup b!"influx-spout" [] [stMsg] [] [] [stMsg]
        ⟨w, st, none, [⟨10000, fun _ => false, stMsg⟩], [stPubs]⟩)
      (stGroup b!"cpu-subject" [] [stLine] [] [] [stLine] k)) := by
  obtain ⟨w, st, -, hr⟩ := st_reach
  have hk : ((stK (WSys.start exStoreConf 100000 0)).map fun k => (k.hist, unsentBytes k, stRest k)) = some (exStoreHist2, [], true) := by decide +kernel
  cases hc : stK (WSys.start exStoreConf 100000 0) with
  | none => rw [hc] at hk; cases hk
  | some k =>
    rw [hc] at hk
    have hk : some (k.hist, unsentBytes k, stRest k) = some (exStoreHist2, [], true) := hk
    injection hk with hk
    injection hk with hk1 hk2
    injection hk2 with hk2 hk3
    have hrest : Rest k := by
      unfold stRest at hk3
      simp only [Bool.and_eq_true, Option.isNone_iff_eq_none, List.isEmpty_iff] at hk3
      refine ⟨hk2, fun i chunk rest hp => ?_, hk3.1.2, hk3.2⟩
      have := hk3.1.1
      rw [hp] at this
      cases this
    refine ⟨w, st, k, hk1, hk2, hrest, ?_⟩
    unfold stK at hc
    generalize WSys.start exStoreConf 100000 0 = k0 at hc hr
    cases ha : wAct exStoreConf k0 (.recv stLine) with
    | none => rw [ha] at hc; cases hc
    | some k1 =>
      rw [ha] at hc
      have hc : (if k1.hist = k0.hist ++ [.recv stLine k0.now] then stActs k1 _ else none) = some k := hc
      by_cases hm : k1.hist = k0.hist ++ [.recv stLine k0.now]
      · rw [if_pos hm] at hc
        exact st_writer [stLine] [stLine] (hr.step (st_recv _ _ (wAct_sound ha) hm (st_take _ _ _ _ _ _)) rfl) hc
      · rw [if_neg hm] at hc; cases hc

theorem st_texts : [stLine, b!"mem,h=1 f=2 9900\n"].flatMap (textsTo exSetup.S exSetup.rules exSetup.junk [b!"cpu-subject"]) = [stLine] := by
  decide +kernel

theorem st_finished (w : FWorker) (st : FStats) (k : WSys) (h : Rest k) :
    (stState (.udp stL [stEvent]) (stGroup b!"influx-spout" [] [stMsg] [] [] [stMsg]
        ⟨w, st, none, [⟨10000, fun _ => false, stMsg⟩], [stPubs]⟩)
      (stGroup b!"cpu-subject" [] [stLine] [] [] [stLine] k)).Finished := by
  refine ⟨?_, ⟨?_, rfl⟩, ?_, (fun y hy => by cases hy), ?_⟩
  · intro y hy
    rw [List.mem_singleton.1 hy]
    exact rfl
  · intro _ y hy
    rw [List.mem_singleton.1 hy]
  · intro f hf
    rw [List.mem_singleton.1 hf]
  · intro y hy
    rw [List.mem_singleton.1 hy]
    refine ⟨⟨?_, rfl⟩, ?_⟩
    · intro _ z hz
      rw [List.mem_singleton.1 hz]
    · intro k' hk'
      rw [List.mem_singleton.1 hk']
      exact h

/-- All hypotheses of C111 for deployments are met, at the end of a fair schedule. -/
theorem st_case : ∃ (f : Nat → State exSetup) (N : Nat) (s : State exSetup) (x : WComp) (ws : List (Bytes × Int)), Start exSetup stStart ∧ Reach exSetup stStart stBusy ∧
    stBusy.Acyclic ∧ stBusy.Sizes ∧ Schedule exSetup stBusy f ∧ Fair f ∧ (∀ n, N ≤ n → f n = s) ∧ Reach exSetup stStart s ∧ x ∈ s.writers ∧ x.inp.members ≠ [] ∧ NothingLost s x ∧
    Separate s x ∧ SmallBatches s ∧ Each2 Sent s.sources [[stLine, b!"mem,h=1 f=2 9900\n"]] ∧ s.NoFailure ∧ s.Timely ∧ Quiet s x ∧
    1 ≤ x.conf.batchMaxSize ∧ AcceptedAll x ∧ kept x.conf.rules (textsFor exSetup x [stLine, b!"mem,h=1 f=2 9900\n"]) = [stLine] ∧
    FitTexts exSetup x [stLine, b!"mem,h=1 f=2 9900\n"] ∧ Timestamped exSets [stLine] ∧ Consistent exSets [stLine] ∧
    HandledAll x.inp.workers ws ∧ ws.length = 2 ∧ stored exSets ws (.inr (b!"cpu", b!"f", b!"9900")) = some b!"1" := by
  obtain ⟨w, st, k, h1, h2, hrest, hq⟩ := st_end
  have hr := st_busy.run hq.run
  obtain ⟨f, N, F, hN⟩ := hq.schedule
  have hfin := st_finished w st k hrest
  have hfair : Fair f := schedule_fair F fun n hn => by rw [hN n hn]; exact hfin
  have hs1 : ∀ t, exSets t stLine = [(.inr (b!"cpu", b!"f", b!"9900"), b!"1")] := fun t => rfl
  have hk : ∀ k' ∈ (stGroup b!"cpu-subject" [] [stLine] [] [] [stLine] k).workers, k' = k := fun k' hk' => List.mem_singleton.1 hk'
  have htx : textsFor exSetup (stWriter (stGroup b!"cpu-subject" [] [stLine] [] [] [stLine] k)) [stLine, b!"mem,h=1 f=2 9900\n"] = [stLine] := by
    show [stLine, b!"mem,h=1 f=2 9900\n"].flatMap (textsTo exSetup.S exSetup.rules exSetup.junk [b!"cpu-subject"]) = [stLine]
    exact st_texts
  refine ⟨f, N, _, stWriter _, [(stLine, 0), (stLine, 5)], st_start, st_busy, ⟨by decide, by decide, (fun y hy => by cases hy)⟩,
    (fun y hy => by rw [List.mem_singleton.1 hy]; decide), F, hfair, hN, hr, List.mem_singleton.2 rfl, (fun h => by cases h),
    ⟨(fun y hy => by cases hy), rfl, (fun y hy => by cases hy), rfl, (fun y hy => by cases hy)⟩, ⟨by decide, by decide, (fun y hy => by cases hy),
      show exSetup.lsub ∉ [b!"cpu-subject"] by decide⟩,
    ?_, ?_, ⟨?_, ?_⟩, ⟨by decide, ?_⟩, ⟨?_, rfl, ?_, rfl, ?_⟩, show 1 ≤ exStoreConf.batchMaxSize by decide, ?_, ?_, ?_, ?_, ?_, ⟨[[(stLine, 0), (stLine, 5)]], rfl, ?_, .refl _⟩, rfl, by decide⟩
  · intro l got hl
    have hl : LComp.udp l got = LComp.udp stL [stEvent] := List.mem_singleton.1 hl
    injection hl with hl _
    rw [hl]; decide
  · have e : [stLine, b!"mem,h=1 f=2 9900\n"] = sentLines [stEvent] := by decide +kernel
    rw [e]
    exact .cons (.udp _ _) .nil
  · intro y hy
    have hy : y = LComp.udp stL [stEvent] := List.mem_singleton.1 hy
    rw [hy]; decide
  · intro f hf
    rw [List.mem_singleton.1 hf]
    show ∀ q ∈ [stPubs].flatten, q.failed = false
    decide
  · intro f hf
    rw [List.mem_singleton.1 hf]
    intro m hm
    rw [List.mem_singleton.1 hm]
    refine ⟨by decide, by decide, ?_⟩
    have key : ∀ line ∈ linesOf stMsg, ∃ off ∈ [(8 : Int), 12], extractTimestamp line = .ok (9900, off) := by decide +kernel
    intro line hline
    obtain ⟨off, -, e⟩ := key line hline
    exact timely_of e (by decide)
  · intro y hy
    have hy : y = LComp.udp stL [stEvent] := List.mem_singleton.1 hy
    rw [hy]; decide
  · intro f hf
    rw [List.mem_singleton.1 hf]
  · intro k' hk'
    rw [hk k' hk', h2]
  · intro k' hk' i d r t hf
    rw [hk k' hk', h1] at hf ⊢
    simp [exStoreHist2] at hf
    rw [hf.1]
    exact Or.inr ⟨.status 204, 5, by simp [exStoreHist2], ok204⟩
  · rw [htx]
    exact kept_norules _
  · intro txt htxt
    rw [htx] at htxt
    rw [List.mem_singleton.1 htxt]
    exact ⟨⟨b!"cpu f=1 9900", by decide, rfl⟩, show stLine.length ≤ exStoreConf.batchMaxSize + 1 by decide⟩
  · intro txt htxt t t'
    rw [List.mem_singleton.1 htxt]; rfl
  · intro l hl l' hl' t t' key v v' ha hb
    rw [List.mem_singleton.1 hl, hs1] at ha
    rw [List.mem_singleton.1 hl', hs1] at hb
    simp only [List.mem_singleton, Prod.mk.injEq] at ha hb
    rw [ha.2, hb.2]
  · intro i s l g1 g2
    match i with
    | 0 =>
      have g1 : [k][0]? = some s := g1
      simp only [List.getElem?_cons_zero, Option.some.injEq] at g1 g2
      rw [← g1, ← g2, h1]
      exact exStore_handled2
    | i + 1 => cases g2

end Spout.Deploy
