import Verif.Props.DeploymentFiles
import Verif.Props.ListenerBatching

/-! # The limits in the files are in effect (C113)

The limits of listeners (C89), filters (C17) and writers (C35, C37, C39, C41), in every state that a deployment started from configuration files can
reach, in terms of the keys in these files. -/

namespace Spout.Deploy
open Spout Spout.Listener Spout.Pool Spout.Spec Spout.Delivery Spout.Conf Spout.Conf.Spec

/-! ## Specification -/

/-- The configuration was read from a file with the keys `l`, on a machine whose common file has the keys `k`. -/
def ReadFrom (k l : Layer) (c : Config) : Prop := ∃ fs env f, newConfigFromFile fs env f = some c ∧ CommonKeys fs k ∧ fs f = .decoded l

/-- A size whose default (for 0, too) is `default`. -/
def sizeSetting (mine common : Option Nat) (default : Nat) : Nat :=
  match setting mine common 0 with
  | 0 => default
  | n => n

/-- The limits on the batches of a listener: 10 writes, 5 minutes and 1 MiB by default. -/
def fileLimits (k l : Layer) : BLimits :=
  ⟨setting l.batchMaxCount k.batchMaxCount 10, setting l.batchMaxAge k.batchMaxAge 300000000000, sizeSetting l.batchMaxSize k.batchMaxSize 1048576⟩

/-- The line ends in a timestamp of full length (19 characters, as all from 2001 to 2262 have), which is `v`. -/
def Dated (line : Bytes) (v : Int) : Prop :=
  24 < line.length ∧ InInt64 v ∧ v ≠ -1 ∧ ∃ pre ts, stripNL line = pre ++ SP :: ts ∧ ts.length = 19 ∧ Decimal ts v

/-! ## Proofs -/

variable {compile : Bytes → Option (Bytes → Bool)} {d : Setup} {cs : Confs} {s s0 : State d} {x : WComp} {k l : Layer} {c : Config}

theorem ReadFrom.keys (h : ReadFrom k l c) : PlainSettings k l c ∧ ∃ env f, DynamicSettings env f k l c := by
  obtain ⟨fs, env, f, h, hk, hl⟩ := h
  have uniq : ∀ {k1 l1}, CommonKeys fs k1 → fs f = .decoded l1 → k1 = k ∧ l1 = l := by
    intro k1 l1 a1 a2
    rw [hl] at a2; injection a2 with a2
    refine ⟨?_, a2.symm⟩
    rcases a1 with a1 | ⟨a1, rfl⟩ <;> rcases hk with b1 | ⟨b1, rfl⟩ <;> rw [a1] at b1
    · injection b1
    · cases b1
    · cases b1
  obtain ⟨k1, l1, a1, a2, a3⟩ := C63_plain_settings fs env f c h
  obtain ⟨rfl, rfl⟩ := uniq a1 a2
  obtain ⟨k2, l2, b1, b2, b3⟩ := C63_dynamic_settings fs env f c h
  obtain ⟨rfl, rfl⟩ := uniq b1 b2
  exact ⟨a3, env, f, b3⟩

/-- Every configuration that was loaded was read from some file. -/
theorem Loaded.readFrom (h : Loaded c) : ∃ k l, ReadFrom k l c := by
  obtain ⟨fs, env, f, h⟩ := h
  obtain ⟨k, l, a, b, -⟩ := C63_plain_settings fs env f c h
  exact ⟨k, l, fs, env, f, h, a, b⟩

theorem sizeSetting_eq (a b : Option Nat) (n : Nat) : sizeSetting a b n = if setting a b 0 = 0 then n else setting a b 0 := by
  unfold sizeSetting
  cases setting a b 0 <;> simp

theorem ReadFrom.size_writer (h : ReadFrom k l c) (hm : c.mode = b!"writer") : c.batchMaxSize = sizeSetting l.batchMaxSize k.batchMaxSize 10485760 := by
  obtain ⟨-, env, f, D⟩ := h.keys
  have hn : ¬ (c.mode = b!"listener" ∨ c.mode = b!"listener_http") := by rw [hm]; decide
  rw [D.batchMaxSize, sizeSetting_eq, if_neg hn]

theorem ReadFrom.listener (h : ReadFrom k l c) (hm : c.mode = b!"listener" ∨ c.mode = b!"listener_http") : (listenerConf c).limits = fileLimits k l := by
  obtain ⟨P, env, f, D⟩ := h.keys
  have e := D.batchMaxSize
  rw [if_pos hm] at e
  unfold LConf.limits listenerConf fileLimits
  rw [sizeSetting_eq, ← P.batchMaxCount, ← P.batchMaxAge]
  rw [e]

theorem writerConf_fields {wc : WConf} (h : writerConf compile c = .ok (some wc)) : wc.batchMaxCount = c.batchMaxCount ∧ wc.batchMaxAge = c.batchMaxAge ∧
    wc.retryBatches = c.writerRetryBatches ∧ wc.retryInterval = c.writerRetryInterval ∧ wc.retryTimeout = c.writerRetryTimeout := by
  unfold writerConf at h
  cases hr : ruleSetFromConfig compile c.rule with
  | panic => rw [hr] at h; cases h
  | ok o =>
    rw [hr] at h
    cases o with
    | none => cases h
    | some rules =>
      have h : (Go.ok (some _) : Go (Option WConf)) = .ok (some wc) := h
      injection h with h; injection h with h
      rw [← h]
      exact ⟨rfl, rfl, rfl, rfl, rfl⟩

/-- **C113 (UDP listeners).** In every state that is reached, each UDP listener that is running or has crashed has published exactly the batches that the limits in its file ask for. -/
theorem C113_udp_batches (h0 : Start d s0) (h : Reach d s0 s) (y : Listener) (got : List UDPEvent) (hy : .udp y got ∈ s.sources) (hc : ListenerOf c (.udp y got))
    (hr : ReadFrom k l c) :
    y.pubs.map (·.data) = (brun (fileLimits k l) ([], []) (got.flatMap udpOps)).1.flatMap messagesOf ∧
      y.batch.bytes = bytesOf (brun (fileLimits k l) ([], []) (got.flatMap udpOps)).2 := by
  cases hc with
  | udp _ _ hm e =>
    have ho := (inv_reach h0 h).listeners _ hy
    cases ho with
    | udp lc t0 _ _ hrun hlen hlc =>
      obtain ⟨y', h1, h2, -, h4⟩ := C89_udp_batches lc t0 got fun e he => Nat.le_trans (hlen e he) (by decide)
      rw [hrun] at h1
      injection h1 with h1
      subst h1
      have e2 : lc.limits = fileLimits k l := by rw [← hlc, e]; exact hr.listener (.inl hm)
      rw [e2] at h2 h4
      exact ⟨h2, h4⟩

/-- **C113 (HTTP listeners).** So has each HTTP listener. -/
theorem C113_http_batches (h0 : Start d s0) (h : Reach d s0 s) (y : Listener) (reqs : List HReq) (wakeups order : List HTTPEvent)
    (hy : .http y reqs wakeups order ∈ s.sources) (hc : ListenerOf c (.http y reqs wakeups order)) (hr : ReadFrom k l c) :
    y.pubs.map (·.data) = (brun (fileLimits k l) ([], []) (order.flatMap httpOps)).1.flatMap messagesOf ∧
      y.batch.bytes = bytesOf (brun (fileLimits k l) ([], []) (order.flatMap httpOps)).2 := by
  cases hc with
  | http _ _ _ _ hm e =>
    have ho := (inv_reach h0 h).listeners _ hy
    cases ho with
    | http lc t0 _ _ _ _ hrun hq hw hor =>
      obtain ⟨y', h1, h2, -, h4⟩ := C89_http_batches lc t0 order
      rw [hrun] at h1
      injection h1 with h1
      subst h1
      have e2 : lc.limits = fileLimits k l := by
        obtain ⟨y2, g1, -, g2, -⟩ := http_run order _ (inv_new lc t0)
        rw [hrun] at g1
        injection g1 with g1
        rw [← g1, e] at g2
        rw [show lc = listenerConf c from g2.symm]
        exact hr.listener (.inr hm)
      rw [e2] at h2 h4
      exact ⟨h2, h4⟩

/-- **C113 (messages).** Whatever the files say, no message of a UDP listener is larger than a message of NATS can be. -/
theorem C113_message_size (h0 : Start d s0) (h : Reach d s0 s) (L : cs.Loaded) (D : Deployed compile cs s) (y : Listener) (got : List UDPEvent) (hy : .udp y got ∈ s.sources) :
    ∀ p ∈ y.pubs, p.data.length ≤ 1048576 := by
  obtain ⟨c, hc, hl, -⟩ := D.listeners _ hy
  cases hl with
  | udp _ _ hm e =>
    have ho := (inv_reach h0 h).listeners _ hy
    cases ho with
    | udp lc t0 _ _ hrun hlen hlc =>
      have hs : lc.batchMaxSize ≤ 1048576 := by
        rw [← hlc, e]
        exact (loaded_listener (L.listeners c hc).1 (L.listeners c hc).2).2.2
      obtain ⟨y', g1, -, g2⟩ := C49_udp_message_size lc hs t0 got hlen
      rw [hrun] at g1
      injection g1 with g1
      subst g1
      exact fun p hp => (g2 p hp).1

/-- **C113 (filters).** In every state that is reached, for every message that a filter worker has processed: a line that ends in a timestamp of full length contributes nothing to what was published for the message
if the timestamp was `max_time_delta` or more away from the clock; a line with a timestamp nearer to the clock, or without one, was not dropped for its time. -/
theorem C113_filter_window (h0 : Start d s0) (h : Reach d s0 s) (L : cs.Loaded) (D : Deployed compile cs s) (hr : ReadFrom k l cs.filter) (f : FComp) (hf : f ∈ s.filters.workers)
    (i : Nat) (m : FMsg) (pubs : List Pub) (hm : f.past[i]? = some m) (hp : f.pubss[i]? = some pubs) (delta : Int)
    (hd : delta = setting l.maxTimeDelta k.maxTimeDelta 600000000000) (hpos : 0 < delta) (h1 : InInt64 (m.now - delta)) (h2 : InInt64 (m.now + delta)) :
    ∃ o : Bytes → Outcome, pubs.map (fun p => (p.subject, p.data)) = expectedPubs d.rules d.junk ((linesOf m.data).map o) ∧
      (∀ line v, Dated line v → (o line = .badTime ↔ v ≤ m.now - delta ∨ m.now + delta ≤ v)) ∧
      (∀ line v off, HasTs line v off → m.now - delta < v ∧ v < m.now + delta → o line ≠ .badTime) ∧
      (∀ line, (∀ v off, ¬ HasTs line v off) → o line ≠ .badTime) := by
  have hdelta : d.delta = delta := by rw [(D.setup L).2.2.1, hr.keys.1.maxTimeDelta, hd]
  have hrun := (inv_reach h0 h).fran f hf
  obtain ⟨st, pubss, e1, e2⟩ := C16_history d.S d.delta d.rules d.junk f.past
  rw [hrun] at e1
  injection e1 with e1
  simp only [Prod.mk.injEq] at e1
  obtain ⟨-, -, e1⟩ := e1
  subst e1
  have e3 := congrArg (fun z => z[i]?) e2
  simp only [List.getElem?_map, hm, hp, Option.map_some, Option.some.injEq] at e3
  refine ⟨outcome d.S d.rules m.now (wrap64 (m.now - delta)) (wrap64 (m.now + delta)), ?_, ?_, ?_, ?_⟩
  · rw [e3, hdelta]; rfl
  · rintro line v ⟨a1, a2, a3, pre, ts, a4, a5, a6⟩
    exact C17_window_partial d.S d.rules m.now delta v line pre ts a1 a4 a5 a6 a2 a3 h1 h2
  · intro line v off a b
    exact C17_in_window_accepted d.S d.rules m.now delta v off line a b h1 h2
  · intro line a
    exact C17_no_timestamp_accepted d.S d.rules m.now delta line a hpos h1 h2

/-- **C113 (batches of writers).** In every state that is reached, for every worker of a writer: while it waits, its batch is empty or was, when it began to wait (a second before its timer), below the limits in the writer's file; and it has
sent a batch (which is then all it had) only when one of the limits was reached. -/
theorem C113_writer_batches (h0 : Start d s0) (h : Reach d s0 s) (hx : x ∈ s.writers) (hw : WriterOf compile c x) (hr : ReadFrom k l c) (hm : c.mode = b!"writer")
    (w : WSys) (hk : w ∈ x.inp.workers) :
    (∀ u, w.phase = .select u → (w.batch.writes = 0 ∧ w.batch.bytes = []) ∨
      ((w.batch.writes : Int) < setting l.batchMaxCount k.batchMaxCount 10 ∧ w.batch.bytes.length < sizeSetting l.batchMaxSize k.batchMaxSize 10485760 ∧
        w.batch.age (u - 1000000000) < setting l.batchMaxAge k.batchMaxAge 300000000000)) ∧
    ∀ h1 b t h2, w.hist = h1 ++ .flush b t :: h2 → b = dataOf (pending x.conf.rules h1) ∧ pending x.conf.rules (h1 ++ [.flush b t]) = [] ∧
      (setting l.batchMaxCount k.batchMaxCount 10 ≤ ((pending x.conf.rules h1).length : Int) ∨ sizeSetting l.batchMaxSize k.batchMaxSize 10485760 ≤ b.length ∨
        setting l.batchMaxAge k.batchMaxAge 300000000000 ≤ ageOf (pending x.conf.rules h1) t) := by
  have hrun := ((inv_reach h0 h).writers x hx).2 w hk
  obtain ⟨e1, e2, -, -, -⟩ := writerConf_fields hw.conf
  have e3 := writerConf_size hw.conf
  rw [hr.keys.1.batchMaxCount] at e1
  rw [hr.keys.1.batchMaxAge] at e2
  rw [hr.size_writer hm] at e3
  refine ⟨?_, ?_⟩
  · intro u hu
    have := C35_waiting_below_limits x.conf w hrun u hu
    rw [e1, e2, e3] at this
    exact this
  · intro h1 b t h2 hh
    obtain ⟨a, b', c'⟩ := C35_sent_at_limit x.conf w hrun h1 h2 b t hh
    unfold LimitReached at b'
    rw [e1, e2, e3, ← a] at b'
    exact ⟨a, c', b'⟩

/-- **C113 (retries of writers).** In every state that is reached, for every worker of a writer: it holds at most `writer_retry_batches` batches for retry, has not tried again a batch it had for more than `writer_retry_timeout`, and there are
`writer_retry_interval` or more between any two attempts. -/
theorem C113_writer_retries (h0 : Start d s0) (h : Reach d s0 s) (hx : x ∈ s.writers) (hw : WriterOf compile c x) (hr : ReadFrom k l c)
    (w : WSys) (hk : w ∈ x.inp.workers) :
    (∃ n : Nat, HeldCount w.hist n ∧ (n : Int) ≤ max 0 (setting l.writerRetryBatches k.writerRetryBatches 1)) ∧
    (∀ i b t tq, .attempt i b t ∈ w.hist → .queued i tq ∈ w.hist → t ≤ tq + setting l.writerRetryTimeout k.writerRetryTimeout 60000000000) ∧
    (∀ h1 i b t h2 j b' t' h3, w.hist = h1 ++ .attempt i b t :: h2 ++ .attempt j b' t' :: h3 →
      t + setting l.writerRetryInterval k.writerRetryInterval 10000000000 ≤ t') := by
  have hrun := ((inv_reach h0 h).writers x hx).2 w hk
  obtain ⟨-, -, e1, e2, e3⟩ := writerConf_fields hw.conf
  rw [hr.keys.1.writerRetryBatches] at e1
  rw [hr.keys.1.writerRetryInterval] at e2
  rw [hr.keys.1.writerRetryTimeout] at e3
  refine ⟨?_, ?_, ?_⟩
  · have := C37_retry_queue_bounded x.conf w hrun
    rwa [e1] at this
  · intro i b t tq ha hq
    have := C39_expired_never_retried x.conf w hrun i b t tq ha hq
    rwa [e3] at this
  · intro h1 i b t h2 j b' t' h3 hh
    have := C41_rate_limited x.conf w hrun h1 h2 h3 i j b b' t t' hh
    rwa [e2] at this

/-- **C113 (workers).** A filter runs the number of workers in its file (none if it is negative). -/
theorem C113_filter_workers (procs pages n : Nat) (now : Int) (hr : ReadFrom k l cs.filter) :
    (startAll compile procs pages n now d cs).filters.members.length = n ∧
      ∀ x ∈ (startAll compile procs pages n now d cs).filters.members, x.workers.length = (setting l.workers k.workers 8).toNat := by
  refine ⟨List.length_replicate .., ?_⟩
  intro x hx
  rw [(List.mem_replicate.1 hx).2]
  show (List.replicate _ _).length = _
  rw [List.length_replicate, hr.keys.1.workers]

/-- **C113 (workers).** So does a writer, except that it does not start if the number is negative, and that 0 stands for twice the number of processors. -/
theorem C113_writer_workers (procs pages : Nat) (now : Int) (hr : ReadFrom k l c) (hx : startWriter compile procs pages now c = some x) :
    0 ≤ setting l.workers k.workers 8 ∧
      (x.inp.workers.length : Int) = if setting l.workers k.workers 8 = 0 then 2 * (procs : Int) else setting l.workers k.workers 8 := by
  rw [← hr.keys.1.workers]
  unfold startWriter at hx
  by_cases hn : c.workers < 0
  · rw [if_pos hn] at hx; cases hx
  · rw [if_neg hn] at hx
    refine ⟨by omega, ?_⟩
    split at hx
    · injection hx with hx
      subst hx
      show ((List.flatMap _ ([_] ++ [])).length : Int) = _
      simp only [List.append_nil, List.flatMap_cons, List.flatMap_nil, List.length_replicate]
      unfold writerWorkers
      split
      · push_cast; rfl
      · omega
    · cases hx

/-! ## A case: that of C112 -/

theorem fileConf_read {n : Bytes} {l : Layer} (hn : fileSystem n = .decoded l) (h : (newConfigFromFile fileSystem (fun _ => []) n).isSome = true) :
    ReadFrom {} l (fileConf n) := by
  refine ⟨fileSystem, fun _ => [], n, ?_, .inr ⟨by decide +kernel, rfl⟩, hn⟩
  unfold fileConf
  cases hn : newConfigFromFile fileSystem (fun _ => []) n with
  | none => rw [hn] at h; cases h
  | some c => rfl

/-- The hypotheses of C113 are met, in a state in which a message was published by the listener, processed by the filter, and a batch sent, queued and sent again. -/
example : ∃ (s : State exSetup) (y : Listener) (got : List UDPEvent) (f : FComp) (m : FMsg) (x : WComp) (w : WSys) (h1 h2 : List WEv) (b : Bytes),
    Start exSetup stStart ∧ Reach exSetup stStart s ∧ fileConfs.Loaded ∧ Deployed (fun _ => none) fileConfs s ∧
    .udp y got ∈ s.sources ∧ ListenerOf (fileConf b!"listener.toml") (.udp y got) ∧ ReadFrom {} fileListener (fileConf b!"listener.toml") ∧ y.pubs ≠ [] ∧
    ReadFrom {} fileFilter fileConfs.filter ∧ f ∈ s.filters.workers ∧ f.past[0]? = some m ∧ f.pubss[0]? = some stPubs ∧
    setting fileFilter.maxTimeDelta none 600000000000 = 1000 ∧ InInt64 (m.now - 1000) ∧ InInt64 (m.now + 1000) ∧
    x ∈ s.writers ∧ WriterOf (fun _ => none) (fileConf b!"writer.toml") x ∧ ReadFrom {} fileWriter (fileConf b!"writer.toml") ∧
    (fileConf b!"writer.toml").mode = b!"writer" ∧ w ∈ x.inp.workers ∧ w.hist = h1 ++ .flush b 0 :: h2 ∧ .queued 0 0 ∈ w.hist ∧ .attempt 0 b 5 ∈ w.hist := by
  obtain ⟨w, st, k, e1, -, -, hq⟩ := st_end
  have hrun := hq.run
  have D := C112_stays stBusy_deployed hrun
  refine ⟨_, stL, [stEvent], _, ⟨10000, fun _ => false, stMsg⟩, stWriter _, k, [.recv b!"cpu f=1 9900\n" 0], _, b!"cpu f=1 9900\n", st_start, st_busy.run hrun, fileConfs_loaded, D, List.mem_singleton.2 rfl,
    .udp _ _ (by decide +kernel) (by decide +kernel), fileConf_read rfl (by decide +kernel), (fun h => by cases h), fileConf_read (n := b!"filter.toml") rfl (by decide +kernel),
    List.mem_singleton.2 rfl, rfl, rfl, rfl, by decide, by decide, List.mem_singleton.2 rfl, ?_, fileConf_read rfl (by decide +kernel), by decide +kernel, List.mem_singleton.2 rfl,
    e1, by rw [e1]; simp [exStoreHist2], by rw [e1]; simp [exStoreHist2]⟩
  obtain ⟨c, hc, hw⟩ := D.writers _ (List.mem_singleton.2 rfl)
  rwa [List.mem_singleton.1 hc] at hw

end Spout.Deploy
