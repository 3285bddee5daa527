import Verif.Lemmas.Listener

/-! # Properties of the UDP listener (C47, C48, C49, C66) -/

set_option linter.unusedSimpArgs false

namespace Spout
open Listener

/-- A datagram completed with a newline if it lacks one. -/
def completed (d : Bytes) : Bytes := if d = [] ∨ d.getLast? = some NL then d else d ++ [NL]

theorem completed_length (d : Bytes) : (completed d).length ≤ d.length + 1 := by
  unfold completed; split <;> simp

theorem completed_ends (d : Bytes) (h : d ≠ []) : completed d ≠ [] ∧ (completed d).getLast? = some NL := by
  unfold completed
  split
  · rename_i h1
    rcases h1 with h1 | h1
    · exact absurd h1 h
    · exact ⟨h, h1⟩
  · simp

/-- Between iterations: the batch is empty or has room for a datagram. -/
structure UInv (l : Listener) : Prop extends Inv l where
  room : l.batch.buf = [] ∨ l.batch.buf.length + 65536 < l.conf.batchMaxSize
  cap : l.conf.batchMaxSize ≤ l.batch.cap
  last : l.batch.buf = [] ∨ l.batch.buf.getLast? = some NL

/-- The part of an iteration before `maybeSendBatch`. -/
theorem udp_read (l : Listener) (e : UDPEvent) (h : UInv l) (hd : e.data.length ≤ 65536) :
    ∃ l1, l.udpStep e = l1.maybeSendBatch e.tCheck e.fail e.tReset ∧ Inv l1 ∧ l1.conf = l.conf ∧
      l1.pubs = l.pubs ∧ l1.batch.buf = l.batch.buf ++ completed e.data ∧
      l.conf.batchMaxSize ≤ l1.batch.cap ∧
      l1.stats = ⟨l.stats.received + (if e.data = [] then 0 else 1), l.stats.sent,
        l.stats.readErrors + (if e.readErr then 1 else 0), l.stats.failedPublish⟩ ∧
      l1.batch.writes = l.batch.writes + (if e.data = [] then 0 else 1) ∧
      l1.batch.created = (if e.data ≠ [] ∧ l.batch.writes = 0 then e.tRead else l.batch.created) := by
  obtain ⟨c, h1, h2, h3, h4, h5⟩ := Batch.readOnceFrom_spec l.batch h.wf e.data e.tRead
  have htake : e.data.take (c - l.batch.buf.length) = e.data := by
    apply List.take_of_length_le
    rcases h.room with hr | hr
    · have := h3 hr; rw [hr]; simp; omega
    · have := h4 (by have := h.cap; omega)
      have := h.cap; omega
  rw [htake] at h5
  have hcap := h.cap
  by_cases he : e.data = []
  · rw [if_pos he] at h5
    refine ⟨⟨l.conf, ⟨l.batch.buf, c, l.batch.writes, l.batch.created⟩,
      ⟨l.stats.received, l.stats.sent, l.stats.readErrors + (if e.readErr then 1 else 0), l.stats.failedPublish⟩,
      l.pubs⟩, ?_, ⟨?_, h.failed, h.sizes⟩, rfl, rfl, ?_, ?_, ?_, by simp [he], by simp [he]⟩
    · unfold udpStep
      rw [h5]
      simp only [Go.ok_bind, Nat.lt_irrefl, if_false, gt_iff_lt]
      cases e.readErr <;> rfl
    · unfold Batch.WF; simp only; omega
    · simp [he, completed]
    · exact Nat.le_trans hcap h1
    · rw [if_pos he]; rfl
  · rw [if_neg he] at h5
    have hpos : 0 < e.data.length := List.length_pos_iff.2 he
    -- the batch after the read
    have hlen : l.batch.buf.length + e.data.length ≤ c := by
      rcases h.room with hr | hr
      · have := h3 hr; rw [hr]; simp; omega
      · have := h4 (by omega); omega
    obtain ⟨c2, g1, g2, g3⟩ := Batch.ensureNewline_spec
      ⟨l.batch.buf ++ e.data, c, l.batch.writes + 1, if l.batch.writes = 0 then e.tRead else l.batch.created⟩
      (by unfold Batch.WF; simp only [List.length_append]; omega)
    have hbuf : (if l.batch.buf ++ e.data = [] ∨ (l.batch.buf ++ e.data).getLast? = some NL
        then l.batch.buf ++ e.data else l.batch.buf ++ e.data ++ [NL]) = l.batch.buf ++ completed e.data := by
      have hl : (l.batch.buf ++ e.data).getLast? = e.data.getLast? := by
        rw [List.getLast?_append]
        cases hx : e.data.getLast? with
        | none => exact absurd (List.getLast?_eq_none_iff.1 hx) he
        | some x => rfl
      unfold completed
      rw [hl]
      by_cases hx : e.data.getLast? = some NL
      · rw [if_pos (Or.inr hx), if_pos (Or.inr hx)]
      · rw [if_neg (by simp [he, hx]), if_neg (by simp [he, hx]), List.append_assoc]
    simp only [hbuf] at g1 g3
    refine ⟨⟨l.conf, ⟨l.batch.buf ++ completed e.data, c2, l.batch.writes + 1,
        if l.batch.writes = 0 then e.tRead else l.batch.created⟩,
      ⟨l.stats.received + 1, l.stats.sent, l.stats.readErrors + (if e.readErr then 1 else 0), l.stats.failedPublish⟩,
      l.pubs⟩, ?_, ⟨g3, h.failed, h.sizes⟩, rfl, rfl, rfl, ?_, ?_, by simp [he], by simp [he]⟩
    · unfold udpStep
      rw [h5]
      simp only [Go.ok_bind, gt_iff_lt, hpos, if_true]
      cases hr : e.readErr
      · simp only [Bool.false_eq_true, if_false]
        rw [g1]
        rfl
      · simp only [if_true]
        rw [g1]
        rfl
    · simp only at g2 ⊢; omega
    · rw [if_neg he]

theorem udp_step (l : Listener) (e : UDPEvent) (h : UInv l) (hd : e.data.length ≤ 65536) :
    ∃ l', l.udpStep e = .ok l' ∧ UInv l' ∧ l'.conf = l.conf ∧
      l'.published ++ l'.batch.buf = l.published ++ l.batch.buf ++ completed e.data ∧
      l'.stats.received = l.stats.received + (if e.data = [] then 0 else 1) ∧
      l'.stats.readErrors = l.stats.readErrors + (if e.readErr then 1 else 0) ∧
      ((l'.pubs = l.pubs ∧ l'.stats.sent = l.stats.sent) ∨
       (l.batch.buf ++ completed e.data ≠ [] ∧ l'.stats.sent = l.stats.sent + 1 ∧
        ((l.batch.buf ++ completed e.data).length ≤ maxNATSMsgSize →
          l'.pubs.map (·.data) = l.pubs.map (·.data) ++ [l.batch.buf ++ completed e.data]))) := by
  obtain ⟨l1, e1, i1, c1, p1, b1, k1, s1, -⟩ := udp_read l e h hd
  have hlast : l1.batch.buf = [] ∨ l1.batch.buf.getLast? = some NL := by
    rw [b1]
    by_cases he : e.data = []
    · simp only [he, completed, true_or, if_true, List.append_nil]; exact h.last
    · right
      rw [List.getLast?_append, (completed_ends _ he).2]; rfl
  have hpub : l1.published = l.published := by unfold published; rw [p1]
  unfold maybeSendBatch at e1
  cases hs : l1.shouldSend e.tCheck with
  | false =>
    rw [hs] at e1
    refine ⟨l1, e1, ⟨i1, ?_, by rw [c1]; exact k1, hlast⟩, c1, ?_, by rw [s1], by rw [s1], Or.inl ⟨p1, by rw [s1]⟩⟩
    · right
      unfold shouldSend maxUDPDatagramSize Batch.size at hs
      have hz : ¬ ((l1.conf.batchMaxSize : Int) - l1.batch.buf.length ≤ (65536 : Nat)) := by
        intro hz
        rw [if_pos hz] at hs
        repeat' split at hs
        all_goals exact absurd hs (by decide)
      omega
    · rw [hpub, b1, List.append_assoc]
  | true =>
    rw [hs] at e1
    obtain ⟨l', h1, h2, h3, h4, h5, h6, h7, h8, h9, h10, h11⟩ := sendBatch_inv l1 e.fail e.tReset i1
    refine ⟨l', e1.trans h1, ⟨h2, Or.inl h4, by rw [h3, h5, c1]; exact k1, Or.inl h4⟩, h3.trans c1, ?_,
      by rw [h8, s1], by rw [h9, s1], ?_⟩
    · rw [h7, h4, hpub, b1, List.append_nil, List.append_assoc]
    · by_cases hb : l1.batch.buf = []
      · left
        rcases sendBatch_spec l1 e.fail e.tReset with ⟨-, hx⟩ | ⟨hx, -⟩
        · rw [hx] at h1
          injection h1 with h1
          exact ⟨by rw [← h1, p1], by rw [← h1, s1]⟩
        · exact absurd hb hx
      · right
        rw [if_neg hb] at h10 h11
        rw [← b1, h10, s1]
        exact ⟨hb, rfl, fun hl => by rw [h11 hl, p1]⟩

/-- A whole history. -/
theorem udp_run (es : List UDPEvent) : ∀ (l : Listener), UInv l → (∀ e ∈ es, e.data.length ≤ 65536) →
    ∃ l', udpRun l es = .ok l' ∧ UInv l' ∧ l'.conf = l.conf ∧
      l'.published ++ l'.batch.buf = l.published ++ l.batch.buf ++ (es.map (completed ·.data)).flatten ∧
      l'.stats.received = l.stats.received + es.countP (·.data ≠ []) ∧
      l'.stats.readErrors = l.stats.readErrors + es.countP (·.readErr) := by
  induction es with
  | nil => intro l h _; exact ⟨l, rfl, h, rfl, by simp, rfl, rfl⟩
  | cons e es ih =>
    intro l h hd
    obtain ⟨l1, a1, a2, a3, a4, a5, a6, -⟩ := udp_step l e h (hd e (by simp))
    obtain ⟨l2, b1, b2, b3, b4, b5, b6⟩ := ih l1 a2 (fun e' h' => hd e' (by simp [h']))
    refine ⟨l2, ?_, b2, b3.trans a3, ?_, ?_, ?_⟩
    · rw [udpRun, a1, Go.ok_bind, b1]
    · rw [b4, a4]; simp [List.append_assoc]
    · rw [b5, a5, List.countP_cons]
      by_cases he : e.data = [] <;> simp [he]
      omega
    · rw [b6, a6, List.countP_cons]
      cases e.readErr <;> simp
      omega

theorem uinv_new (c : LConf) (t0 : Int) : UInv (new c t0) :=
  ⟨inv_new c t0, Or.inl rfl, Nat.le_refl _, Or.inl rfl⟩

/-- **C47.** After any history of reads, with any configuration, the next read is offered at least
65536 bytes of buffer. -/
theorem C47_room_for_datagram (c : LConf) (t0 : Int) (es : List UDPEvent)
    (hd : ∀ e ∈ es, e.data.length ≤ 65536) :
    ∃ l b, udpRun (new c t0) es = .ok l ∧ l.batch.growIfLow = .ok b ∧ 65536 ≤ b.remaining ∧
      b.bytes = l.batch.bytes := by
  obtain ⟨l, h1, h2, -⟩ := udp_run es _ (uinv_new c t0) hd
  obtain ⟨k, g1, g2, g3, g4, g5⟩ := Batch.growIfLow_spec l.batch h2.wf
  refine ⟨l, _, h1, g1, ?_, rfl⟩
  unfold Batch.remaining
  simp only
  rcases h2.room with hr | hr
  · have := g4 hr; rw [hr]; simpa using this
  · have := g5 (by have := h2.cap; omega); have := h2.cap; omega

/-- **C48.** Nothing is lost, duplicated or reordered: everything published, followed by what is
still batched, is the datagrams, each completed with a newline; and the batch always ends with a
complete line. -/
theorem C48_udp_stream (c : LConf) (t0 : Int) (es : List UDPEvent)
    (hd : ∀ e ∈ es, e.data.length ≤ 65536) :
    ∃ l, udpRun (new c t0) es = .ok l ∧
      (l.pubs.map (·.data)).flatten ++ l.batch.bytes = (es.map fun e => completed e.data).flatten ∧
      (l.batch.bytes = [] ∨ l.batch.bytes.getLast? = some NL) := by
  obtain ⟨l, h1, h2, -, h4, -⟩ := udp_run es _ (uinv_new c t0) hd
  exact ⟨l, h1, by simpa [new, published, Batch.new, Batch.bytes] using h4, h2.last⟩

/-- **C49.** With a batch size accepted by the configuration check (at most 1 MiB) and datagrams
no longer than the largest UDP payload, every published message is one whole batch: there are as
many messages as batches sent, each has at most 1 MiB and ends with a newline. -/
theorem C49_udp_message_size (c : LConf) (hc : c.batchMaxSize ≤ 1048576) (t0 : Int) (es : List UDPEvent)
    (hd : ∀ e ∈ es, e.data.length ≤ 65507) :
    ∃ l, udpRun (new c t0) es = .ok l ∧ l.pubs.length = l.stats.sent ∧
      ∀ p ∈ l.pubs, p.data.length ≤ 1048576 ∧ p.data.getLast? = some NL := by
  have key : ∀ (es : List UDPEvent) (l : Listener), UInv l → l.conf.batchMaxSize ≤ 1048576 →
      (∀ e ∈ es, e.data.length ≤ 65507) →
      (l.pubs.length = l.stats.sent ∧ ∀ d ∈ l.pubs.map (·.data), d.length ≤ 1048576 ∧ d.getLast? = some NL) →
      ∃ l', udpRun l es = .ok l' ∧
        (l'.pubs.length = l'.stats.sent ∧ ∀ d ∈ l'.pubs.map (·.data), d.length ≤ 1048576 ∧ d.getLast? = some NL) := by
    intro es
    induction es with
    | nil => intro l _ _ _ h; exact ⟨l, rfl, h⟩
    | cons e es ih =>
      intro l h hb hd hq
      have hde := hd e (by simp)
      obtain ⟨l1, a1, a2, a3, -, -, -, a7⟩ := udp_step l e h (by omega)
      have hlen : (l.batch.buf ++ completed e.data).length ≤ 1048576 := by
        have := completed_length e.data
        rw [List.length_append]
        rcases h.room with hr | hr
        · rw [hr, List.length_nil]; omega
        · omega
      obtain ⟨l2, b1, b2⟩ := ih l1 a2 (by rw [a3]; exact hb) (fun e' h' => hd e' (by simp [h'])) (by
        rcases a7 with ⟨p, s⟩ | ⟨p, s, q⟩
        · rw [p, s]; exact hq
        · have q := q hlen
          have ql := congrArg List.length q
          simp only [List.length_map, List.length_append, List.length_cons, List.length_nil] at ql
          refine ⟨by rw [ql, s, hq.1], ?_⟩
          rw [q]
          intro d hd2
          rcases List.mem_append.1 hd2 with hd2 | hd2
          · exact hq.2 d hd2
          · rw [List.mem_singleton] at hd2
            subst hd2
            refine ⟨hlen, ?_⟩
            by_cases he : e.data = []
            · simp only [he, completed, true_or, if_true, List.append_nil] at p ⊢
              exact h.last.resolve_left p
            · rw [List.getLast?_append, (completed_ends _ he).2]; rfl)
      exact ⟨l2, by rw [udpRun, a1, Go.ok_bind, b1], b2⟩
  obtain ⟨l, h1, h2, h3⟩ := key es _ (uinv_new c t0) hc hd ⟨rfl, by simp [new]⟩
  exact ⟨l, h1, h2, fun p hp => h3 p.data (List.mem_map_of_mem hp)⟩

/-- **C66 (UDP).** The counters are the numbers of datagrams received, of read errors and of failed
publishes. -/
theorem C66_udp_counters (c : LConf) (t0 : Int) (es : List UDPEvent)
    (hd : ∀ e ∈ es, e.data.length ≤ 65536) :
    ∃ l, udpRun (new c t0) es = .ok l ∧
      l.stats.received = es.countP (fun e => e.data ≠ []) ∧
      l.stats.readErrors = es.countP (fun e => e.readErr) ∧
      l.stats.failedPublish = l.pubs.countP (fun p => p.failed) := by
  obtain ⟨l, h1, h2, -, -, h5, h6⟩ := udp_run es _ (uinv_new c t0) hd
  exact ⟨l, h1, by simpa [new] using h5, by simpa [new] using h6, h2.failed⟩

/-- A concrete history: two datagrams, the second without newline, count limit 2. -/
example : udpRun (new ⟨2, 1000, 1048576⟩ 0)
    [⟨b!"a f=1
", false, 1, 2, 3, fun _ => false⟩, ⟨b!"b f=2", false, 4, 5, 6, fun _ => true⟩,
     ⟨[], true, 7, 8, 9, fun _ => false⟩]
    = .ok ⟨⟨2, 1000, 1048576⟩, ⟨[], 1048576, 0, 6⟩, ⟨2, 1, 1, 1⟩, [⟨b!"a f=1
b f=2
", true⟩]⟩ := by
  decide +kernel

/-- **C67.** The receive buffer requested from the kernel is a whole number of pages, at least one,
at least the configured size, and less than one page larger. -/
theorem C67_round_up (pageSize n : Nat) (hp : 0 < pageSize) :
    ∃ k, 1 ≤ k ∧ roundUpToPageSize pageSize n = k * pageSize ∧ n ≤ k * pageSize ∧
      (1 ≤ n → k * pageSize < n + pageSize) := by
  unfold roundUpToPageSize
  by_cases h : n ≤ 0
  · rw [if_pos h]
    exact ⟨1, by omega, by omega, by omega, by omega⟩
  · rw [if_neg h]
    have h1 := Nat.div_add_mod (n + pageSize - 1) pageSize
    have h2 := Nat.mod_lt (n + pageSize - 1) hp
    have h3 : (n + pageSize - 1) / pageSize * pageSize = pageSize * ((n + pageSize - 1) / pageSize) := Nat.mul_comm _ _
    refine ⟨(n + pageSize - 1) / pageSize, ?_, rfl, by omega, by omega⟩
    rw [Nat.le_div_iff_mul_le hp]; omega

example : roundUpToPageSize 4096 4097 = 8192 ∧ roundUpToPageSize 4096 8192 = 8192 ∧ roundUpToPageSize 4096 0 = 4096 := by
  decide

end Spout
