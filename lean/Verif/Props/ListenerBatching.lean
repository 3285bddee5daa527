import Verif.Props.ListenerUDP
import Verif.Props.ListenerHTTP
import Verif.Spec.Batching

/-! # When the listeners send what (C89)

Both listeners follow the specification in `Spec/Batching.lean`; how long UDP data can wait follows. -/

namespace Spout
open Listener Spec

/-- The limits of a configuration. -/
def LConf.limits (c : LConf) : BLimits := ⟨c.batchMaxCount, c.batchMaxAge, c.batchMaxSize⟩

/-- The messages a batch is published as (C01, C02, C03: its chunks). -/
def messagesOf (b : Bytes) : List Bytes :=
  match splitAll b maxNATSMsgSize with
  | .ok cs => cs
  | .panic => []

/-- What an iteration of the UDP loop means. -/
def udpOps (e : UDPEvent) : List BOp :=
  (if e.data = [] then [] else [.write (completed e.data) e.tRead]) ++ [.check e.tCheck]

/-- What a step of the HTTP listener means.  A body without bytes is no write. -/
def httpOps : HTTPEvent → List BOp
  | .body r now => if r.pieces.flatten ++ r.last = [] then [] else [.write (r.pieces.flatten ++ r.last) now]
  | .line d now => [.write d now]
  | .maybeSend t _ _ => [.check t]
  | .readErr => []
  | .oldBatch t _ _ => [.checkAge t]

/-- The listener is where the specification is. -/
structure Tracks (l : Listener) (s : BState) : Prop where
  buf : l.batch.buf = bytesOf s.2
  writes : l.batch.writes = s.2.length
  created : ∀ x, s.2.head? = some x → l.batch.created = x.2
  pubs : l.pubs.map (·.data) = s.1.flatMap messagesOf
  sent : l.stats.sent = s.1.length

theorem bytesOf_snoc (p : List (Bytes × Int)) (x : Bytes × Int) : bytesOf (p ++ [x]) = bytesOf p ++ x.1 := by
  simp [bytesOf]

theorem messagesOf_data (l : Listener) (fail : Nat → Bool) (now : Int) (hne : l.batch.buf ≠ []) :
    ∃ ps : List LPub, l.sendBatch fail now = .ok ⟨l.conf, l.batch.reset now,
        { l.stats with sent := l.stats.sent + 1,
                       failedPublish := l.stats.failedPublish + ps.countP (·.failed) }, l.pubs ++ ps⟩ ∧
      ps.map (·.data) = messagesOf l.batch.buf := by
  obtain ⟨cs, h1, -⟩ := splitAll_spec l.batch.buf maxNATSMsgSize (by decide)
  have hm : (cs.zipIdx.map fun x => (⟨x.1, fail x.2⟩ : LPub)).map (·.data) = cs := by
    rw [List.map_map]
    exact List.zipIdx_map_fst 0 cs
  refine ⟨cs.zipIdx.map fun x => (⟨x.1, fail x.2⟩ : LPub), ?_, ?_⟩
  · have hp := List.length_pos_iff.2 hne
    unfold sendBatch Batch.size Batch.bytes
    rw [if_neg (by omega), h1]
    rfl
  · rw [hm]; unfold messagesOf; rw [h1]

theorem sendIf_false (s : BState) : sendIf false s = s := by
  unfold sendIf; rw [if_neg (by simp)]

theorem tracks_send {l : Listener} {s : BState} (h : Tracks l s) (fail : Nat → Bool) (now : Int) :
    ∃ l', l.sendBatch fail now = .ok l' ∧ Tracks l' (sendIf true s) := by
  by_cases hb : l.batch.buf = []
  · refine ⟨l, ?_, ?_⟩
    · rcases sendBatch_spec l fail now with ⟨-, h1⟩ | ⟨h1, -⟩
      · exact h1
      · exact absurd hb h1
    · unfold sendIf
      rw [if_neg (by rw [← h.buf]; simp [hb])]
      exact h
  · obtain ⟨ps, h1, h2⟩ := messagesOf_data l fail now hb
    refine ⟨_, h1, ?_⟩
    unfold sendIf
    rw [if_pos ⟨by rw [← h.buf]; exact hb, rfl⟩]
    refine ⟨rfl, rfl, by simp, ?_, ?_⟩
    · simp only [List.map_append, List.flatMap_append, h.pubs, h2, h.buf]
      simp
    · simp only [List.length_append, h.sent]; rfl

theorem age_due {l : Listener} {s : BState} (h : Tracks l s) (hb : bytesOf s.2 ≠ []) (A t : Int) :
    decide (l.batch.age t ≥ A) = oldEnough A t s.2 := by
  cases hs : s.2 with
  | nil => rw [hs] at hb; exact absurd rfl hb
  | cons x p =>
    have hw := h.writes
    have hc := h.created x (by rw [hs]; rfl)
    rw [hs, List.length_cons] at hw
    unfold Batch.age oldEnough
    rw [if_neg (by omega), hc]
    apply decide_eq_decide.2
    omega

theorem tracks_maybe {l : Listener} {s : BState} (h : Tracks l s) (t : Int) (fail : Nat → Bool) (now : Int) :
    ∃ l', l.maybeSendBatch t fail now = .ok l' ∧ Tracks l' (bstep l.conf.limits s (.check t)) := by
  unfold maybeSendBatch
  obtain ⟨l', h1, h2⟩ := tracks_send h fail now
  by_cases hb : bytesOf s.2 = []
  · have h3 : sendIf true s = s := by unfold sendIf; rw [if_neg (by simp [hb])]
    have h4 : bstep l.conf.limits s (.check t) = s := by
      show sendIf _ s = s
      unfold sendIf; rw [if_neg (by simp [hb])]
    rw [h4]
    cases l.shouldSend t with
    | true => exact ⟨l', h1, h3 ▸ h2⟩
    | false => exact ⟨l, rfl, h⟩
  · have hd : l.shouldSend t = (full l.conf.limits s.2 || oldEnough l.conf.limits.age t s.2) := by
      rw [← age_due h hb]
      unfold shouldSend full maxUDPDatagramSize Batch.size LConf.limits
      rw [h.writes, h.buf]
      by_cases c1 : l.conf.batchMaxCount ≤ (s.2.length : Int)
      · simp [c1]
      · by_cases c2 : l.batch.age t ≥ l.conf.batchMaxAge
        · simp [c1, c2]
        · by_cases c3 : l.conf.batchMaxSize ≤ (bytesOf s.2).length + 65536
          · have : (l.conf.batchMaxSize : Int) - (bytesOf s.2).length ≤ 65536 := by omega
            simp [c1, c2, c3, this]
          · have : ¬ (l.conf.batchMaxSize : Int) - (bytesOf s.2).length ≤ 65536 := by omega
            simp [c1, c2, c3, this]
    show ∃ l', _ ∧ Tracks l' (sendIf _ s)
    rw [hd]
    cases hq : (full l.conf.limits s.2 || oldEnough l.conf.limits.age t s.2) with
    | true => exact ⟨l', h1, h2⟩
    | false => exact ⟨l, rfl, by rw [sendIf_false]; exact h⟩

theorem tracks_old {l : Listener} {s : BState} (h : Tracks l s) (t : Int) (fail : Nat → Bool) (now : Int) :
    ∃ l', l.httpStep (.oldBatch t fail now) = .ok l' ∧ Tracks l' (bstep l.conf.limits s (.checkAge t)) := by
  show ∃ l', (if l.batch.age t ≥ l.conf.batchMaxAge then l.sendBatch fail now else .ok l) = .ok l' ∧ _
  obtain ⟨l', h1, h2⟩ := tracks_send h fail now
  by_cases hb : bytesOf s.2 = []
  · have h3 : sendIf true s = s := by unfold sendIf; rw [if_neg (by simp [hb])]
    have h4 : bstep l.conf.limits s (.checkAge t) = s := by
      show sendIf _ s = s
      unfold sendIf; rw [if_neg (by simp [hb])]
    rw [h4]
    split
    · exact ⟨l', h1, h3 ▸ h2⟩
    · exact ⟨l, rfl, h⟩
  · have hd := age_due h hb l.conf.batchMaxAge t
    show ∃ l', _ ∧ Tracks l' (sendIf (oldEnough l.conf.batchMaxAge t s.2) s)
    rw [← hd]
    by_cases hq : l.batch.age t ≥ l.conf.batchMaxAge
    · rw [if_pos hq, decide_eq_true hq]; exact ⟨l', h1, h2⟩
    · rw [if_neg hq, decide_eq_false hq]; exact ⟨l, rfl, by rw [sendIf_false]; exact h⟩

theorem tracks_write {l l' : Listener} {s : BState} (h : Tracks l s) (d : Bytes) (t : Int)
    (hb : l'.batch.buf = l.batch.buf ++ d) (hw : l'.batch.writes = l.batch.writes + 1)
    (hc : l'.batch.created = if l.batch.writes = 0 then t else l.batch.created)
    (hp : l'.pubs = l.pubs) (hs : l'.stats.sent = l.stats.sent) :
    Tracks l' (s.1, s.2 ++ [(d, t)]) := by
  refine ⟨by rw [hb, h.buf, bytesOf_snoc], by rw [hw, h.writes]; simp, ?_, by rw [hp]; exact h.pubs, by rw [hs]; exact h.sent⟩
  intro x hx
  cases hs2 : s.2 with
  | nil =>
    rw [hs2] at hx
    simp only [List.nil_append, List.head?_cons, Option.some.injEq] at hx
    rw [hc, if_pos (by rw [h.writes, hs2]; rfl), ← hx]
  | cons y p =>
    rw [hs2] at hx
    simp only [List.cons_append, List.head?_cons, Option.some.injEq] at hx
    rw [hc, if_neg (by rw [h.writes, hs2]; simp), ← hx]
    exact h.created y (by rw [hs2]; rfl)

theorem tracks_new (c : LConf) (t0 : Int) : Tracks (new c t0) ([], []) :=
  ⟨rfl, rfl, by simp, rfl, rfl⟩

theorem http_tracks {l : Listener} {s : BState} (I : Inv l) (h : Tracks l s) (e : HTTPEvent) :
    ∃ l', l.httpStep e = .ok l' ∧ Tracks l' (brun l.conf.limits s (httpOps e)) := by
  cases e with
  | body r now =>
    obtain ⟨c, h1, h2, h3⟩ := Batch.readLoop_spec now r.steps l.batch r 0 I.wf (Nat.le_refl _)
    rw [show l.httpStep (.body r now) = (Batch.readLoop now r.steps l.batch r 0 >>= fun x =>
      .ok { l with batch := x.1 }) from rfl, h3]
    by_cases he : r.pieces.flatten ++ r.last = []
    · rw [if_pos (by rw [he]; rfl)]
      refine ⟨_, rfl, ?_⟩
      rw [show httpOps (.body r now) = [] from if_pos he]
      exact ⟨h.buf, h.writes, h.created, h.pubs, h.sent⟩
    · have hl := List.length_pos_iff.2 he
      rw [if_neg (by omega)]
      refine ⟨_, rfl, ?_⟩
      rw [show httpOps (.body r now) = [.write (r.pieces.flatten ++ r.last) now] from if_neg he]
      exact tracks_write h _ now rfl rfl rfl rfl rfl
  | line d now =>
    obtain ⟨c, h1, -⟩ := Batch.append_spec l.batch I.wf d now
    rw [show l.httpStep (.line d now) = (l.batch.append d now >>= fun b => .ok { l with batch := b }) from rfl, h1]
    exact ⟨_, rfl, tracks_write h d now rfl rfl rfl rfl rfl⟩
  | maybeSend t fail t2 =>
    have h' : Tracks { l with stats := { l.stats with received := l.stats.received + 1 } } s :=
      ⟨h.buf, h.writes, h.created, h.pubs, h.sent⟩
    exact tracks_maybe h' t fail t2
  | readErr => exact ⟨_, rfl, h.buf, h.writes, h.created, h.pubs, h.sent⟩
  | oldBatch t fail t2 => exact tracks_old h t fail t2

theorem brun_append (c : BLimits) (s : BState) (a b : List BOp) : brun c s (a ++ b) = brun c (brun c s a) b := by
  simp [brun]

/-- **C89 (HTTP).** The HTTP listener sends exactly the batches of the specification: everything collected, as soon as
a check finds one of the limits reached, and not before; each batch is published as its chunks, and `sent` counts the
batches. -/
theorem C89_http_batches (c : LConf) (t0 : Int) (es : List HTTPEvent) :
    ∃ l, httpRun (new c t0) es = .ok l ∧
      l.pubs.map (·.data) = (brun c.limits ([], []) (es.flatMap httpOps)).1.flatMap messagesOf ∧
      l.stats.sent = (brun c.limits ([], []) (es.flatMap httpOps)).1.length ∧
      l.batch.bytes = bytesOf (brun c.limits ([], []) (es.flatMap httpOps)).2 := by
  have key : ∀ (es : List HTTPEvent) (l : Listener) (s : BState), Inv l → l.conf = c → Tracks l s →
      ∃ l', httpRun l es = .ok l' ∧ Tracks l' (brun c.limits s (es.flatMap httpOps)) := by
    intro es
    induction es with
    | nil => intro l s _ _ h; exact ⟨l, rfl, h⟩
    | cons e es ih =>
      intro l s I hc h
      obtain ⟨l1, h1, h2⟩ := http_tracks I h e
      obtain ⟨l1', g1, g2, g3, -⟩ := http_step l e I
      rw [h1] at g1
      injection g1 with g1
      subst g1
      rw [hc] at h2
      obtain ⟨l2, k1, k2⟩ := ih l1 _ g2 (g3.trans hc) h2
      refine ⟨l2, by rw [httpRun, h1, Go.ok_bind, k1], ?_⟩
      rw [List.flatMap_cons, brun_append]
      exact k2
  obtain ⟨l, h1, h2⟩ := key es _ _ (inv_new c t0) rfl (tracks_new c t0)
  exact ⟨l, h1, h2.pubs, h2.sent, h2.buf⟩

theorem udp_tracks {l : Listener} {s : BState} (I : UInv l) (h : Tracks l s) (e : UDPEvent)
    (hd : e.data.length ≤ 65536) :
    ∃ l', l.udpStep e = .ok l' ∧ Tracks l' (brun l.conf.limits s (udpOps e)) := by
  obtain ⟨l1, e1, -, c1, p1, b1, -, s1, w1, t1⟩ := udp_read l e I hd
  rw [e1]
  have hs1 : l1.stats.sent = l.stats.sent := by rw [s1]
  unfold udpOps
  rw [brun_append, ← c1]
  by_cases he : e.data = []
  · rw [if_pos he]
    have h1 : Tracks l1 s := by
      refine ⟨?_, ?_, ?_, by rw [p1]; exact h.pubs, by rw [hs1]; exact h.sent⟩
      · rw [b1, he]; simpa [completed] using h.buf
      · rw [w1, if_pos he]; exact h.writes
      · intro x hx
        rw [t1, if_neg (by simp [he])]
        exact h.created x hx
    exact tracks_maybe h1 e.tCheck e.fail e.tReset
  · rw [if_neg he]
    have h1 : Tracks l1 (s.1, s.2 ++ [(completed e.data, e.tRead)]) := by
      refine tracks_write h _ _ b1 (by rw [w1, if_neg he]) ?_ p1 hs1
      rw [t1]
      by_cases hw : l.batch.writes = 0 <;> simp [he, hw]
    exact tracks_maybe h1 e.tCheck e.fail e.tReset

theorem udp_run_tracks (c : LConf) (t0 : Int) (es : List UDPEvent) (hd : ∀ e ∈ es, e.data.length ≤ 65536) :
    ∃ l, udpRun (new c t0) es = .ok l ∧ Tracks l (brun c.limits ([], []) (es.flatMap udpOps)) := by
  have key : ∀ (es : List UDPEvent) (l : Listener) (s : BState), (∀ e ∈ es, e.data.length ≤ 65536) → UInv l →
      l.conf = c → Tracks l s →
      ∃ l', udpRun l es = .ok l' ∧ Tracks l' (brun c.limits s (es.flatMap udpOps)) := by
    intro es
    induction es with
    | nil => intro l s _ _ _ h; exact ⟨l, rfl, h⟩
    | cons e es ih =>
      intro l s hd I hc h
      obtain ⟨l1, h1, h2⟩ := udp_tracks I h e (hd e List.mem_cons_self)
      obtain ⟨l1', g1, g2, g3, -⟩ := udp_step l e I (hd e List.mem_cons_self)
      rw [h1] at g1
      injection g1 with g1
      subst g1
      rw [hc] at h2
      obtain ⟨l2, k1, k2⟩ := ih l1 _ (fun x hx => hd x (List.mem_cons_of_mem _ hx)) g2 (g3.trans hc) h2
      refine ⟨l2, by rw [udpRun, h1, Go.ok_bind, k1], ?_⟩
      rw [List.flatMap_cons, brun_append]
      exact k2
  exact key es _ _ hd (uinv_new c t0) rfl (tracks_new c t0)

/-- **C89 (UDP).** The UDP listener sends exactly the batches of the specification. -/
theorem C89_udp_batches (c : LConf) (t0 : Int) (es : List UDPEvent) (hd : ∀ e ∈ es, e.data.length ≤ 65536) :
    ∃ l, udpRun (new c t0) es = .ok l ∧
      l.pubs.map (·.data) = (brun c.limits ([], []) (es.flatMap udpOps)).1.flatMap messagesOf ∧
      l.stats.sent = (brun c.limits ([], []) (es.flatMap udpOps)).1.length ∧
      l.batch.bytes = bytesOf (brun c.limits ([], []) (es.flatMap udpOps)).2 := by
  obtain ⟨l, h1, h2⟩ := udp_run_tracks c t0 es hd
  exact ⟨l, h1, h2.pubs, h2.sent, h2.buf⟩

/-! ## How long UDP data waits -/

/-- The data written by some operations. -/
def written (ops : List BOp) : List (Bytes × Int) :=
  ops.filterMap fun o => match o with | .write d t => some (d, t) | _ => none

theorem sendIf_conserves (due : Bool) (s : BState) :
    (sendIf due s).1.flatten ++ bytesOf (sendIf due s).2 = s.1.flatten ++ bytesOf s.2 := by
  unfold sendIf
  split
  · simp [bytesOf]
  · rfl

theorem bstep_conserves (c : BLimits) (s : BState) (o : BOp) :
    (bstep c s o).1.flatten ++ bytesOf (bstep c s o).2 = s.1.flatten ++ bytesOf s.2 ++ bytesOf (written [o]) := by
  cases o with
  | write d t => simp [bstep, written, bytesOf]
  | check t => rw [show bstep c s (.check t) = sendIf _ s from rfl, sendIf_conserves]; simp [written, bytesOf]
  | checkAge t => rw [show bstep c s (.checkAge t) = sendIf _ s from rfl, sendIf_conserves]; simp [written, bytesOf]

theorem written_append (a b : List BOp) : written (a ++ b) = written a ++ written b := by
  simp [written]

theorem brun_conserves (c : BLimits) (ops : List BOp) : ∀ (s : BState),
    (brun c s ops).1.flatten ++ bytesOf (brun c s ops).2 = s.1.flatten ++ bytesOf s.2 ++ bytesOf (written ops) := by
  induction ops with
  | nil => intro s; simp [brun, written, bytesOf]
  | cons o ops ih =>
    intro s
    rw [show brun c s (o :: ops) = brun c (bstep c s o) ops from rfl, ih, bstep_conserves,
      show o :: ops = [o] ++ ops from rfl, written_append]
    simp [bytesOf, List.append_assoc]

/-- Everything in `a` has been sent, or the oldest data collected is not younger than `t`. -/
def Waiting (a : Bytes) (t : Int) (s : BState) : Prop :=
  a <+: s.1.flatten ∨ ∃ x p, s.2 = x :: p ∧ x.2 ≤ t ∧ bytesOf s.2 ≠ []

theorem waiting_send {a : Bytes} {t : Int} {due : Bool} {s : BState} (h : Waiting a t s)
    (hp : a <+: s.1.flatten ++ bytesOf s.2) : Waiting a t (sendIf due s) := by
  unfold sendIf
  split
  · left
    rw [List.flatten_append]
    simpa using hp
  · exact h

theorem waiting_step {a : Bytes} {t : Int} (c : BLimits) (o : BOp) {s : BState} (h : Waiting a t s)
    (hp : a <+: s.1.flatten ++ bytesOf s.2) : Waiting a t (bstep c s o) := by
  cases o with
  | write d u =>
    rcases h with h | ⟨x, p, h1, h2, h3⟩
    · exact Or.inl h
    · refine Or.inr ⟨x, p ++ [(d, u)], ?_, h2, ?_⟩
      · show s.2 ++ [(d, u)] = _
        rw [h1]; rfl
      · show bytesOf (s.2 ++ [(d, u)]) ≠ []
        rw [bytesOf_snoc]
        intro hx
        exact h3 (List.append_eq_nil_iff.1 hx).1
  | check u => exact waiting_send h hp
  | checkAge u => exact waiting_send h hp

theorem waiting_run {a : Bytes} {t : Int} (c : BLimits) (ops : List BOp) : ∀ {s : BState}, Waiting a t s →
    a <+: s.1.flatten ++ bytesOf s.2 → Waiting a t (brun c s ops) := by
  induction ops with
  | nil => intro s h _; exact h
  | cons o ops ih =>
    intro s h hp
    refine ih (waiting_step c o h hp) ?_
    rw [bstep_conserves]
    exact hp.trans (List.prefix_append _ _)

/-- The specification sends data of the right age: once a check happens at or after `t + age`, everything written up to
a non-empty write at time `t` has been sent. -/
theorem spec_age (c : BLimits) (before after : List BOp) (d : Bytes) (t T : Int) (hd : d ≠ [])
    (hm : ∀ x ∈ written before, x.2 ≤ t) (hT : t + c.age ≤ T) :
    bytesOf (written before) ++ d <+:
      (brun c ([], []) (before ++ .write d t :: after ++ [.check T])).1.flatten := by
  have c0 := brun_conserves c before ([], [])
  -- the data collected is part of what was written
  have mem : ∀ (ops : List BOp) (s : BState) (Q : Bytes × Int → Prop), (∀ x ∈ s.2, Q x) → (∀ x ∈ written ops, Q x) →
      ∀ x ∈ (brun c s ops).2, Q x := by
    intro ops
    induction ops with
    | nil => intro s Q h1 _; exact h1
    | cons o ops ih =>
      intro s Q h1 h2
      have h2' : ∀ x ∈ written ops, Q x := by
        intro x hx
        apply h2
        rw [show o :: ops = [o] ++ ops from rfl, written_append]
        exact List.mem_append_right _ hx
      have send : ∀ due, ∀ x ∈ (sendIf due s).2, Q x := by
        intro due x hx
        unfold sendIf at hx
        split at hx
        · cases hx
        · exact h1 x hx
      refine ih _ Q ?_ h2'
      cases o with
      | write d' t' =>
        intro x hx
        rcases List.mem_append.1 hx with hx | hx
        · exact h1 x hx
        · apply h2
          rw [show BOp.write d' t' :: ops = [BOp.write d' t'] ++ ops from rfl, written_append]
          exact List.mem_append_left _ (by simpa [written] using hx)
      | check u => exact send _
      | checkAge u => exact send _
  have hb := mem before ([], []) (fun x => x.2 ≤ t) (by simp) hm
  generalize hs0 : brun c ([], []) before = s0 at c0 hb
  -- after the write
  have w1 : Waiting (bytesOf (written before) ++ d) t (bstep c s0 (.write d t)) := by
    right
    have hne : bytesOf (s0.2 ++ [(d, t)]) ≠ [] := by
      rw [bytesOf_snoc]; intro hx; exact hd (List.append_eq_nil_iff.1 hx).2
    cases hs : s0.2 with
    | nil => exact ⟨(d, t), [], by show s0.2 ++ _ = _; rw [hs]; rfl, Int.le_refl _, hne⟩
    | cons y p => exact ⟨y, p ++ [(d, t)], by show s0.2 ++ _ = _; rw [hs]; rfl, hb y (by rw [hs]; simp), hne⟩
  have p1 : bytesOf (written before) ++ d <+:
      (bstep c s0 (.write d t)).1.flatten ++ bytesOf (bstep c s0 (.write d t)).2 := by
    rw [bstep_conserves, c0]
    simp [written, bytesOf]
  have w2 := waiting_run c after w1 p1
  have p2 : bytesOf (written before) ++ d <+:
      (brun c (bstep c s0 (.write d t)) after).1.flatten ++ bytesOf (brun c (bstep c s0 (.write d t)) after).2 := by
    rw [brun_conserves]
    exact p1.trans (List.prefix_append _ _)
  have e : brun c ([], []) (before ++ .write d t :: after ++ [.check T]) =
      bstep c (brun c (bstep c s0 (.write d t)) after) (.check T) := by
    rw [brun_append, brun_append, hs0]; rfl
  rw [e]
  generalize brun c (bstep c s0 (.write d t)) after = s at w2 p2
  show _ <+: (sendIf _ s).1.flatten
  rcases w2 with w2 | ⟨x, p, h1, h2, h3⟩
  · unfold sendIf
    split
    · rw [List.flatten_append]; exact w2.trans (List.prefix_append _ _)
    · exact w2
  · have hold : oldEnough c.age T s.2 = true := by
      rw [h1]; unfold oldEnough; apply decide_eq_true; omega
    unfold sendIf
    rw [if_pos ⟨h3, by rw [hold]; simp⟩, List.flatten_append]
    simpa using p2

theorem messagesOf_flatten (b : Bytes) : (messagesOf b).flatten = b := by
  obtain ⟨cs, h1, h2, -⟩ := splitAll_spec b maxNATSMsgSize (by decide)
  unfold messagesOf
  rw [h1]; exact h2

theorem flatMap_messagesOf (bs : List Bytes) : (bs.flatMap messagesOf).flatten = bs.flatten := by
  induction bs with
  | nil => rfl
  | cons b bs ih => rw [List.flatMap_cons, List.flatten_append, messagesOf_flatten, ih, List.flatten_cons]

theorem written_udp (es : List UDPEvent) :
    bytesOf (written (es.flatMap udpOps)) = (es.map fun e => completed e.data).flatten := by
  induction es with
  | nil => rfl
  | cons e es ih =>
    rw [List.flatMap_cons, written_append, List.map_cons, List.flatten_cons, ← ih]
    by_cases he : e.data = []
    · simp [udpOps, written, bytesOf, he, completed]
    · simp [udpOps, written, bytesOf, he]

theorem written_udp_mem (es : List UDPEvent) (x : Bytes × Int) (h : x ∈ written (es.flatMap udpOps)) :
    ∃ e ∈ es, x.2 = e.tRead := by
  induction es with
  | nil => cases h
  | cons e es ih =>
    rw [List.flatMap_cons, written_append] at h
    rcases List.mem_append.1 h with h | h
    · refine ⟨e, List.mem_cons_self, ?_⟩
      unfold udpOps at h
      split at h
      · simp [written] at h
      · simp [written] at h; rw [h]
    · obtain ⟨e', h1, h2⟩ := ih h
      exact ⟨e', List.mem_cons_of_mem _ h1, h2⟩

/-- **C89 (age, UDP).** Once the loop has looked at the clock at or after `t + batch_max_age`, a datagram read at time
`t` and everything received before it has been published. -/
theorem C89_udp_age (c : LConf) (t0 : Int) (before after : List UDPEvent) (e f : UDPEvent)
    (hd : ∀ x ∈ before ++ e :: after, x.data.length ≤ 65536) (hne : e.data ≠ [])
    (hm : ∀ b ∈ before, b.tRead ≤ e.tRead)
    (hf : (e :: after).getLast? = some f) (hT : e.tRead + c.batchMaxAge ≤ f.tCheck) :
    ∃ l, udpRun (new c t0) (before ++ e :: after) = .ok l ∧
      ((before ++ [e]).map fun x => completed x.data).flatten <+: (l.pubs.map (·.data)).flatten := by
  obtain ⟨l, h1, h2⟩ := udp_run_tracks c t0 _ hd
  refine ⟨l, h1, ?_⟩
  rw [h2.pubs, flatMap_messagesOf]
  have hw : completed e.data ≠ [] := (completed_ends _ hne).1
  have hops : ∃ mid, (e :: after).flatMap udpOps =
      .write (completed e.data) e.tRead :: mid ++ [.check f.tCheck] := by
    cases after with
    | nil =>
      simp only [List.getLast?_singleton, Option.some.injEq] at hf
      subst hf
      exact ⟨[], by simp [udpOps, hne]⟩
    | cons a as =>
      rw [List.getLast?_cons_cons] at hf
      obtain ⟨ys, hy⟩ := List.getLast?_eq_some_iff.1 hf
      rw [hy]
      refine ⟨.check e.tCheck :: (ys.flatMap udpOps ++ (if f.data = [] then [] else [.write (completed f.data) f.tRead])), ?_⟩
      rw [List.flatMap_cons, List.flatMap_append]
      simp [udpOps, hne, List.append_assoc]
  obtain ⟨mid, hmid⟩ := hops
  rw [List.flatMap_append, hmid]
  have := spec_age c.limits (before.flatMap udpOps) mid (completed e.data) e.tRead f.tCheck hw
    (by
      intro x hx
      obtain ⟨b, hb, hx2⟩ := written_udp_mem before x hx
      rw [hx2]; exact hm b hb) hT
  rw [written_udp] at this
  rw [List.map_append, List.flatten_append]
  simpa [List.append_assoc] using this

/-- **C89 (delay, UDP).** If the loop looks at the clock at least every `G` (the read deadline of one second and the
time an iteration takes), a datagram read at time `t` is published by an iteration that looked at the clock before
`t + batch_max_age + G` - or the clock has not yet been seen at `t + batch_max_age`. -/
theorem C89_udp_delay (G : Int) (c : LConf) (hA : 0 ≤ c.batchMaxAge) (t0 : Int) (before after : List UDPEvent) (e : UDPEvent)
    (hd : ∀ x ∈ before ++ e :: after, x.data.length ≤ 65536) (hne : e.data ≠ [])
    (hm : ∀ b ∈ before, b.tRead ≤ e.tRead)
    (hG0 : e.tCheck ≤ e.tRead + G)
    (hG : ∀ (a b : List UDPEvent) (x y : UDPEvent), e :: after = a ++ x :: y :: b → y.tCheck ≤ x.tCheck + G) :
    (∀ x ∈ e :: after, x.tCheck < e.tRead + c.batchMaxAge) ∨
    ∃ (now later : List UDPEvent) (f : UDPEvent) (l : Listener), e :: after = now ++ later ∧ now.getLast? = some f ∧
      f.tCheck ≤ e.tRead + c.batchMaxAge + G ∧ udpRun (new c t0) (before ++ now) = .ok l ∧
      ((before ++ [e]).map fun x => completed x.data).flatten <+: (l.pubs.map (·.data)).flatten := by
  -- the first iteration whose check is late enough
  have first : ∀ (xs : List UDPEvent), (∀ x ∈ xs, x.tCheck < e.tRead + c.batchMaxAge) ∨
      ∃ (a b : List UDPEvent) (f : UDPEvent), xs = a ++ f :: b ∧ e.tRead + c.batchMaxAge ≤ f.tCheck ∧
        ∀ x ∈ a, x.tCheck < e.tRead + c.batchMaxAge := by
    intro xs
    induction xs with
    | nil => left; simp
    | cons x xs ih =>
      by_cases hx : x.tCheck < e.tRead + c.batchMaxAge
      · rcases ih with ih | ⟨a, b, f, h1, h2, h3⟩
        · left
          intro y hy
          rcases List.mem_cons.1 hy with rfl | hy
          · exact hx
          · exact ih y hy
        · right
          refine ⟨x :: a, b, f, by rw [h1]; rfl, h2, ?_⟩
          intro y hy
          rcases List.mem_cons.1 hy with rfl | hy
          · exact hx
          · exact h3 y hy
      · right
        exact ⟨[], xs, x, rfl, by omega, by simp⟩
  rcases first (e :: after) with h | ⟨a, b, f, h1, h2, h3⟩
  · exact Or.inl h
  · right
    have hlast : (a ++ [f]).getLast? = some f := by simp
    have hbound : f.tCheck ≤ e.tRead + c.batchMaxAge + G := by
      rcases List.eq_nil_or_concat a with rfl | ⟨a', x, rfl⟩
      · simp only [List.nil_append, List.cons.injEq] at h1
        rw [← h1.1]; omega
      · have hg := hG a' b x f (by rw [h1]; simp)
        have := h3 x (by simp)
        omega
    have hpre : ∃ as : List UDPEvent, a ++ [f] = e :: as := by
      cases a with
      | nil =>
        simp only [List.nil_append, List.cons.injEq] at h1
        exact ⟨[], by rw [h1.1]; rfl⟩
      | cons y ys =>
        simp only [List.cons_append, List.cons.injEq] at h1
        exact ⟨ys ++ [f], by rw [← h1.1]; rfl⟩
    obtain ⟨as, has⟩ := hpre
    have hd' : ∀ x ∈ before ++ e :: as, x.data.length ≤ 65536 := by
      intro x hx
      apply hd
      rcases List.mem_append.1 hx with hx | hx
      · exact List.mem_append_left _ hx
      · apply List.mem_append_right
        rw [h1, show a ++ f :: b = (a ++ [f]) ++ b by simp, has]
        exact List.mem_append_left _ hx
    obtain ⟨l, g1, g2⟩ := C89_udp_age c t0 before as e f hd' hne hm (by rw [← has]; exact hlast) h2
    exact ⟨a ++ [f], b, f, l, by rw [h1]; simp, hlast, hbound, by rw [has]; exact g1, g2⟩

/-- Two datagrams; the batch is not full; the timeout one second after the second read finds the first one 2 s old. -/
example : ∃ l, udpRun (new ⟨10, 2000000000, 1048576⟩ 0)
    [⟨b!"a f=1", false, 0, 1, 1, fun _ => false⟩, ⟨b!"b f=2\n", false, 1000000000, 1000000001, 1, fun _ => false⟩,
     ⟨[], false, 2000000001, 2000000002, 1, fun _ => false⟩] = .ok l ∧
    l.pubs.map (·.data) = [b!"a f=1\nb f=2\n"] :=
  ⟨⟨⟨10, 2000000000, 1048576⟩, ⟨[], 1048576, 0, 1⟩, ⟨2, 1, 0, 0⟩, [⟨b!"a f=1\nb f=2\n", false⟩]⟩,
    by decide +kernel, rfl⟩

end Spout
