import Verif.Props.Batch
import Verif.Props.ListenerUDP
import Verif.Props.ListenerHTTP
import Verif.Props.WriterStream

set_option linter.unusedSimpArgs false

/-! # The memory kept by batches (C92) -/

namespace Spout
open Spec Listener

/-! ## One operation -/

/-- What an operation other than `Reset` may do to the memory of a batch. -/
structure GrowsTo (b b' : Batch) : Prop where
  size : b.size ≤ b'.size
  keeps : b.cap ≤ b'.cap
  most : b'.cap ≤ max b.cap (2 * (b'.size + 65536))

theorem GrowsTo.refl (b : Batch) : GrowsTo b b := ⟨Nat.le_refl _, Nat.le_refl _, by omega⟩

theorem GrowsTo.trans {a b c : Batch} (h : GrowsTo a b) (k : GrowsTo b c) : GrowsTo a c :=
  ⟨Nat.le_trans h.size k.size, Nat.le_trans h.keeps k.keeps, by have := h.most; have := k.most; have := k.size; omega⟩

theorem grow_cap {b b' : Batch} (h : b.grow = .ok b') (n : Nat) (hn : b.cap ≤ n) :
    b'.buf = b.buf ∧ b'.writes = b.writes ∧ b'.created = b.created ∧ b.cap ≤ b'.cap ∧ b'.cap ≤ max 98304 (2 * n) := by
  unfold Batch.grow maxReadSize at h
  generalize hk : (if b.cap * 2 < 65536 then b.cap + 65536 else b.cap * 2) = k at h
  have hk1 : b.cap ≤ k ∧ k ≤ max 98304 (2 * n) := by rw [← hk]; split <;> omega
  simp only at h
  split at h
  · injection h with h
    subst h
    exact ⟨rfl, rfl, rfl, hk1.1, hk1.2⟩
  · cases h

theorem growIfLow_grows {b b' : Batch} (h : b.growIfLow = .ok b') : GrowsTo b b' ∧ b'.buf = b.buf := by
  unfold Batch.growIfLow Batch.remaining maxReadSize at h
  split at h
  · rename_i hr
    obtain ⟨h1, -, -, h2, h3⟩ := grow_cap h (b.buf.length + 65536) (by omega)
    refine ⟨⟨by unfold Batch.size; rw [h1]; exact Nat.le_refl _, h2, ?_⟩, h1⟩
    unfold Batch.size; rw [h1]; omega
  · injection h with h
    subst h
    exact ⟨.refl b, rfl⟩

theorem growFor_grows (more fuel : Nat) : ∀ {b b' : Batch}, b.growFor more fuel = .ok b' →
    b'.buf = b.buf ∧ b.cap ≤ b'.cap ∧ b'.cap ≤ max b.cap (2 * (b.buf.length + more + 65536)) := by
  induction fuel with
  | zero => intro b b' h; cases h
  | succ f ih =>
    intro b b' h
    unfold Batch.growFor at h
    split at h
    · rename_i hr
      unfold Batch.remaining at hr
      cases hg : b.grow with
      | panic => rw [hg] at h; cases h
      | ok b1 =>
        rw [hg, Go.ok_bind] at h
        obtain ⟨h1, -, -, h2, h3⟩ := grow_cap hg (b.buf.length + more) (by omega)
        obtain ⟨k1, k2, k3⟩ := ih h
        rw [h1] at k1 k3
        exact ⟨k1, by omega, by omega⟩
    · injection h with h
      subst h
      exact ⟨rfl, Nat.le_refl _, by omega⟩

theorem appendImpl_grows {b b' : Batch} {more : Bytes} (h : b.appendImpl more = .ok b') :
    GrowsTo b b' ∧ b'.buf = b.buf ++ more := by
  unfold Batch.appendImpl at h
  cases hg : b.growFor more.length (more.length + 1) with
  | panic => rw [hg] at h; cases h
  | ok b1 =>
    rw [hg, Go.ok_bind] at h
    obtain ⟨h1, h2, h3⟩ := growFor_grows _ _ hg
    split at h
    · simp only [Go.pure_eq, Go.ok.injEq] at h
      subst h
      refine ⟨⟨?_, h2, ?_⟩, by simp only [h1]⟩
      · unfold Batch.size; simp only [h1, List.length_append]; omega
      · unfold Batch.size; simp only [h1, List.length_append]; omega
    · cases h

theorem append_grows {b b' : Batch} {more : Bytes} {now : Int} (h : b.append more now = .ok b') :
    GrowsTo b b' ∧ b'.buf = b.buf ++ more := by
  obtain ⟨⟨h1, h2, h3⟩, h4⟩ := appendImpl_grows (b := b.countWrite now) h
  exact ⟨⟨h1, h2, h3⟩, h4⟩

theorem ensureNewline_grows {b b' : Batch} (h : b.ensureNewline = .ok b') : GrowsTo b b' := by
  unfold Batch.ensureNewline at h
  split at h
  · injection h with h; subst h; exact .refl b
  · split at h
    · exact (appendImpl_grows h).1
    · injection h with h; subst h; exact .refl b

theorem readOnceFrom_grows {b b' : Batch} {data : Bytes} {now : Int} {n : Nat}
    (h : b.readOnceFrom data now = .ok (b', n)) : GrowsTo b b' := by
  unfold Batch.readOnceFrom at h
  cases hg : b.growIfLow with
  | panic => rw [hg] at h; cases h
  | ok b1 =>
    rw [hg, Go.ok_bind] at h
    obtain ⟨g1, g2⟩ := growIfLow_grows hg
    simp only at h
    split at h
    · simp only [Go.pure_eq, Go.ok.injEq, Prod.mk.injEq] at h
      obtain ⟨h, -⟩ := h
      subst h
      refine g1.trans ⟨?_, Nat.le_refl _, ?_⟩
      · unfold Batch.size Batch.countWrite; simp
      · simp only [Batch.countWrite]; omega
    · simp only [Go.pure_eq, Go.ok.injEq, Prod.mk.injEq] at h
      obtain ⟨h, -⟩ := h
      subst h
      exact g1

theorem readLoop_grows (now : Int) (fuel : Nat) : ∀ {b b' : Batch} {r : Batch.Reader} {total n : Nat},
    Batch.readLoop now fuel b r total = .ok (b', n) → GrowsTo b b' := by
  induction fuel with
  | zero => intro b b' r total n h; cases h
  | succ f ih =>
    intro b b' r total n h
    unfold Batch.readLoop at h
    cases hg : b.growIfLow with
    | panic => rw [hg] at h; cases h
    | ok b1 =>
      rw [hg, Go.ok_bind] at h
      obtain ⟨g1, g2⟩ := growIfLow_grows hg
      have g3 : ∀ data : Bytes, GrowsTo b ⟨b1.buf ++ data, b1.cap, b1.writes, b1.created⟩ := by
        intro data
        refine g1.trans ⟨?_, Nat.le_refl _, ?_⟩
        · unfold Batch.size; simp
        · simp only; omega
      generalize r.read b1.remaining = x at h
      obtain ⟨data, err, r'⟩ := x
      simp only at h
      split at h
      · simp only [Go.pure_eq, Go.ok.injEq, Prod.mk.injEq] at h
        obtain ⟨h, -⟩ := h
        subst h
        have := g3 data
        split
        · exact ⟨this.size, this.keeps, this.most⟩
        · exact this
      · exact (g3 data).trans (ih h)

/-- `BOp` is a reset. -/
def BOp.isReset : BOp → Bool
  | .reset _ => true
  | _ => false

theorem run_grows {b b' : Batch} {op : BOp} (h : op.run b = .ok b') :
    (op.isReset = true ∧ b'.cap = b.cap ∧ b'.size = 0) ∨ (op.isReset = false ∧ GrowsTo b b') := by
  cases op with
  | append more now => exact Or.inr ⟨rfl, (append_grows h).1⟩
  | readFrom r now =>
    simp only [BOp.run, Batch.readFrom] at h
    cases hr : Batch.readLoop now r.steps b r 0 with
    | panic => rw [hr] at h; cases h
    | ok x =>
      obtain ⟨b1, n⟩ := x
      rw [hr] at h
      simp only [Go.ok_bind, Go.pure_eq, Go.ok.injEq] at h
      subst h
      exact Or.inr ⟨rfl, readLoop_grows now _ hr⟩
  | readOnce data now =>
    simp only [BOp.run] at h
    cases hr : b.readOnceFrom data now with
    | panic => rw [hr] at h; cases h
    | ok x =>
      obtain ⟨b1, n⟩ := x
      rw [hr] at h
      simp only [Go.ok_bind, Go.pure_eq, Go.ok.injEq] at h
      subst h
      exact Or.inr ⟨rfl, readOnceFrom_grows hr⟩
  | ensureNewline => exact Or.inr ⟨rfl, ensureNewline_grows h⟩
  | reset now =>
    simp only [BOp.run, Go.ok.injEq] at h
    subst h
    exact Or.inl ⟨rfl, rfl, rfl⟩

theorem runOps_append (b : Batch) (o1 o2 : List BOp) : runOps b (o1 ++ o2) = (do runOps (← runOps b o1) o2) := by
  induction o1 generalizing b with
  | nil => rfl
  | cons op ops ih =>
    simp only [List.cons_append, runOps]
    cases hr : op.run b with
    | panic => rfl
    | ok b1 => simp only [Go.ok_bind]; exact ih b1

/-! ## The theorems -/

/-- **C92.** The memory of a batch is never given back, and never exceeds the memory it started with or twice (the
most it ever held plus 64 KiB), whichever is more. -/
theorem C92_batch_memory (capacity : Nat) (t0 : Int) (ops : List BOp) (peak : Nat)
    (hp : ∀ (o1 o2 : List BOp) (b : Batch), ops = o1 ++ o2 → runOps (Batch.new capacity t0) o1 = .ok b → b.size ≤ peak)
    (o1 o2 : List BOp) (b b' : Batch) (ho : ops = o1 ++ o2)
    (h1 : runOps (Batch.new capacity t0) o1 = .ok b) (h2 : runOps (Batch.new capacity t0) ops = .ok b') :
    b.cap ≤ b'.cap ∧ capacity ≤ b.cap ∧ b'.cap ≤ max capacity (2 * (peak + 65536)) := by
  have mono : ∀ (ops : List BOp) (b b' : Batch), runOps b ops = .ok b' → b.cap ≤ b'.cap := by
    intro ops
    induction ops with
    | nil => intro b b' h; simp only [runOps, Go.ok.injEq] at h; subst h; exact Nat.le_refl _
    | cons op ops ih =>
      intro b b' h
      rw [runOps] at h
      cases hr : op.run b with
      | panic => rw [hr] at h; cases h
      | ok b1 =>
        rw [hr, Go.ok_bind] at h
        have := ih b1 b' h
        rcases run_grows hr with ⟨-, hc, -⟩ | ⟨-, hg⟩
        · omega
        · have := hg.keeps; omega
  have upper : ∀ (rest done : List BOp) (b b' : Batch), ops = done ++ rest → runOps (Batch.new capacity t0) done = .ok b →
      b.cap ≤ max capacity (2 * (peak + 65536)) → runOps b rest = .ok b' → b'.cap ≤ max capacity (2 * (peak + 65536)) := by
    intro rest
    induction rest with
    | nil => intro done b b' _ _ hb h; simp only [runOps, Go.ok.injEq] at h; subst h; exact hb
    | cons op rest ih =>
      intro done b b' hops hd hb h
      rw [runOps] at h
      cases hr : op.run b with
      | panic => rw [hr] at h; cases h
      | ok b1 =>
        rw [hr, Go.ok_bind] at h
        have hd1 : runOps (Batch.new capacity t0) (done ++ [op]) = .ok b1 := by
          rw [runOps_append, hd]; simp only [Go.ok_bind, runOps, hr]
        have hops1 : ops = (done ++ [op]) ++ rest := by rw [hops]; simp
        have hs := hp _ _ b1 hops1 hd1
        refine ih (done ++ [op]) b1 b' hops1 hd1 ?_ h
        rcases run_grows hr with ⟨-, hc, -⟩ | ⟨-, hg⟩
        · omega
        · have := hg.most; omega
  refine ⟨?_, ?_, upper ops [] (Batch.new capacity t0) b' rfl rfl (by simp only [Batch.new]; omega) h2⟩
  · rw [ho, runOps_append, h1, Go.ok_bind] at h2
    exact mono o2 b b' h2
  · exact mono o1 _ b h1

/-! ## The UDP listener -/

theorem growIfLow_exact {b b' : Batch} (h : b.growIfLow = .ok b') :
    (b.buf.length + 65536 ≤ b.cap → b' = b) ∧ (b.cap < 65536 → b'.cap ≤ b.cap + 65536) := by
  unfold Batch.growIfLow Batch.remaining maxReadSize at h
  split at h
  · rename_i hr
    refine ⟨fun _ => by omega, fun hc => ?_⟩
    unfold Batch.grow maxReadSize at h
    generalize hk : (if b.cap * 2 < 65536 then b.cap + 65536 else b.cap * 2) = k at h
    have hk1 : k ≤ b.cap + 65536 := by rw [← hk]; split <;> omega
    simp only at h
    split at h
    · injection h with h
      subst h
      exact hk1
    · cases h
  · injection h with h
    subst h
    exact ⟨fun _ => rfl, fun _ => by omega⟩

theorem ensureNewline_exact {b b' : Batch} (h : b.ensureNewline = .ok b') (hr : b.buf.length + 1 ≤ b.cap) :
    b'.cap = b.cap := by
  unfold Batch.ensureNewline at h
  split at h
  · injection h with h; subst h; rfl
  · split at h
    · unfold Batch.appendImpl at h
      rw [show b.growFor ([NL] : Bytes).length (([NL] : Bytes).length + 1) = .ok b from by
        unfold Batch.growFor Batch.remaining
        rw [if_neg (by simp only [List.length_cons, List.length_nil]; omega)]] at h
      simp only [Go.ok_bind] at h
      split at h
      · simp only [Go.pure_eq, Go.ok.injEq] at h; subst h; rfl
      · cases h
    · injection h with h; subst h; rfl

/-- The memory of a UDP listener. -/
def UDPMemory (l : Listener) : Prop :=
  l.batch.cap = l.conf.batchMaxSize ∨
  (l.conf.batchMaxSize < 65536 ∧ 65536 ≤ l.batch.cap ∧ l.batch.cap ≤ l.conf.batchMaxSize + 65536)

theorem sendBatch_cap {l l' : Listener} {fail : Nat → Bool} {t : Int} (h : l.sendBatch fail t = .ok l') :
    l'.batch.cap = l.batch.cap ∧ l'.batch.size ≤ l.batch.size ∧ l'.conf = l.conf := by
  unfold Listener.sendBatch at h
  split at h
  · injection h with h
    subst h
    exact ⟨rfl, Nat.le_refl _, rfl⟩
  · cases hc : splitAll l.batch.bytes maxNATSMsgSize with
    | panic => rw [hc] at h; cases h
    | ok chunks =>
      rw [hc] at h
      simp only [Go.ok_bind, Go.pure_eq, Go.ok.injEq] at h
      subst h
      exact ⟨rfl, by simp [Batch.size, Batch.reset], rfl⟩

theorem maybeSendBatch_cap {l l' : Listener} {t : Int} {fail : Nat → Bool} {t2 : Int}
    (h : l.maybeSendBatch t fail t2 = .ok l') :
    l'.batch.cap = l.batch.cap ∧ l'.batch.size ≤ l.batch.size ∧ l'.conf = l.conf := by
  unfold Listener.maybeSendBatch at h
  split at h
  · exact sendBatch_cap h
  · injection h with h
    subst h
    exact ⟨rfl, Nat.le_refl _, rfl⟩

theorem readOnceFrom_exact {b b' : Batch} {data : Bytes} {now : Int} {n : Nat}
    (h : b.readOnceFrom data now = .ok (b', n)) :
    (b.buf.length + 65536 ≤ b.cap → b'.cap = b.cap) ∧ (b.cap < 65536 → b'.cap ≤ b.cap + 65536) ∧
    b'.buf.length ≤ b.buf.length + data.length := by
  unfold Batch.readOnceFrom at h
  cases hg : b.growIfLow with
  | panic => rw [hg] at h; cases h
  | ok b1 =>
    rw [hg, Go.ok_bind] at h
    obtain ⟨g1, g2⟩ := growIfLow_exact hg
    have g3 := (growIfLow_grows hg).2
    simp only at h
    split at h
    · simp only [Go.pure_eq, Go.ok.injEq, Prod.mk.injEq] at h
      obtain ⟨h, -⟩ := h
      subst h
      refine ⟨fun hr => ?_, g2, ?_⟩
      · simp only [Batch.countWrite, g1 hr]
      · simp only [Batch.countWrite, g3, List.length_append, List.length_take]; omega
    · simp only [Go.pure_eq, Go.ok.injEq, Prod.mk.injEq] at h
      obtain ⟨h, -⟩ := h
      subst h
      exact ⟨fun hr => by rw [g1 hr], g2, by rw [g3]; omega⟩

theorem udpStep_memory {l l' : Listener} {e : UDPEvent} (h : UInv l) (hm : UDPMemory l) (hd : e.data.length ≤ 65535)
    (hs : l.udpStep e = .ok l') : UDPMemory l' := by
  unfold Listener.udpStep at hs
  cases hr : l.batch.readOnceFrom e.data e.tRead with
  | panic => rw [hr] at hs; cases hs
  | ok x =>
    obtain ⟨b, n⟩ := x
    rw [hr, Go.ok_bind] at hs
    obtain ⟨r1, r2, r3⟩ := readOnceFrom_exact hr
    -- enough room, and the right amount of memory
    have hb : b.buf.length + 1 ≤ b.cap ∧ (b.cap = l.conf.batchMaxSize ∨
        (l.conf.batchMaxSize < 65536 ∧ 65536 ≤ b.cap ∧ b.cap ≤ l.conf.batchMaxSize + 65536)) := by
      obtain ⟨c, k1, k2, k3, k4, k5⟩ := Batch.readOnceFrom_spec l.batch h.wf e.data e.tRead
      have hc : b.cap = c := by
        rw [hr] at k5
        simp only [Go.ok.injEq] at k5
        split at k5
        · rw [Prod.mk.injEq] at k5; rw [k5.1]
        · rw [Prod.mk.injEq] at k5; rw [k5.1]
      have hcap := h.cap
      unfold UDPMemory at hm
      rcases h.room with hroom | hroom
      · have k3 := k3 hroom
        rw [hroom, List.length_nil] at r1 r3
        by_cases h64 : 65536 ≤ l.batch.cap
        · have := r1 (by omega); omega
        · have := r2 (by omega); omega
      · have := r1 (by omega); omega
    obtain ⟨hb1, hb2⟩ := hb
    simp only at hs
    generalize hl1 : (if e.readErr then { { l with batch := b } with
      stats := { l.stats with readErrors := l.stats.readErrors + 1 } } else { l with batch := b } : Listener) = l1 at hs
    have hl1b : l1.batch = b ∧ l1.conf = l.conf := by
      rw [← hl1]; split <;> exact ⟨rfl, rfl⟩
    by_cases hn : n > 0
    · rw [if_pos hn] at hs
      cases hq : l1.batch.ensureNewline with
      | panic => rw [hq] at hs; cases hs
      | ok b2 =>
        rw [hq] at hs
        simp only [Go.ok_bind, Go.pure_eq] at hs
        obtain ⟨m1, -, m2⟩ := maybeSendBatch_cap hs
        have := ensureNewline_exact hq (by rw [hl1b.1]; exact hb1)
        unfold UDPMemory
        rw [m1, m2]
        simp only [this, hl1b.1, hl1b.2]
        exact hb2
    · rw [if_neg hn] at hs
      simp only [Go.ok_bind] at hs
      obtain ⟨m1, -, m2⟩ := maybeSendBatch_cap hs
      unfold UDPMemory
      rw [m1, m2, hl1b.1, hl1b.2]
      exact hb2

/-- **C92 (UDP).** Whatever datagrams arrive, the memory of a UDP listener is `batch_max_size` bytes forever if that is
at least 64 KiB, and otherwise at most 64 KiB more. -/
theorem C92_udp_memory (c : LConf) (t0 : Int) (es : List UDPEvent) (hd : ∀ e ∈ es, e.data.length ≤ 65535) :
    ∃ l, udpRun (Listener.new c t0) es = .ok l ∧
      (65536 ≤ c.batchMaxSize → l.batch.cap = c.batchMaxSize) ∧ l.batch.cap ≤ c.batchMaxSize + 65536 := by
  have key : ∀ (es : List UDPEvent) (l : Listener), UInv l → UDPMemory l → (∀ e ∈ es, e.data.length ≤ 65535) →
      ∃ l', udpRun l es = .ok l' ∧ UDPMemory l' ∧ l'.conf = l.conf := by
    intro es
    induction es with
    | nil => intro l _ hm _; exact ⟨l, rfl, hm, rfl⟩
    | cons e es ih =>
      intro l h hm hd
      have hde := hd e (by simp)
      obtain ⟨l1, a1, a2, a3, -⟩ := udp_step l e h (by omega)
      obtain ⟨l2, b1, b2, b3⟩ := ih l1 a2 (udpStep_memory h hm hde a1) (fun e' h' => hd e' (by simp [h']))
      exact ⟨l2, by rw [udpRun, a1, Go.ok_bind, b1], b2, b3.trans a3⟩
  obtain ⟨l, h1, h2, h3⟩ := key es _ (uinv_new c t0) (Or.inl rfl) hd
  refine ⟨l, h1, ?_, ?_⟩ <;> unfold UDPMemory at h2 <;> rw [h3] at h2 <;> simp only [Listener.new] at h2 <;> omega

/-- The bound is reached: a batch size of 40000 grows to 80000 bytes with the first read and stays there. -/
example : (do return (← udpRun (Listener.new ⟨10, 1000, 40000⟩ 0) [⟨b!"a f=1", false, 1, 2, 3, fun _ => false⟩,
    ⟨b!"b f=1", false, 1, 2, 3, fun _ => false⟩]).batch.cap : Go Nat) = .ok 80000 := by decide +kernel

/-! ## The HTTP listener -/

theorem httpStep_memory {l l' : Listener} {e : HTTPEvent} (h : l.httpStep e = .ok l') :
    l.batch.cap ≤ l'.batch.cap ∧ l'.batch.cap ≤ max l.batch.cap (2 * (l'.batch.size + 65536)) := by
  cases e with
  | body r now =>
    simp only [Listener.httpStep, Batch.readFrom] at h
    cases hr : Batch.readLoop now r.steps l.batch r 0 with
    | panic => rw [hr] at h; cases h
    | ok x =>
      obtain ⟨b, n⟩ := x
      rw [hr] at h
      simp only [Go.ok_bind, Go.pure_eq, Go.ok.injEq] at h
      subst h
      have := readLoop_grows now _ hr
      exact ⟨this.keeps, this.most⟩
  | line data now =>
    simp only [Listener.httpStep] at h
    cases hr : l.batch.append data now with
    | panic => rw [hr] at h; cases h
    | ok b =>
      rw [hr] at h
      simp only [Go.ok_bind, Go.pure_eq, Go.ok.injEq] at h
      subst h
      have := (append_grows hr).1
      exact ⟨this.keeps, this.most⟩
  | maybeSend t fail t2 =>
    obtain ⟨h1, -⟩ := maybeSendBatch_cap h
    simp only at h1
    omega
  | readErr =>
    simp only [Listener.httpStep, Go.ok.injEq] at h
    subst h
    exact ⟨Nat.le_refl _, by simp only; omega⟩
  | oldBatch t fail t2 =>
    simp only [Listener.httpStep] at h
    split at h
    · obtain ⟨h1, -⟩ := sendBatch_cap h
      omega
    · injection h with h
      subst h
      omega

theorem httpRun_append (l : Listener) (e1 e2 : List HTTPEvent) :
    httpRun l (e1 ++ e2) = (do httpRun (← httpRun l e1) e2) := by
  induction e1 generalizing l with
  | nil => rfl
  | cons e es ih =>
    simp only [List.cons_append, httpRun]
    cases hr : l.httpStep e with
    | panic => rfl
    | ok l1 => simp only [Go.ok_bind]; exact ih l1

theorem httpRun_keeps (es : List HTTPEvent) : ∀ (l l' : Listener), httpRun l es = .ok l' → l.batch.cap ≤ l'.batch.cap := by
  induction es with
  | nil => intro l l' h; simp only [httpRun, Go.ok.injEq] at h; subst h; exact Nat.le_refl _
  | cons e es ih =>
    intro l l' h
    rw [httpRun] at h
    cases hr : l.httpStep e with
    | panic => rw [hr] at h; cases h
    | ok l1 =>
      rw [hr, Go.ok_bind] at h
      have := ih l1 l' h
      have := (httpStep_memory hr).1
      omega

/-- **C92 (HTTP).** If the batch of an HTTP listener never held more than `peak` bytes, its memory is at most
`batch_max_size` or twice `peak` plus 128 KiB. -/
theorem C92_http_memory_partial (c : LConf) (t0 : Int) (es : List HTTPEvent) (peak : Nat)
    (hp : ∀ (e1 e2 : List HTTPEvent) (l : Listener), es = e1 ++ e2 → httpRun (Listener.new c t0) e1 = .ok l → l.batch.size ≤ peak) :
    ∃ l, httpRun (Listener.new c t0) es = .ok l ∧ l.batch.cap ≤ max c.batchMaxSize (2 * (peak + 65536)) := by
  obtain ⟨l, h1, -⟩ := http_run es _ (inv_new c t0)
  refine ⟨l, h1, ?_⟩
  have upper : ∀ (rest done : List HTTPEvent) (b b' : Listener), es = done ++ rest → httpRun (Listener.new c t0) done = .ok b →
      b.batch.cap ≤ max c.batchMaxSize (2 * (peak + 65536)) → httpRun b rest = .ok b' →
      b'.batch.cap ≤ max c.batchMaxSize (2 * (peak + 65536)) := by
    intro rest
    induction rest with
    | nil => intro done b b' _ _ hb h; simp only [httpRun, Go.ok.injEq] at h; subst h; exact hb
    | cons op rest ih =>
      intro done b b' hops hd hb h
      rw [httpRun] at h
      cases hr : b.httpStep op with
      | panic => rw [hr] at h; cases h
      | ok b1 =>
        rw [hr, Go.ok_bind] at h
        have hd1 : httpRun (Listener.new c t0) (done ++ [op]) = .ok b1 := by
          rw [httpRun_append, hd]; simp only [Go.ok_bind, httpRun, hr]
        have hops1 : es = (done ++ [op]) ++ rest := by rw [hops]; simp
        have hs := hp _ _ b1 hops1 hd1
        refine ih (done ++ [op]) b1 b' hops1 hd1 ?_ h
        have := (httpStep_memory hr).2
        omega
  exact upper es [] _ l rfl rfl (by simp only [Listener.new, Batch.new]; omega) h1

/-- **C92 is false of the HTTP listener:** nothing limits the size of a body; a request with a body of `n` bytes (any
`n`) makes the listener keep at least `n` bytes from then on, whatever happens afterwards. -/
theorem C92_http_unbounded (c : LConf) (t0 : Int) (q : HTTPReq) (hq : q.precision = b!"")
    (later : List HTTPEvent) :
    ∃ steps l, requestSteps q = .ok steps ∧ httpRun (Listener.new c t0) (steps ++ later) = .ok l ∧
      q.bytes.length ≤ l.batch.cap := by
  obtain ⟨steps, hs, hc⟩ := C08_request_nanos q (Or.inl hq)
  obtain ⟨l, h1, -⟩ := http_run (steps ++ later) _ (inv_new c t0)
  refine ⟨steps, l, hs, h1, ?_⟩
  unfold requestSteps at hs
  rw [if_pos (Or.inl hq)] at hs
  simp only [Go.ok.injEq] at hs
  rw [← hs, List.cons_append, httpRun] at h1
  cases hr : (Listener.new c t0).httpStep (.body q.body (q.clk 0)) with
  | panic => rw [hr] at h1; cases h1
  | ok l1 =>
    rw [hr, Go.ok_bind] at h1
    have hk := httpRun_keeps _ _ _ h1
    obtain ⟨l2, k1, k2, -, k4, -⟩ := http_step (Listener.new c t0) (.body q.body (q.clk 0)) (inv_new c t0)
    rw [hr] at k1
    injection k1 with k1
    subst k1
    have hw := k2.wf
    unfold Batch.WF at hw
    simp only [Listener.httpStep, Batch.readFrom] at hr
    obtain ⟨c', j1, j2, j3⟩ := Batch.readLoop_spec (q.clk 0) q.body.steps (Listener.new c t0).batch q.body 0 (inv_new c t0).wf (Nat.le_refl _)
    rw [j3] at hr
    simp only [Go.ok_bind, Go.pure_eq, Go.ok.injEq] at hr
    have hcap : l1.batch.cap = c' := by
      rw [← hr]
      simp only
      split <;> rfl
    simp only [Listener.new, Batch.new, List.length_nil, Nat.zero_add] at j2
    unfold HTTPReq.bytes
    omega

/-! ## The writer -/

theorem appendMatching_grows (rules : List Rule) (now : Int) (lines : List Bytes) : ∀ {b b' : Batch},
    appendMatching rules now b lines = .ok b' → GrowsTo b b' ∧ b'.size ≤ b.size + lines.flatten.length := by
  induction lines with
  | nil =>
    intro b b' h
    simp only [appendMatching, Go.ok.injEq] at h
    subst h
    exact ⟨.refl b, by simp⟩
  | cons line lines ih =>
    intro b b' h
    rw [appendMatching] at h
    have hlen : (line :: lines).flatten.length = line.length + lines.flatten.length := by simp
    split at h
    · obtain ⟨h1, h2⟩ := ih h
      exact ⟨h1, by omega⟩
    · cases hl : lookup rules line with
      | panic => rw [hl] at h; cases h
      | ok o =>
        rw [hl, Go.ok_bind] at h
        cases o with
        | none =>
          obtain ⟨h1, h2⟩ := ih h
          exact ⟨h1, by omega⟩
        | some i =>
          simp only at h
          cases hr : b.append line now with
          | panic => rw [hr] at h; cases h
          | ok b1 =>
            rw [hr, Go.ok_bind] at h
            obtain ⟨g1, g2⟩ := append_grows hr
            obtain ⟨h1, h2⟩ := ih h
            refine ⟨g1.trans h1, ?_⟩
            have : b1.size = b.size + line.length := by unfold Batch.size; rw [g2]; simp
            omega

theorem batchAppend_grows {rules : List Rule} {b b' : Batch} {data : Bytes} {now : Int}
    (h : batchAppend rules b data now = .ok b') : GrowsTo b b' ∧ b'.size ≤ b.size + data.length := by
  unfold batchAppend at h
  split at h
  · obtain ⟨h1, h2⟩ := append_grows h
    exact ⟨h1, by unfold Batch.size; rw [h2]; simp⟩
  · have := appendMatching_grows rules now (splitAfterNL data) h
    rw [splitAfterNL_flatten] at this
    exact this

/-- Steps only add to the history. -/
theorem step_hist {c : WConf} {s s' : WSys} (h : WStep c s s') : ∃ es, s'.hist = s.hist ++ es := by
  cases h with
  | fire d gone b' q hp hd ht hf =>
    rw [(reportWrite_same c _).2.1]
    exact ⟨_, List.append_assoc _ _ _⟩
  | finish i r hp =>
    rw [(finishRetry_same c _ r).2.1]
    exact ⟨_, rfl⟩
  | input i buf q gone hp hc hq => exact ⟨_, List.append_assoc _ _ _⟩
  | tick | stop | gotWrite | gotError | wake | quit | keep | handoff | sent | arm | retryQuit =>
    exact ⟨[], by simp⟩
  | recv | flush | firstOk | firstFail | fireEmpty => exact ⟨_, rfl⟩

/-- The memory of a writer that started with `pages` bytes and receives at most `m` bytes at a time. -/
structure MInv (c : WConf) (pages m : Nat) (s : WSys) : Prop where
  size : s.batch.size ≤ c.batchMaxSize + m
  cap : s.batch.cap ≤ max pages (2 * (c.batchMaxSize + m + 65536))

theorem mInv_step {c : WConf} {pages m : Nat} {s s' : WSys} (hr : WRun c s) (I : MInv c pages m s) (h : WStep c s s')
    (hm : ∀ d ∈ received s'.hist, d.length ≤ m) : MInv c pages m s' := by
  cases h with
  | recv w data b hp hb =>
    have hd : data.length ≤ m := hm data (by rw [received_snoc]; simp)
    obtain ⟨g1, g2⟩ := batchAppend_grows hb
    have hs : s.batch.size ≤ c.batchMaxSize := by
      rcases C35_waiting_below_limits c s hr w hp with ⟨-, h0⟩ | ⟨-, h0, -⟩
      · unfold Batch.bytes at h0; unfold Batch.size; rw [h0]; simp
      · omega
    have := g1.most
    have := I.cap
    exact ⟨by simp only; omega, by simp only; omega⟩
  | sent hp => exact ⟨by simp [Batch.size, Batch.reset], I.cap⟩
  | fire d gone b' q hp hd ht hf =>
    have := (reportWrite_same c
      { s with rphase := .writing b'.id, nextSend := none, queue := b' :: q,
               hist := s.hist ++ (gone.map fun g => .expired g.id s.now) ++ [.attempt b'.id b'.buf s.now] }).2.2.1
    exact ⟨by rw [this]; exact I.size, by rw [this]; exact I.cap⟩
  | finish i r hp =>
    have := (finishRetry_same c { s with rphase := .top, hist := s.hist ++ [.result i r s.now] } r).2.2.1
    exact ⟨by rw [this]; exact I.size, by rw [this]; exact I.cap⟩
  | tick | stop | gotWrite | gotError | wake | quit | keep | handoff | arm | retryQuit | flush | firstOk | firstFail |
    fireEmpty | input => exact ⟨I.size, I.cap⟩

/-- **C92 (writer).** A worker that receives messages of at most `m` bytes never batches more than `batch_max_size + m`
bytes, and its batch buffer never exceeds the size it started with (32 pages) or twice (that plus 64 KiB). -/
theorem C92_writer_batch (c : WConf) (pages : Nat) (t0 : Int) (s : WSys) (h : WReach c (WSys.start c pages t0) s) (m : Nat)
    (hm : ∀ d ∈ received s.hist, d.length ≤ m) :
    s.batch.size ≤ c.batchMaxSize + m ∧ s.batch.cap ≤ max pages (2 * (c.batchMaxSize + m + 65536)) := by
  suffices hI : MInv c pages m s from ⟨hI.size, hI.cap⟩
  induction h with
  | refl => exact ⟨by simp [WSys.start, Batch.new, Batch.size], by simp only [WSys.start, Batch.new]; omega⟩
  | step hr hst ih =>
    refine mInv_step ⟨pages, t0, hr⟩ (ih fun d hd => hm d ?_) hst hm
    obtain ⟨es, he⟩ := step_hist hst
    rw [he]
    unfold received at hd ⊢
    rw [List.flatMap_append]
    exact List.mem_append_left _ hd

theorem flatten_length_le {α : Type} (ls : List (List α)) (n : Nat) (h : ∀ l ∈ ls, l.length ≤ n) :
    ls.flatten.length ≤ ls.length * n := by
  induction ls with
  | nil => simp
  | cons l ls ih =>
    have := h l (by simp)
    have := ih (fun x hx => h x (by simp [hx]))
    simp only [List.flatten_cons, List.length_append, List.length_cons, Nat.add_mul]
    omega

/-- **C92 (writer).** What is kept for retrying: at most `writer_retry_batches` chunks in the queue and two on their
way to it, each of at most `batch_max_size + 1` bytes; nothing without retries. -/
theorem C92_retry_memory (c : WConf) (hc : 1 ≤ c.batchMaxSize) (s : WSys) (h : WRun c s) :
    ((s.queue.map (·.buf)).flatten.length : Int) ≤ max 0 c.retryBatches * (c.batchMaxSize + 1) ∧
    (∀ x ∈ transit s.phase s.ch, x.2.length ≤ c.batchMaxSize + 1) ∧ (transit s.phase s.ch).length ≤ 2 ∧
    (c.retryBatches ≤ 0 → s.queue = [] ∧ transit s.phase s.ch = []) := by
  obtain ⟨-, -, q3, q4⟩ := C37_retry_memory c s h
  have h1 : ∀ l ∈ s.queue.map (·.buf), l.length ≤ c.batchMaxSize + 1 := by
    intro l hl
    obtain ⟨b, hb, rfl⟩ := List.mem_map.1 hl
    obtain ⟨r, t, hf⟩ := q3 b hb
    exact (C70_sizes c hc s h b.id b.buf t (Or.inl ⟨r, hf⟩)).2
  have h2 := flatten_length_le _ _ h1
  rw [List.length_map] at h2
  refine ⟨?_, ?_, ?_, ?_⟩
  · have h3 : (((s.queue.length * (c.batchMaxSize + 1) : Nat)) : Int) ≤ max 0 c.retryBatches * (c.batchMaxSize + 1) := by
      rw [Int.natCast_mul]
      exact Int.mul_le_mul_of_nonneg_right q4 (by omega)
    omega
  · intro x hx
    obtain ⟨r, t, hf, -⟩ := h.inv.t.failed x hx
    exact (C70_sizes c hc s h x.1 x.2 t (Or.inl ⟨r, hf⟩)).2
  · unfold transit
    cases s.phase <;> cases s.ch <;> simp
  · intro hn
    exact (h.inv.off (by omega)).2

/-- Both bounds are met in the run of `exHist`: two chunks are held after a few events. -/
example : ∃ s, WRun exWConf s ∧ s.hist = exHist ∧
    ((s.queue.map (·.buf)).flatten.length : Int) ≤ max 0 exWConf.retryBatches * (exWConf.batchMaxSize + 1) := by
  obtain ⟨s, h1, h2⟩ := exHist_run
  exact ⟨s, h1, h2, (C92_retry_memory exWConf (by decide) s h1).1⟩

/-- A small batch grows twice and keeps what it has after the reset. -/
example : (do return (← runOps (Batch.new 4 0) [.append b!"abc" 1, .append b!"de" 2, .readOnce b!"f" 3, .reset 4, .ensureNewline]).cap : Go Nat)
    = .ok 131080 := by decide +kernel

end Spout
