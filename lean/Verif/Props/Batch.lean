import Verif.Lemmas.Batch

/-! # Properties of `batch` (C46) -/

namespace Spout

/-- The operations of the batch API with their arguments and clock readings. -/
inductive BOp where
  | append (more : Bytes) (now : Int)
  | readFrom (r : Batch.Reader) (now : Int)
  | readOnce (data : Bytes) (now : Int)
  | ensureNewline
  | reset (now : Int)

/-- Perform one operation. -/
def BOp.run (b : Batch) : BOp → Go Batch
  | .append more now => b.append more now
  | .readFrom r now => do return (← b.readFrom r now).1
  | .readOnce data now => do return (← b.readOnceFrom data now).1
  | .ensureNewline => b.ensureNewline
  | .reset now => .ok (b.reset now)

/-- Perform a sequence of operations. -/
def runOps : Batch → List BOp → Go Batch
  | b, [] => .ok b
  | b, op :: ops => do runOps (← op.run b) ops

/-! ## Specification: an append-only log -/

/-- What a batch stands for: the bytes put in since the last reset and the times of the
write operations since then, oldest first. -/
structure BLog where
  data : Bytes
  times : List Int

/-- The effect of an operation on the log.  Only `readOnce` has a choice: how much of the
datagram fits; at least 32768 bytes always do. -/
inductive LogStep : BOp → BLog → BLog → Prop
  | append (more now l) : LogStep (.append more now) l ⟨l.data ++ more, l.times ++ [now]⟩
  | readFrom (r : Batch.Reader) (now l) (h : r.pieces.flatten ++ r.last ≠ []) :
      LogStep (.readFrom r now) l ⟨l.data ++ (r.pieces.flatten ++ r.last), l.times ++ [now]⟩
  | readNothing (r : Batch.Reader) (now l) (h : r.pieces.flatten ++ r.last = []) :
      LogStep (.readFrom r now) l l
  | readOnce (data now l k) (hk : 32768 ≤ k) (h : data ≠ []) :
      LogStep (.readOnce data now) l ⟨l.data ++ data.take k, l.times ++ [now]⟩
  | readOnceNothing (now l) : LogStep (.readOnce [] now) l l
  | newline (l) (h : l.data ≠ []) (h2 : l.data.getLast? ≠ some NL) :
      LogStep .ensureNewline l ⟨l.data ++ [NL], l.times⟩
  | noNewline (l) (h : l.data = [] ∨ l.data.getLast? = some NL) : LogStep .ensureNewline l l
  | reset (now l) : LogStep (.reset now) l ⟨[], []⟩

inductive LogRun : List BOp → BLog → BLog → Prop
  | nil (l) : LogRun [] l l
  | cons {op ops l1 l2 l3} : LogStep op l1 l2 → LogRun ops l2 l3 → LogRun (op :: ops) l1 l3

/-- The batch represents the log. -/
structure Represents (b : Batch) (l : BLog) : Prop where
  data : b.bytes = l.data
  writes : b.writes = l.times.length
  age : ∀ now, b.age now = match l.times with | [] => 0 | t :: _ => now - t
  cap : b.size ≤ b.cap

theorem Represents.write {b : Batch} {l : BLog} (h : Represents b l) (buf : Bytes) (c : Nat) (now : Int)
    (hc : buf.length ≤ c) :
    Represents ⟨buf, c, b.writes + 1, if b.writes = 0 then now else b.created⟩ ⟨buf, l.times ++ [now]⟩ := by
  refine ⟨rfl, by simp [h.writes], ?_, hc⟩
  intro t
  have h1 := h.writes
  have h2 := h.age t
  unfold Batch.age at h2 ⊢
  simp only
  rw [if_neg (by omega)]
  cases hl : l.times with
  | nil => rw [hl] at h1; simp at h1; simp [h1]
  | cons x xs =>
    rw [hl] at h1 h2
    simp at h1
    rw [if_neg (by omega)] at h2
    rw [if_neg (by omega)]
    exact h2

theorem step_represents (op : BOp) (b : Batch) (l : BLog) (h : Represents b l) :
    ∃ b' l', op.run b = .ok b' ∧ LogStep op l l' ∧ Represents b' l' := by
  have hd : b.buf = l.data := h.data
  have hwf : b.WF := h.cap
  cases op with
  | append more now =>
    obtain ⟨c, h1, h2, h3⟩ := Batch.append_spec b hwf more now
    refine ⟨_, _, h1, .append more now l, ?_⟩
    rw [← hd]
    exact h.write _ c now (by simpa using h3)
  | readFrom r now =>
    obtain ⟨c, h1, h2, h3⟩ := Batch.readLoop_spec now r.steps b r 0 hwf (Nat.le_refl _)
    simp only [BOp.run, Batch.readFrom, h3, Go.ok_bind, Go.pure_eq, Nat.zero_add]
    by_cases he : r.pieces.flatten ++ r.last = []
    · refine ⟨_, l, rfl, .readNothing r now l he, ?_⟩
      rw [he]
      simp only [List.length_nil, if_true]
      exact ⟨h.data, h.writes, h.age, by
        have := h.cap; unfold Batch.size at this ⊢; simp only; omega⟩
    · refine ⟨_, _, rfl, .readFrom r now l he, ?_⟩
      rw [if_neg (by rw [List.length_eq_zero_iff]; exact he), ← hd]
      exact h.write _ c now (by rw [List.length_append]; omega)
  | readOnce data now =>
    obtain ⟨c, h1, h2, h3, h4, h5⟩ := Batch.readOnceFrom_spec b hwf data now
    simp only [BOp.run, h5, Go.ok_bind, Go.pure_eq]
    by_cases he : data = []
    · subst he
      refine ⟨_, l, rfl, .readOnceNothing now l, ?_⟩
      simp only [List.take_nil, if_true]
      exact ⟨h.data, h.writes, h.age, by
        have := h.cap; unfold Batch.size at this ⊢; simp only; omega⟩
    · refine ⟨_, _, rfl, .readOnce data now l (c - b.buf.length) (by omega) he, ?_⟩
      rw [if_neg (by
        rw [List.take_eq_nil_iff, not_or]
        exact ⟨by omega, he⟩), ← hd]
      apply h.write _ c now
      rw [List.length_append, List.length_take]; omega
  | ensureNewline =>
    obtain ⟨c, h1, h2, h3⟩ := Batch.ensureNewline_spec b hwf
    by_cases he : b.buf = [] ∨ b.buf.getLast? = some NL
    · refine ⟨_, l, h1, .noNewline l (by rw [← hd]; exact he), ?_⟩
      rw [if_pos he] at h3 ⊢
      exact ⟨h.data, h.writes, h.age, h3⟩
    · have he' := not_or.1 he
      refine ⟨_, ⟨l.data ++ [NL], l.times⟩, h1, .newline l (by rw [← hd]; exact he'.1) (by rw [← hd]; exact he'.2), ?_⟩
      rw [if_neg he] at h3 ⊢
      exact ⟨by rw [← hd]; rfl, h.writes, h.age, h3⟩
  | reset now =>
    exact ⟨_, _, rfl, .reset now l, ⟨rfl, rfl, fun _ => rfl, by simp [Batch.size, Batch.reset]⟩⟩

/-- **C46.** After any sequence of operations on a new batch of any capacity: no crash, the
contents are the bytes put in since the last reset in order (growing loses nothing), the write
count is the number of writes since then and the age is measured from the first of them. -/
theorem C46_batch_is_a_log (capacity : Nat) (t0 : Int) (ops : List BOp) :
    ∃ b l, runOps (Batch.new capacity t0) ops = .ok b ∧ LogRun ops ⟨[], []⟩ l ∧ Represents b l := by
  have key : ∀ (ops : List BOp) (b : Batch) (l : BLog), Represents b l →
      ∃ b' l', runOps b ops = .ok b' ∧ LogRun ops l l' ∧ Represents b' l' := by
    intro ops
    induction ops with
    | nil => intro b l h; exact ⟨b, l, rfl, .nil l, h⟩
    | cons op ops ih =>
      intro b l h
      obtain ⟨b1, l1, e1, e2, e3⟩ := step_represents op b l h
      obtain ⟨b2, l2, f1, f2, f3⟩ := ih b1 l1 e3
      exact ⟨b2, l2, by rw [runOps, e1]; exact f1, .cons e2 f2, f3⟩
  exact key ops _ _ ⟨rfl, rfl, fun _ => rfl, by simp [Batch.size, Batch.new]⟩

/-- **C46, no starvation.** Every `Read` is offered room for at least 32768 bytes (so reading a
stream always makes progress), whatever the state of the batch. -/
theorem C46_read_room (b : Batch) (h : b.size ≤ b.cap) :
    ∃ b', b.growIfLow = .ok b' ∧ 32768 ≤ b'.remaining ∧ b'.bytes = b.bytes ∧ b'.writes = b.writes := by
  obtain ⟨c, h1, h2, h3, -⟩ := Batch.growIfLow_spec b h
  exact ⟨_, h1, by unfold Batch.remaining; simp only; omega, rfl, rfl⟩

/-- Test: 65536 bytes of room are *not* guaranteed for an arbitrary batch. -/
theorem C46_room_below_datagram :
    ∃ b b' : Batch, b.size ≤ b.cap ∧ b.growIfLow = .ok b' ∧ b'.remaining < 65536 := by
  obtain ⟨L, hL⟩ : ∃ L : Bytes, L.length = 40000 := ⟨List.replicate 40000 0, List.length_replicate ..⟩
  have hg : ∀ b : Batch, b.cap = 40000 → b.buf.length = 40000 → b.growIfLow = .ok { b with cap := 80000 } := by
    intro b h1 h2
    unfold Batch.growIfLow Batch.grow Batch.remaining maxReadSize
    rw [h1, h2, if_pos (by omega)]
    rfl
  refine ⟨⟨L, 40000, 1, 0⟩, ⟨L, 80000, 1, 0⟩, ?_, hg _ rfl hL, ?_⟩
  · simp only [Batch.size]; omega
  · simp only [Batch.remaining]; omega

example : runOps (Batch.new 3 0) [.append b!"ab" 5, .ensureNewline, .readFrom ⟨[b!"c", b!"", b!"de"], b!"f"⟩ 7,
    .readOnce b!"gh" 8] = .ok ⟨b!"ab\ncdefgh", 131078, 3, 5⟩ := by decide

end Spout
