import Verif.Model.Batch

/-! # Lemmas about batches -/

namespace Spout.Batch

/-- The representation invariant. -/
def WF (b : Batch) : Prop := b.buf.length ≤ b.cap

theorem grow_spec (b : Batch) (h : b.WF) :
    ∃ c, b.grow = .ok { b with cap := c } ∧ b.cap + 32768 ≤ c ∧ 65536 ≤ c ∧ 2 * b.cap ≤ c := by
  unfold grow maxReadSize
  unfold WF at h
  simp only
  by_cases hc : b.cap * 2 < 65536
  · rw [if_pos hc, if_pos (by omega)]
    exact ⟨_, rfl, by omega, by omega, by omega⟩
  · rw [if_neg hc, if_pos (by omega)]
    exact ⟨_, rfl, by omega, by omega, by omega⟩

theorem growIfLow_spec (b : Batch) (h : b.WF) :
    ∃ c, b.growIfLow = .ok { b with cap := c } ∧ b.cap ≤ c ∧ b.buf.length + 32768 ≤ c ∧
      (b.buf = [] → 65536 ≤ c) ∧ (b.buf.length + 65536 ≤ b.cap → c = b.cap) := by
  unfold growIfLow
  obtain ⟨c, h1, h2, h3, h4⟩ := grow_spec b h
  unfold WF at h
  unfold remaining maxReadSize
  by_cases hr : b.cap - b.buf.length < 65536
  · rw [if_pos hr]
    exact ⟨c, h1, by omega, by omega, fun _ => h3, fun _ => by omega⟩
  · rw [if_neg hr]
    exact ⟨b.cap, rfl, by omega, by omega, fun _ => by omega, fun _ => rfl⟩

theorem growFor_spec (b : Batch) (h : b.WF) (more fuel : Nat) (hf : more < fuel + (b.cap - b.buf.length)) :
    ∃ c, b.growFor more fuel = .ok { b with cap := c } ∧ b.cap ≤ c ∧ b.buf.length + more ≤ c ∨ fuel = 0 := by
  induction fuel generalizing b with
  | zero => exact ⟨0, Or.inr rfl⟩
  | succ f ih =>
    unfold growFor
    unfold remaining
    by_cases hr : b.cap - b.buf.length < more
    · rw [if_pos hr]
      obtain ⟨c, h1, h2, h3, h4⟩ := grow_spec b h
      rw [h1]
      simp only [Go.ok_bind]
      have hw : ({ b with cap := c } : Batch).WF := by unfold WF at h ⊢; simp only; omega
      obtain ⟨c', h5⟩ := ih { b with cap := c } hw (by unfold WF at h; simp only; omega)
      rcases h5 with ⟨h5, h6, h7⟩ | h5
      · exact ⟨c', Or.inl ⟨h5, by simp only at h6; omega, h7⟩⟩
      · exfalso; unfold WF at h; omega
    · rw [if_neg hr]
      unfold WF at h
      exact ⟨b.cap, Or.inl ⟨rfl, by omega, by omega⟩⟩

theorem appendImpl_spec (b : Batch) (h : b.WF) (more : Bytes) :
    ∃ c, b.appendImpl more = .ok { b with buf := b.buf ++ more, cap := c } ∧ b.cap ≤ c ∧
      b.buf.length + more.length ≤ c := by
  unfold appendImpl
  obtain ⟨c, h1⟩ := growFor_spec b h more.length (more.length + 1) (by omega)
  rcases h1 with ⟨h1, h2, h3⟩ | h1
  · rw [h1]
    simp only [Go.ok_bind]
    rw [if_pos h3]
    exact ⟨c, rfl, h2, h3⟩
  · omega

theorem append_spec (b : Batch) (h : b.WF) (more : Bytes) (now : Int) :
    ∃ c, b.append more now = .ok ⟨b.buf ++ more, c, b.writes + 1, if b.writes = 0 then now else b.created⟩ ∧
      b.cap ≤ c ∧ b.buf.length + more.length ≤ c := by
  obtain ⟨c, h1, h2, h3⟩ := appendImpl_spec (b.countWrite now) h more
  exact ⟨c, h1, h2, h3⟩

theorem ensureNewline_spec (b : Batch) (h : b.WF) :
    ∃ c, b.ensureNewline = .ok { b with buf := (if b.buf = [] ∨ b.buf.getLast? = some NL then b.buf else b.buf ++ [NL]), cap := c } ∧
      b.cap ≤ c ∧ (if b.buf = [] ∨ b.buf.getLast? = some NL then b.buf else b.buf ++ [NL]).length ≤ c := by
  unfold ensureNewline
  cases hl : b.buf.getLast? with
  | none =>
    have : b.buf = [] := List.getLast?_eq_none_iff.1 hl
    refine ⟨b.cap, ?_, Nat.le_refl _, ?_⟩
    · cases b; simp_all
    · simp [this]
  | some c =>
    have hne : b.buf ≠ [] := by intro e; rw [e] at hl; simp at hl
    by_cases hc : c = NL
    · refine ⟨b.cap, ?_, Nat.le_refl _, ?_⟩
      · simp [hc]
      · simp [hc]; exact h
    · obtain ⟨k, h1, h2, h3⟩ := appendImpl_spec b h [NL]
      refine ⟨k, ?_, h2, ?_⟩
      · simp [hc, hne, h1]
      · simpa [hc, hne] using h3

theorem readOnceFrom_spec (b : Batch) (h : b.WF) (data : Bytes) (now : Int) :
    ∃ c, b.cap ≤ c ∧ b.buf.length + 32768 ≤ c ∧ (b.buf = [] → 65536 ≤ c) ∧
      (b.buf.length + 65536 ≤ b.cap → c = b.cap) ∧
      b.readOnceFrom data now = .ok (
        if data.take (c - b.buf.length) = [] then ({ b with cap := c }, 0)
        else (⟨b.buf ++ data.take (c - b.buf.length), c, b.writes + 1,
          if b.writes = 0 then now else b.created⟩, (data.take (c - b.buf.length)).length)) := by
  obtain ⟨c, h1, h2, h3, h4, h5⟩ := growIfLow_spec b h
  refine ⟨c, h2, h3, h4, h5, ?_⟩
  unfold readOnceFrom
  rw [h1]
  have hrem : ({ b with cap := c } : Batch).remaining = c - b.buf.length := rfl
  simp only [Go.ok_bind]
  generalize hk : ({ b with cap := c } : Batch).remaining = k
  rw [hrem] at hk; rw [hk]
  by_cases hd : data.take k = []
  · simp [hd]
  · have : (data.take k).length > 0 := List.length_pos_iff.2 hd
    rw [if_pos this, if_neg hd]
    rfl

theorem read_spec (r : Reader) (room : Nat) (hroom : 0 < room) :
    ∃ data err r', r.read room = (data, err, r') ∧ data.length ≤ room ∧
      data ++ (r'.pieces.flatten ++ r'.last) = r.pieces.flatten ++ r.last ∧
      (err = true → r'.pieces.flatten ++ r'.last = []) ∧
      (err = false → r'.steps < r.steps) := by
  unfold Reader.read
  cases hp : r.pieces with
  | nil =>
    simp only
    split
    · rename_i hl
      exact ⟨_, _, _, rfl, hl, by simp, by simp, by simp⟩
    · rename_i hl
      refine ⟨_, _, _, rfl, by simp; omega, by simp, by simp, ?_⟩
      intro _
      simp only [Reader.steps, hp, List.flatten_nil, List.length_nil, List.length_drop]
      omega
  | cons p ps =>
    simp only
    split
    · rename_i hl
      refine ⟨_, _, _, rfl, hl, by simp, by simp, ?_⟩
      intro _
      simp only [Reader.steps, hp, List.flatten_cons, List.length_append, List.length_cons]
      omega
    · rename_i hl
      refine ⟨_, _, _, rfl, by simp; omega, ?_, by simp, ?_⟩
      · simp only [List.flatten_cons, ← List.append_assoc, List.take_append_drop]
      · intro _
        simp only [Reader.steps, hp, List.flatten_cons, List.length_append, List.length_cons, List.length_drop]
        omega

theorem readLoop_spec (now : Int) (fuel : Nat) (b : Batch) (r : Reader) (total : Nat) (h : b.WF)
    (hf : r.steps ≤ fuel) :
    ∃ c, b.cap ≤ c ∧ b.buf.length + (r.pieces.flatten ++ r.last).length ≤ c ∧
      readLoop now fuel b r total = .ok (
        if total + (r.pieces.flatten ++ r.last).length = 0 then ({ b with cap := c }, 0)
        else (⟨b.buf ++ (r.pieces.flatten ++ r.last), c, b.writes + 1,
          if b.writes = 0 then now else b.created⟩, total + (r.pieces.flatten ++ r.last).length)) := by
  induction fuel generalizing b r total with
  | zero => unfold Reader.steps at hf; omega
  | succ f ih =>
    unfold readLoop
    obtain ⟨c, h1, h2, h3, h4, h5⟩ := growIfLow_spec b h
    rw [h1]
    simp only [Go.ok_bind]
    have hrem : ({ b with cap := c } : Batch).remaining = c - b.buf.length := rfl
    obtain ⟨data, err, r', e1, e2, e3, e4, e5⟩ := read_spec r (c - b.buf.length) (by omega)
    rw [hrem, e1]
    simp only
    cases err with
    | true =>
      have e4 := e4 rfl
      rw [e4, List.append_nil] at e3
      refine ⟨c, h2, by rw [← e3]; omega, ?_⟩
      rw [← e3]
      simp only [if_true, countWrite]
      by_cases ht : total + data.length = 0
      · have : data = [] := by rw [← List.length_eq_zero_iff]; omega
        have ht0 : total = 0 := by omega
        simp [ht0, this]
      · rw [if_pos (by omega), if_neg ht]
        rfl
    | false =>
      have hw : ({ b with cap := c, buf := b.buf ++ data } : Batch).WF := by
        unfold WF; simp only [List.length_append]; omega
      obtain ⟨c', i1, i2, i3⟩ := ih { b with cap := c, buf := b.buf ++ data } r' (total + data.length) hw
        (by have := e5 rfl; omega)
      have hl := congrArg List.length e3
      simp only [List.length_append] at hl i1 i2 i3 ⊢
      refine ⟨c', by omega, by omega, ?_⟩
      simp only [Bool.false_eq_true, if_false]
      rw [i3]
      have hi : (total + data.length + (r'.pieces.flatten.length + r'.last.length) = 0) ↔
          (total + (r.pieces.flatten.length + r.last.length) = 0) := by omega
      by_cases ht : total + (r.pieces.flatten.length + r.last.length) = 0
      · rw [if_pos (hi.2 ht), if_pos ht]
        have : data = [] := by rw [← List.length_eq_zero_iff]; omega
        simp [this]
      · rw [if_neg (fun e => ht (hi.1 e)), if_neg ht]
        rw [List.append_assoc, e3]
        congr 2
        omega

end Spout.Batch
