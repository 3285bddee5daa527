import Verif.Model.Splitter

namespace Spout

theorem scanBack_spec (buf : Bytes) (i : Nat) (h : i < buf.length) :
    (∃ j, Splitter.scanBack buf i = .ok (some j) ∧ j ≤ i ∧ buf[j]? = some NL ∧
        ∀ k, j < k → k ≤ i → buf[k]? ≠ some NL) ∨
    (Splitter.scanBack buf i = .ok none ∧ ∀ k, k ≤ i → buf[k]? ≠ some NL) := by
  induction i with
  | zero =>
    simp only [Splitter.scanBack, idx_ok h, Go.ok_bind]
    by_cases hc : buf[0] = NL
    · left; refine ⟨0, by simp [hc], Nat.le_refl _, by simp [h, hc], ?_⟩
      intro k h1 h2; omega
    · right; refine ⟨by simp [hc], ?_⟩
      intro k hk; obtain rfl : k = 0 := by omega
      simpa [h] using hc
  | succ i ih =>
    simp only [Splitter.scanBack, idx_ok h, Go.ok_bind]
    by_cases hc : buf[i+1] = NL
    · left; refine ⟨i+1, by simp [hc], Nat.le_refl _, by simp [h, hc], ?_⟩
      intro k h1 h2; omega
    · rw [if_neg hc]
      have hne : buf[i+1]? ≠ some NL := by simpa [h] using hc
      rcases ih (by omega) with ⟨j, h1, h2, h3, h4⟩ | ⟨h1, h2⟩
      · left; refine ⟨j, h1, by omega, h3, ?_⟩
        intro k hk hk'
        by_cases hki : k = i + 1
        · subst hki; exact hne
        · exact h4 k hk (by omega)
      · right; refine ⟨h1, ?_⟩
        intro k hk
        by_cases hki : k = i + 1
        · subst hki; exact hne
        · exact h2 k (by omega)

/-- One call of `Next` on a non-empty buffer cuts it at a definite place. -/
theorem next_spec (s : Splitter) (hn : 1 ≤ s.chunkSize) (hb : s.buf ≠ []) :
    ∃ k, 1 ≤ k ∧ k ≤ s.buf.length ∧
      s.next = .ok (true, { s with out := s.buf.take k, buf := s.buf.drop k }) ∧
      ((s.buf.length ≤ s.chunkSize ∧ k = s.buf.length) ∨
       (s.chunkSize < s.buf.length ∧ k ≤ s.chunkSize + 1 ∧ s.buf[k-1]? = some NL ∧
          ∀ j, k ≤ j → j ≤ s.chunkSize → s.buf[j]? ≠ some NL) ∨
       (s.chunkSize < s.buf.length ∧ k = s.chunkSize ∧
          ∀ j, j ≤ s.chunkSize → s.buf[j]? ≠ some NL)) := by
  have hlen : s.buf.length ≠ 0 := by simpa using hb
  unfold Splitter.next
  rw [if_neg hlen]
  by_cases h1 : s.buf.length ≤ s.chunkSize
  · rw [if_pos h1]
    exact ⟨s.buf.length, by omega, by omega, by simp, Or.inl ⟨h1, rfl⟩⟩
  · rw [if_neg h1]
    rcases scanBack_spec s.buf s.chunkSize (by omega) with ⟨j, h2, h3, h4, h5⟩ | ⟨h2, h3⟩
    · refine ⟨j+1, by omega, by omega, ?_, Or.inr (Or.inl ⟨by omega, by omega, by simpa using h4, ?_⟩)⟩
      · simp [h2, sliceTo_ok (show j+1 ≤ s.buf.length by omega),
          sliceFrom_ok (show j+1 ≤ s.buf.length by omega)]
      · intro k hk hk'; exact h5 k (by omega) hk'
    · refine ⟨s.chunkSize, hn, by omega, ?_, Or.inr (Or.inr ⟨by omega, rfl, h3⟩)⟩
      simp [h2, sliceTo_ok (show s.chunkSize ≤ s.buf.length by omega),
          sliceFrom_ok (show s.chunkSize ≤ s.buf.length by omega)]

/-- How a chunk sits at the front of the bytes that were left. -/
def ChunkOK (n : Nat) (c rest : Bytes) : Prop :=
  (c.length + rest.length ≤ n ∧ rest = []) ∨
  (n < c.length + rest.length ∧ c.length ≤ n + 1 ∧ c.getLast? = some NL ∧
    ∀ j, c.length ≤ j → j ≤ n → (c ++ rest)[j]? ≠ some NL) ∨
  (n < c.length + rest.length ∧ c.length = n ∧ ∀ j, j ≤ n → (c ++ rest)[j]? ≠ some NL)

theorem next_spec' (s : Splitter) (hn : 1 ≤ s.chunkSize) (hb : s.buf ≠ []) :
    ∃ c rest, c ++ rest = s.buf ∧ c ≠ [] ∧ ChunkOK s.chunkSize c rest ∧
      s.next = .ok (true, { s with out := c, buf := rest }) := by
  obtain ⟨k, h1, h2, h3, h4⟩ := next_spec s hn hb
  refine ⟨s.buf.take k, s.buf.drop k, by simp, ?_, ?_, h3⟩
  · intro h; rw [List.take_eq_nil_iff] at h
    rcases h with h | h
    · omega
    · exact hb h
  · unfold ChunkOK
    have hl : (s.buf.take k).length = k := by simp; omega
    have hl2 : (s.buf.drop k).length = s.buf.length - k := by simp
    rw [hl, hl2, List.take_append_drop]
    rcases h4 with ⟨a, b⟩ | ⟨a, b, c, d⟩ | ⟨a, b, c⟩
    · left; subst b; simpa using a
    · right; left
      refine ⟨by omega, b, ?_, d⟩
      rw [List.getLast?_eq_getElem?, hl, List.getElem?_take]
      simpa [show k - 1 < k by omega] using c
    · right; right; exact ⟨by omega, b, c⟩

/-- All chunks sit correctly. -/
def ChunksOK (n : Nat) : List Bytes → Prop
  | [] => True
  | c :: cs => c ≠ [] ∧ ChunkOK n c cs.flatten ∧ ChunksOK n cs

theorem collect_spec (n : Nat) (hn : 1 ≤ n) : ∀ (m : Nat) (buf o : Bytes), buf.length ≤ m →
    ∃ cs, (∀ fuel, buf.length < fuel →
        Splitter.collect fuel { buf := buf, chunkSize := n, out := o } = .ok (some cs)) ∧
      cs.flatten = buf ∧ ChunksOK n cs := by
  intro m
  induction m with
  | zero =>
    intro buf o hm
    obtain rfl : buf = [] := by simpa using hm
    refine ⟨[], ?_, rfl, trivial⟩
    intro fuel hf
    obtain ⟨f, rfl⟩ : ∃ f, fuel = f + 1 := ⟨fuel - 1, by simp at hf; omega⟩
    simp [Splitter.collect, Splitter.next]
  | succ m ih =>
    intro buf o hm
    by_cases hb : buf = []
    · subst hb
      refine ⟨[], ?_, rfl, trivial⟩
      intro fuel hf
      obtain ⟨f, rfl⟩ : ∃ f, fuel = f + 1 := ⟨fuel - 1, by simp at hf; omega⟩
      simp [Splitter.collect, Splitter.next]
    · obtain ⟨c, rest, h1, h2, h3, h4⟩ :=
        next_spec' { buf := buf, chunkSize := n, out := o } hn hb
      simp only at h1 h3 h4
      have hlen : rest.length < buf.length := by
        rw [← h1]; simp; exact List.length_pos_iff.mpr h2
      obtain ⟨cs, g1, g2, g3⟩ := ih rest c (by omega)
      refine ⟨c :: cs, ?_, by simp [g2, h1], h2, by rw [g2]; exact h3, g3⟩
      intro fuel hf
      obtain ⟨f, rfl⟩ : ∃ f, fuel = f + 1 := ⟨fuel - 1, by omega⟩
      simp [Splitter.collect, h4, g1 f (by omega), Splitter.chunk]

theorem collect_add : ∀ (fuel : Nat) (s : Splitter) (cs : List Bytes) (k : Nat),
    Splitter.collect fuel s = .ok (some cs) → Splitter.collect (fuel + k) s = .ok (some cs) := by
  intro fuel
  induction fuel with
  | zero => intro s cs k h; simp [Splitter.collect] at h
  | succ f ih =>
    intro s cs k h
    rw [show f + 1 + k = (f + k) + 1 by omega]
    simp only [Splitter.collect] at h ⊢
    cases hx : s.next with
    | panic => simp [hx] at h
    | ok r =>
      obtain ⟨more, s'⟩ := r
      simp only [hx, Go.ok_bind] at h ⊢
      cases more with
      | false => simpa using h
      | true =>
        simp only [if_true] at h ⊢
        cases hy : Splitter.collect f s' with
        | panic => simp [hy] at h
        | ok o =>
          cases o with
          | none => simp [hy] at h
          | some c1 =>
            rw [ih s' c1 k hy]
            simpa [hy] using h

/-- The chunks do not depend on how often `Next` is called after the end. -/
theorem collect_unique {f g : Nat} {s : Splitter} {cs ds : List Bytes}
    (h1 : Splitter.collect f s = .ok (some cs)) (h2 : Splitter.collect g s = .ok (some ds)) :
    cs = ds := by
  have a := collect_add f s cs g h1
  have b := collect_add g s ds f h2
  rw [Nat.add_comm, b] at a
  simpa using a.symm

/-- Decompose `ChunksOK` at any chunk. -/
theorem ChunksOK.at {n : Nat} {pre post : List Bytes} {c : Bytes}
    (h : ChunksOK n (pre ++ c :: post)) : c ≠ [] ∧ ChunkOK n c post.flatten := by
  induction pre with
  | nil => exact ⟨h.1, h.2.1⟩
  | cons p ps ih => exact ih h.2.2

theorem splitAll_spec (buf : Bytes) (n : Nat) (hn : 1 ≤ n) :
    ∃ cs, splitAll buf n = .ok cs ∧ cs.flatten = buf ∧ (∀ c ∈ cs, c ≠ [] ∧ c.length ≤ n + 1) ∧
      (buf.length ≤ n → buf ≠ [] → cs = [buf]) ∧ (buf = [] → cs = []) := by
  obtain ⟨cs, h1, h2, h3⟩ := collect_spec n hn buf.length buf [] (Nat.le_refl _)
  refine ⟨cs, ?_, h2, ?_, ?_, ?_⟩
  · unfold splitAll
    rw [show Splitter.new buf n = { buf := buf, chunkSize := n, out := [] } from rfl, h1 _ (by omega)]
    rfl
  · intro c hc
    obtain ⟨pre, post, rfl⟩ := List.append_of_mem hc
    refine ⟨h3.at.1, ?_⟩
    rcases h3.at.2 with ⟨a, b⟩ | ⟨a, b, c1, d⟩ | ⟨a, b, c1⟩ <;> omega
  · intro hl hne
    have h4 := h1 (buf.length + 2) (by omega)
    rw [Splitter.collect] at h4
    simp only [Splitter.next] at h4
    rw [if_neg (by rw [List.length_eq_zero_iff]; exact hne), if_pos hl] at h4
    simp [Splitter.collect, Splitter.next, Splitter.chunk] at h4
    exact h4.symm
  · intro he
    subst he
    have h4 := h1 1 (by simp)
    simp [Splitter.collect, Splitter.next] at h4
    exact h4

/-- A newline at index `n` makes the first chunk `n+1` bytes long. -/
theorem splitAll_over (buf : Bytes) (n : Nat) (hn : 1 ≤ n) (h : buf[n]? = some NL) :
    ∃ c cs, splitAll buf n = .ok (c :: cs) ∧ c.length = n + 1 := by
  have hlen : n < buf.length := by
    rcases Nat.lt_or_ge n buf.length with h1 | h1
    · exact h1
    · rw [List.getElem?_eq_none h1] at h; cases h
  obtain ⟨cs, h1, h2, h3⟩ := collect_spec n hn buf.length buf [] (Nat.le_refl _)
  cases cs with
  | nil => simp at h2; rw [h2] at hlen; simp at hlen
  | cons c cs =>
    refine ⟨c, cs, ?_, ?_⟩
    · unfold splitAll
      rw [show Splitter.new buf n = { buf := buf, chunkSize := n, out := [] } from rfl, h1 _ (by omega)]
      rfl
    · rw [List.flatten_cons] at h2
      have hb : c.length + cs.flatten.length = buf.length := by rw [← h2, List.length_append]
      rcases h3.2.1 with ⟨a, b⟩ | ⟨a, b, c1, d⟩ | ⟨a, b, c1⟩
      · omega
      · apply Classical.byContradiction
        intro hx
        exact d n (by omega) (Nat.le_refl _) (by rw [h2]; exact h)
      · exact absurd (by rw [h2]; exact h) (c1 n (Nat.le_refl _))

end Spout
