import Verif.Lemmas.Splitter

/-! # Properties of `batchsplitter` (C01–C03)

`Splitter.collect fuel (Splitter.new buf n)` is the caller's loop
`for s.Next() { … s.Chunk() … }` cut off after `fuel` calls of `Next`. -/

namespace Spout

/-- **C01.** For every buffer and chunk size ≥ 1 the loop ends after at most
`len(buf)+1` calls of `Next` without a panic; the chunks concatenate to the
buffer and none is empty. -/
theorem C01_split_conserves_bytes (buf : Bytes) (n : Nat) (hn : 1 ≤ n) :
    ∃ chunks, (∀ fuel, buf.length < fuel →
        Splitter.collect fuel (Splitter.new buf n) = .ok (some chunks)) ∧
      chunks.flatten = buf ∧ ∀ c ∈ chunks, c ≠ [] := by
  obtain ⟨cs, h1, h2, h3⟩ := collect_spec n hn buf.length buf [] (Nat.le_refl _)
  refine ⟨cs, h1, h2, ?_⟩
  intro c hc
  obtain ⟨pre, post, rfl⟩ := List.append_of_mem hc
  exact h3.at.1

/-- After the loop has ended `Next` keeps answering false with no chunk. -/
theorem C01_exhausted_stays_exhausted (n : Nat) (o : Bytes) :
    Splitter.next { buf := [], chunkSize := n, out := o } =
      .ok (false, { buf := [], chunkSize := n, out := [] }) := rfl

/-- Test: the chunk size must be positive.  With chunk size 0 the loop on a buffer that does not
start with a newline never makes progress. -/
theorem C01_chunkSize_zero_diverges (c : Byte) (hc : c ≠ NL) (fuel : Nat) :
    Splitter.collect fuel (Splitter.new [c] 0) = .ok none := by
  have h : ∀ o, Splitter.next { buf := [c], chunkSize := 0, out := o } =
      .ok (true, { buf := [c], chunkSize := 0, out := [] }) := by
    intro o
    simp [Splitter.next, Splitter.scanBack, idx, hc, sliceTo, sliceFrom]
  have : ∀ fuel o, Splitter.collect fuel { buf := [c], chunkSize := 0, out := o } = .ok none := by
    intro fuel
    induction fuel with
    | zero => intro o; rfl
    | succ f ih => intro o; simp [Splitter.collect, h, ih]
  exact this fuel []

example : Splitter.collect 9 (Splitter.new b!"1111\n2222\n333\n" 6) =
    .ok (some [b!"1111\n", b!"2222\n", b!"333\n"]) := by decide

/-- The statement of C02 as documented ("Under no circumstances will chunks of
more than chunkSize be returned"). -/
def ChunkLimitAsDocumented : Prop :=
  ∀ (buf : Bytes) (n fuel : Nat) (chunks : List Bytes), 1 ≤ n →
    Splitter.collect fuel (Splitter.new buf n) = .ok (some chunks) →
    ∀ c ∈ chunks, c.length ≤ n

/-- **C02 is false of the code**: a newline at index `chunkSize` yields a chunk
of `chunkSize + 1` bytes. -/
theorem C02_chunk_limit_violated : ¬ ChunkLimitAsDocumented := by
  intro h
  have := h b!"1111\n2222\n" 4 9 [b!"1111\n", b!"2222\n"] (by decide) (by decide)
    b!"1111\n" (by decide)
  exact absurd this (by decide)

/-- **C02 (partial).** A chunk exceeds the limit by at most one byte, and then
it ends with a newline and contains exactly `n` bytes before it.  Missing: the documented limit itself, which
is false (`C02_chunk_limit_violated`). -/
theorem C02_chunk_limit_partial (buf : Bytes) (n fuel : Nat) (chunks : List Bytes) (hn : 1 ≤ n)
    (hc : Splitter.collect fuel (Splitter.new buf n) = .ok (some chunks)) :
    ∀ c ∈ chunks, c.length ≤ n ∨ (c.length = n + 1 ∧ c.getLast? = some NL) := by
  obtain ⟨cs, h1, h2, h3⟩ := collect_spec n hn buf.length buf [] (Nat.le_refl _)
  have hcs : chunks = cs := collect_unique hc (h1 (buf.length + 1) (by omega))
  subst hcs
  intro c hmem
  obtain ⟨pre, post, rfl⟩ := List.append_of_mem hmem
  rcases h3.at.2 with ⟨a, b⟩ | ⟨a, b, c1, d⟩ | ⟨a, b, c1⟩
  · left; omega
  · by_cases hl : c.length ≤ n
    · exact Or.inl hl
    · exact Or.inr ⟨by omega, c1⟩
  · left; omega

/-- The limit does hold when no line boundary falls exactly on index `n` of the
bytes still to be split; in particular `n+1` itself is always respected. -/
example : ∃ fuel chunks, Splitter.collect fuel (Splitter.new b!"ab\ncdef\nghijklm" 4) =
    .ok (some chunks) ∧ chunks = [b!"ab\n", b!"cdef\n", b!"ghij", b!"klm"] :=
  ⟨9, _, by decide, rfl⟩

/-- **C03.** Look at any chunk `c` and the bytes `rest` still to come after it.
* If `rest` is not empty then `c` ends with a newline, or `c` is exactly `n`
  bytes and there is no newline in `c` nor right after it.
* `c` is maximal: if more than `n` bytes were left, no newline lies beyond `c`
  at an index ≤ `n`; if at most `n` were left, `c` is all of them. -/
theorem C03_chunks_end_at_lines (buf : Bytes) (n : Nat) (hn : 1 ≤ n) :
    ∃ chunks, (∀ fuel, buf.length < fuel →
        Splitter.collect fuel (Splitter.new buf n) = .ok (some chunks)) ∧
      ∀ pre c post, chunks = pre ++ c :: post →
        let rest := post.flatten
        (rest ≠ [] → c.getLast? = some NL ∨
          (c.length = n ∧ NL ∉ c ∧ rest.head? ≠ some NL)) ∧
        (n < c.length + rest.length → NL ∉ rest.take (n + 1 - c.length)) ∧
        (c.length + rest.length ≤ n → rest = []) := by
  obtain ⟨cs, h1, h2, h3⟩ := collect_spec n hn buf.length buf [] (Nat.le_refl _)
  refine ⟨cs, h1, ?_⟩
  rintro pre c post rfl
  have h := h3.at.2
  have tail : (∀ j, c.length ≤ j → j ≤ n → (c ++ post.flatten)[j]? ≠ some NL) →
      NL ∉ post.flatten.take (n + 1 - c.length) := by
    intro hj hmem
    obtain ⟨i, hi, he⟩ := List.getElem_of_mem hmem
    have hi2 := hi
    simp only [List.length_take] at hi2
    apply hj (c.length + i) (by omega) (by omega)
    rw [List.getElem?_append_right (by omega)]
    simp only [List.getElem_take] at he
    rw [Nat.add_sub_cancel_left, List.getElem?_eq_getElem (by omega), he]
  refine ⟨?_, ?_, ?_⟩
  · intro hr
    rcases h with ⟨a, b⟩ | ⟨a, b, c1, d⟩ | ⟨a, b, c1⟩
    · exact absurd b hr
    · exact Or.inl c1
    · refine Or.inr ⟨b, ?_, ?_⟩
      · intro hmem
        obtain ⟨i, hi, he⟩ := List.getElem_of_mem hmem
        apply c1 i (by omega)
        rw [List.getElem?_append_left hi, List.getElem?_eq_getElem hi, he]
      · have := c1 n (Nat.le_refl _)
        rwa [List.getElem?_append_right (by omega), b, Nat.sub_self, ← List.head?_eq_getElem?] at this
  · intro hlt
    rcases h with ⟨a, b⟩ | ⟨a, b, c1, d⟩ | ⟨a, b, c1⟩
    · omega
    · exact tail d
    · exact tail fun j _ hj => c1 j hj
  · intro hle
    rcases h with ⟨a, b⟩ | ⟨a, b, c1, d⟩ | ⟨a, b, c1⟩
    · exact b
    · omega
    · omega

/-- **C03, consequence.** If no run of `n+1` bytes of the buffer is free of
newlines (every line, without its newline, has at most `n` bytes), every chunk
but the last ends with a newline: no line is ever cut. -/
theorem C03_short_lines_never_cut (buf : Bytes) (n : Nat) (hn : 1 ≤ n)
    (hshort : ∀ pre mid post, buf = pre ++ mid ++ post → mid.length = n + 1 → NL ∈ mid) :
    ∃ chunks, (∀ fuel, buf.length < fuel →
        Splitter.collect fuel (Splitter.new buf n) = .ok (some chunks)) ∧
      chunks.flatten = buf ∧
      ∀ pre c post, chunks = pre ++ c :: post → post ≠ [] → c.getLast? = some NL := by
  obtain ⟨cs, h1, h2, h3⟩ := collect_spec n hn buf.length buf [] (Nat.le_refl _)
  refine ⟨cs, h1, h2, ?_⟩
  rintro pre c post rfl hpost
  have hne : post.flatten ≠ [] := by
    cases post with
    | nil => exact absurd rfl hpost
    | cons p ps =>
      have : p ≠ [] := (ChunksOK.at (pre := pre ++ [c]) (post := ps) (by simpa using h3)).1
      simp [this]
  rcases h3.at.2 with ⟨a, b⟩ | ⟨a, b, c1, d⟩ | ⟨a, b, c1⟩
  · exact absurd b hne
  · exact c1
  · exfalso
    have hmem : NL ∈ (c ++ post.flatten).take (n + 1) := by
      apply hshort pre.flatten _ ((c ++ post.flatten).drop (n + 1))
      · rw [List.append_assoc, List.take_append_drop, ← h2]; simp
      · rw [List.length_take, List.length_append]; omega
    obtain ⟨i, hi, he⟩ := List.getElem_of_mem hmem
    have hi2 := hi
    simp only [List.length_take, List.length_append] at hi2
    simp only [List.getElem_take] at he
    apply c1 i (by omega)
    rw [List.getElem?_eq_getElem (by rw [List.length_append]; omega), he]

example : Splitter.collect 20 (Splitter.new b!"ab\ncd\nefg\nh" 6) =
    .ok (some [b!"ab\ncd\n", b!"efg\nh"]) := by decide

end Spout
