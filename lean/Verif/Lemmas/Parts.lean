import Verif.Lemmas.FilterSort

/-! # When the parts of a parsed line are expressible in escaped form -/

namespace Spout

theorem hasPair_append_left {a b : Byte} {x : Bytes} (y : Bytes) (h : HasPair a b x) :
    HasPair a b (x ++ y) := by
  obtain ⟨u, v, rfl⟩ := h
  exact ⟨u, v ++ y, by simp⟩

theorem hasPair_append_right {a b : Byte} {x : Bytes} (y : Bytes) (h : HasPair a b x) :
    HasPair a b (y ++ x) := by
  obtain ⟨u, v, rfl⟩ := h
  exact ⟨y ++ u, v, by simp⟩

/-- Without double backslashes, unescaping leaves no backslash in front of an
escapable byte. -/
theorem unescL_no_pair (t : Bytes) (h : ¬ HasPair BS BS t) (d : Byte) (hd : Escapable d) :
    ¬ HasPair BS d (unescL t) := by
  fun_induction unescL t with
  | case1 => exact not_hasPair_nil _ _
  | case2 c => rw [hasPair_cons]; simp [not_hasPair_nil]
  | case3 c e rest hc ih =>
    rw [hasPair_cons]
    rintro (⟨h1, -⟩ | h1)
    · subst h1; exact absurd hc.2 (by decide)
    · refine ih ?_ h1
      intro h2; exact h (hasPair_append_right [c, e] h2)
  | case4 c e rest hc ih =>
    rw [hasPair_cons]
    rintro (⟨h1, h2⟩ | h1)
    · subst h1
      have he : ¬ Escapable e := fun he => hc ⟨rfl, he⟩
      have heb : e ≠ BS := by
        rintro rfl; exact h ⟨[], rest, rfl⟩
      rw [unescL_cons_of_ne _ _ heb] at h2
      simp at h2; subst h2; exact he hd
    · refine ih ?_ h1
      intro h2; exact h (hasPair_append_right [c] h2)

theorem unescL_getLast (t : Bytes) : (unescL t).getLast? = t.getLast? := by
  fun_induction unescL t with
  | case1 => rfl
  | case2 => rfl
  | case3 c d rest hc ih =>
    cases rest with
    | nil => simp [unescL]
    | cons x xs =>
      have : unescL (x :: xs) ≠ [] := by rw [ne_eq, unescL_length_eq_zero]; simp
      obtain ⟨y, ys, hy⟩ := List.exists_cons_of_ne_nil this
      rw [hy, List.getLast?_cons_cons, ← hy, ih]
      simp
  | case4 c d rest hc ih =>
    have : unescL (d :: rest) ≠ [] := by rw [ne_eq, unescL_length_eq_zero]; simp
    obtain ⟨y, ys, hy⟩ := List.exists_cons_of_ne_nil this
    rw [hy, List.getLast?_cons_cons, ← hy, ih, List.getLast?_cons_cons]

/-- A token followed by something does not end in a backslash. -/
theorem tokL_last (til s : Bytes) (h : (tokL til s).2 ≠ []) : (tokL til s).1.getLast? ≠ some BS := by
  match s with
  | [] => simp [tokL]
  | [c] =>
    simp only [tokL] at h ⊢
    split
    · simp
    · rename_i hc; rw [if_neg hc] at h; exact absurd rfl h
  | c :: d :: cs =>
    simp only [tokL] at h ⊢
    rcases tokSplit_rem til c (d :: cs) with h1 | ⟨e, r, h1, he, hl⟩
    · exact absurd h1 h
    · rw [lastD_eq]; simpa using hl

/-- The byte after a token is one of the delimiters. -/
theorem tokL_delim (til s : Bytes) (e : Byte) (es : Bytes) (h : (tokL til s).2 = e :: es) : e ∈ til := by
  match s with
  | [] => simp [tokL] at h
  | [c] =>
    simp only [tokL] at h
    split at h
    · rename_i hc; simp at h; rw [← h.1]; exact hc
    · simp at h
  | c :: d :: cs =>
    simp only [tokL] at h
    rcases tokSplit_rem til c (d :: cs) with h1 | ⟨e', r, h1, he, hl⟩
    · rw [h1] at h; cases h
    · rw [h1] at h; injection h with h _; subst h; exact he

theorem tokL_ne_nil (til s : Bytes) (h : 2 ≤ s.length) : (tokL til s).1 ≠ [] := by
  match s with
  | [] => simp at h
  | [c] => simp at h
  | c :: d :: cs => simp [tokL]

theorem partOK_of_tok (t : Bytes) (hne : t ≠ []) (hl : t.getLast? ≠ some BS)
    (hp : ¬ HasPair BS BS t) : PartOK (unescL t) := by
  refine ⟨?_, ?_, ?_⟩
  · rw [ne_eq, unescL_length_eq_zero]; exact hne
  · rw [unescL_getLast]; exact hl
  · exact unescL_no_pair t hp DQ (by decide)

theorem parseTagsLoop_parts (m : Bytes) (f : Nat) (line : Bytes) (tags : List Tag) (p : Parsed)
    (h : parseTagsLoop m f line tags = .ok (some p)) (hr : p.rest ≠ [])
    (hbb : ¬ HasPair BS BS line) :
    ∀ t ∈ p.tags, t ∈ tags ∨ (PartOK t.key ∧ PartOK t.value) := by
  induction f generalizing line tags with
  | zero => simp [parseTagsLoop] at h
  | succ f ih =>
    rw [parseTagsLoop_unfold] at h
    cases line with
    | nil => simp at h; subst h; exact absurd rfl hr
    | cons c cs =>
      simp only at h
      split at h
      · simp at h; subst h; intro t ht; exact Or.inl ht
      · have hk := tokL_append b!"= ," cs
        have hkl := tokL_last b!"= ," cs
        have hkne := tokL_ne_nil b!"= ," cs
        cases h2 : (tokL b!"= ," cs).2 with
        | nil => simp [h2] at h
        | cons e es =>
          rw [h2] at h hk hkl
          simp only at h
          split at h
          · simp at h
          · split at h
            · simp at h
            · rename_i he hvne
              have hv := tokL_append b!", " es
              have hvl := tokL_last b!", " es
              have hes : es ≠ [] := by rintro rfl; simp [tokL, unescL] at hvne
              have hbbcs : ¬ HasPair BS BS cs := fun h => hbb (hasPair_append_right [c] h)
              have hbbK : ¬ HasPair BS BS (tokL b!"= ," cs).1 := fun h =>
                hbbcs (by rw [← hk]; exact hasPair_append_left _ h)
              have hbbes : ¬ HasPair BS BS es := fun h =>
                hbbcs (by rw [← hk]; exact hasPair_append_right _ (hasPair_append_right [e] h))
              have hbbV : ¬ HasPair BS BS (tokL b!", " es).1 := fun h =>
                hbbes (by rw [← hv]; exact hasPair_append_left _ h)
              have hbbR : ¬ HasPair BS BS (tokL b!", " es).2 := fun h =>
                hbbes (by rw [← hv]; exact hasPair_append_right _ h)
              have hRne : (tokL b!", " es).2 ≠ [] := by
                intro h0
                rw [h0] at h
                cases f with
                | zero => simp [parseTagsLoop] at h
                | succ f =>
                  rw [parseTagsLoop_unfold] at h
                  simp at h; subst h; exact hr rfl
              have hlen : 2 ≤ cs.length := by
                have := congrArg List.length hk
                have h3 : 0 < es.length := List.length_pos_iff.2 hes
                simp only [List.length_append, List.length_cons] at this
                omega
              intro t ht
              rcases ih _ _ h hbbR t ht with h4 | h4
              · rw [List.mem_append, List.mem_singleton] at h4
                rcases h4 with h4 | rfl
                · exact Or.inl h4
                · right
                  refine ⟨partOK_of_tok _ (hkne hlen) (hkl (by simp)) hbbK,
                    partOK_of_tok _ ?_ (hvl hRne) hbbV⟩
                  intro h0; rw [h0] at hvne; exact hvne rfl
              · exact Or.inr h4

/-- A line with fields and without a double backslash has only expressible parts. -/
theorem parseTags_parts (line : Bytes) (p : Parsed) (h : parseTags line = .ok (some p))
    (hr : p.rest ≠ []) (hbb : ¬ HasPair BS BS line) :
    MeasOK p.measurement ∧ ∀ t ∈ p.tags, PartOK t.key ∧ PartOK t.value := by
  have hk := tokL_append b!", " line
  rw [parseTags_eq] at h
  split at h
  · simp at h; subst h; exact absurd rfl hr
  · rename_i hrem
    have hbbM : ¬ HasPair BS BS (tokL b!", " line).1 := fun h =>
      hbb (by rw [← hk]; exact hasPair_append_left _ h)
    have hbbR : ¬ HasPair BS BS (tokL b!", " line).2 := fun h =>
      hbb (by rw [← hk]; exact hasPair_append_right _ h)
    obtain ⟨hm, hrest⟩ := parseTagsLoop_rest _ _ _ _ _ h
    have hlen : 2 ≤ line.length := by
      rcases hrest with h0 | ⟨hdr, h0⟩
      · exact absurd h0 hr
      · have h1 := congrArg List.length h0
        have h2 := tokL_length b!", " line
        have h3 : 0 < p.rest.length := List.length_pos_iff.2 hr
        simp only [List.length_append, List.length_cons] at h1
        omega
    refine ⟨?_, ?_⟩
    · rw [hm]
      exact ⟨partOK_of_tok _ (tokL_ne_nil _ _ hlen) (tokL_last _ _ hrem) hbbM,
        unescL_no_pair _ hbbM EQ (by decide)⟩
    · intro t ht
      rcases parseTagsLoop_parts _ _ _ _ _ h hr hbbR t ht with h0 | h0
      · simp at h0
      · exact h0

end Spout
