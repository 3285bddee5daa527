import Verif.Lemmas.Filter

/-! # Lemmas about `SortTags` -/

namespace Spout

/-- Tags in ascending key order (equal keys allowed). -/
def KeySorted (tags : List Tag) : Prop :=
  tags.Pairwise fun a b => bytesLt b.key a.key = false

theorem isSortedTags_iff (tags : List Tag) : isSortedTags tags = true ↔ KeySorted tags := by
  unfold KeySorted
  match tags with
  | [] => simp [isSortedTags]
  | [_] => simp [isSortedTags]
  | a :: b :: rest =>
    have ih := isSortedTags_iff (b :: rest)
    unfold KeySorted at ih
    simp only [isSortedTags, Bool.and_eq_true, Bool.not_eq_true', Tag.less]
    rw [ih, List.pairwise_cons (a := a)]
    constructor
    · rintro ⟨h1, h2⟩
      refine ⟨?_, h2⟩
      intro c hc
      rw [List.mem_cons] at hc
      rcases hc with rfl | hc
      · exact h1
      · exact bytesLe_trans h1 ((List.pairwise_cons.1 h2).1 c hc)
    · rintro ⟨h1, h2⟩
      exact ⟨h1 b (by simp), h2⟩

instance (tags : List Tag) : Decidable (KeySorted tags) :=
  decidable_of_iff _ (isSortedTags_iff tags)

/-- The remainder of a parsed line is a suffix of it, preceded by a space. -/
theorem parseTagsLoop_rest (m : Bytes) (f : Nat) (line : Bytes) (tags : List Tag) (p : Parsed)
    (h : parseTagsLoop m f line tags = .ok (some p)) :
    p.measurement = m ∧ (p.rest = [] ∨ ∃ hdr, line = hdr ++ SP :: p.rest) := by
  induction f generalizing line tags with
  | zero => simp [parseTagsLoop] at h
  | succ f ih =>
    rw [parseTagsLoop_unfold] at h
    cases line with
    | nil => simp at h; subst h; exact ⟨rfl, Or.inl rfl⟩
    | cons c cs =>
      simp only at h
      split at h
      · rename_i hc
        simp at h; subst h
        exact ⟨rfl, Or.inr ⟨[], by simp [hc]⟩⟩
      · have hk := tokL_append b!"= ," cs
        cases h2 : (tokL b!"= ," cs).2 with
        | nil => simp [h2] at h
        | cons e es =>
          rw [h2] at h hk
          simp only at h
          split at h
          · simp at h
          · split at h
            · simp at h
            · have hv := tokL_append b!", " es
              obtain ⟨h1, h3⟩ := ih _ _ h
              refine ⟨h1, ?_⟩
              rcases h3 with h3 | ⟨hdr, h3⟩
              · exact Or.inl h3
              · right
                refine ⟨c :: ((tokL b!"= ," cs).1 ++ e :: ((tokL b!", " es).1 ++ hdr)), ?_⟩
                rw [h3] at hv
                conv => lhs; rw [← hk, ← hv]
                simp

theorem parseTags_rest (line : Bytes) (p : Parsed) (h : parseTags line = .ok (some p)) :
    p.rest = [] ∨ ∃ hdr, line = hdr ++ SP :: p.rest := by
  rw [parseTags_eq] at h
  split at h
  · simp at h; subst h; exact Or.inl rfl
  · obtain ⟨-, h1 | ⟨hdr, h1⟩⟩ := parseTagsLoop_rest _ _ _ _ _ h
    · exact Or.inl h1
    · right
      refine ⟨(tokL b!", " line).1 ++ hdr, ?_⟩
      rw [List.append_assoc, ← h1, tokL_append]

/-- The canonical text of a parsed line with the given tags. -/
def canonLine (m : Bytes) (tags : List Tag) (rest : Bytes) : Bytes :=
  escapeMeasurement m ++ COMMA :: tagBytes tags ++ (if rest = [] then [] else SP :: rest)

theorem map_sort_get (S : Sorter) (mem : Bytes) (tags : List RTag) :
    (S.sort (fun t => t.key.get mem) tags).map (·.get mem) =
      S.sort (fun t : Tag => t.key) (tags.map (·.get mem)) := by
  have := S.natural (fun t : RTag => t.get mem) (fun t : Tag => t.key) tags
  exact this

/-- What `SortTags` emits. -/
theorem sortTags_escaped (S : Sorter) (line : Bytes) (p : Parsed) (pl : PLine)
    (hp : parseTags line = .ok (some p)) (hpl : newParsedLine line = .ok (some pl)) :
    (sortTags S pl).escaped =
      if KeySorted p.tags then line
      else canonLine p.measurement (S.sort (fun t => t.key) p.tags) p.rest := by
  obtain ⟨pl', h1, h2, h3, h4, h5, h6, h7, h8⟩ := newParsedLine_some hp
  rw [h1] at hpl; simp only [Go.ok.injEq, Option.some.injEq] at hpl; subst hpl
  unfold sortTags
  rw [h2, h7]
  by_cases hs : KeySorted p.tags
  · rw [if_pos ((isSortedTags_iff _).2 hs), if_pos hs, h3]
  · rw [if_neg (fun h => hs ((isSortedTags_iff _).1 h)), if_neg hs]
    simp only [h6, h8, map_sort_get, h7, h3, List.length_eq_zero_iff]
    unfold canonLine
    by_cases hr : p.rest = []
    · rw [if_pos hr, if_pos hr]; simp
    · rw [if_neg hr, if_neg hr]
      split
      · rename_i hlen
        have hd : line.drop (escapeMeasurement p.measurement ++ [COMMA]
            ++ tagBytes (S.sort (fun t => t.key) p.tags)).length = SP :: p.rest := by
          rcases parseTags_rest line p hp with h | ⟨hdr, h⟩
          · exact absurd h hr
          · have hl := congrArg List.length h
            simp only [List.length_append, List.length_cons] at hl hlen
            rw [h, List.drop_append, List.drop_eq_nil_of_le
              (by simp only [List.length_append, List.length_cons, List.length_nil] at hlen ⊢; omega)]
            have : (escapeMeasurement p.measurement ++ [COMMA]
              ++ tagBytes (S.sort (fun t => t.key) p.tags)).length - hdr.length = 0 := by
                simp only [List.length_append, List.length_cons, List.length_nil] at hlen ⊢; omega
            rw [this]; rfl
        rw [hd]
        simp
      · simp

theorem sortTags_cacheOK (S : Sorter) (line : Bytes) (pl : PLine)
    (hpl : newParsedLine line = .ok (some pl)) : (sortTags S pl).CacheOK := by
  have hn : pl.unescaped = none ∧ pl.hashed = none := by
    unfold newParsedLine at hpl
    obtain ⟨r, hr⟩ := parseTagsRef_safe line
    rw [hr] at hpl
    cases r with
    | none => simp at hpl
    | some q => simp at hpl; subst hpl; exact ⟨rfl, rfl⟩
  have : (sortTags S pl).unescaped = none ∧ (sortTags S pl).hashed = none := by
    unfold sortTags
    split
    · exact hn
    · simp only; split
      · exact hn
      · split <;> exact hn
  constructor
  · intro u h; rw [this.1] at h; cases h
  · intro u h; rw [this.2] at h; cases h

/-- When the line's memory is not overwritten, the tags seen by the rules are
the parsed tags (possibly reordered) and the measurement is the parsed one. -/
theorem sortTags_val_of_mem (S : Sorter) (line : Bytes) (p : Parsed) (pl : PLine)
    (hp : parseTags line = .ok (some p)) (hpl : newParsedLine line = .ok (some pl))
    (hmem : (sortTags S pl).mem = line) :
    (sortTags S pl).val.measurement = p.measurement ∧ ((sortTags S pl).val.tags).Perm p.tags := by
  obtain ⟨pl', h1, h2, h3, h4, h5, h6, h7, h8⟩ := newParsedLine_some hp
  rw [h1] at hpl; simp only [Go.ok.injEq, Option.some.injEq] at hpl; subst hpl
  have hm : (sortTags S pl').measurement = pl'.measurement := by
    unfold sortTags; split
    · rfl
    · simp only; split
      · rfl
      · split <;> rfl
  have ht : (sortTags S pl').tags.Perm pl'.tags := by
    unfold sortTags; split
    · exact List.Perm.refl _
    · simp only; split
      · exact S.perm _ _
      · split <;> exact S.perm _ _
  simp only [PLine.val, hmem, hm, h6, true_and]
  rw [← h7]
  exact ht.map _

end Spout
