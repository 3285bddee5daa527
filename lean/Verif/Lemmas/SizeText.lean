import Verif.Lemmas.ConfigText

/-! # The texts of sizes -/

namespace Spout
open Spec

namespace Conf

theorem sstep {x c : Nat} (hx : x ≤ 1844674407370955161) (h1 : 48 ≤ c) (h2 : c ≤ 57) :
    (wrapU64 (x * 10) > wrapU64 (wrapU64 (x * 10) + (c - 48)) ↔ ¬ x * 10 + (c - 48) ≤ 18446744073709551615) ∧
    (x * 10 + (c - 48) ≤ 18446744073709551615 → wrapU64 (wrapU64 (x * 10) + (c - 48)) = x * 10 + (c - 48)) := by
  unfold wrapU64; omega

theorem scutoff (x : Nat) : x > 18446744073709551615 / 10 ↔ ¬ x ≤ 1844674407370955161 := by omega

/-- The digits of a size. -/
theorem sizeDigits_eq (ds rest : Bytes) (x : Nat) (h : ∀ d ∈ ds, IsDigit d) (hr : NoDigit rest) (hx : x ≤ 18446744073709551615) :
    sizeDigits x (ds ++ rest) = if digitsAcc x ds ≤ 18446744073709551615 then some (digitsAcc x ds, rest) else none := by
  induction ds generalizing x with
  | nil =>
    rw [if_pos (by simpa [digitsAcc] using hx)]
    cases rest with
    | nil => rfl
    | cons c s =>
      have : ¬ (48 ≤ c ∧ c ≤ 57) := hr c rfl
      simp only [List.nil_append, sizeDigits, if_neg this, digitsAcc, List.foldl_nil]
  | cons c ds ih =>
    have hc := h c (by simp)
    obtain ⟨b1, b2⟩ := digit_toNat hc
    rw [List.cons_append, digitsAcc_cons]
    unfold sizeDigits
    have hc' : 48 ≤ c ∧ c ≤ 57 := hc
    rw [if_pos hc']
    have hle := le_digitsAcc (x * 10 + (c.toNat - 48)) ds
    by_cases hcut : x ≤ 1844674407370955161
    · rw [if_neg (fun h => (scutoff x).1 h hcut)]
      obtain ⟨s1, s2⟩ := sstep hcut b1 b2
      by_cases hv : x * 10 + (c.toNat - 48) ≤ 18446744073709551615
      · have hng : ¬ (wrapU64 (x * 10) > x * 10 + (c.toNat - 48)) := by
          have := s2 hv
          intro hh
          exact s1.1 (by rw [this]; exact hh) hv
        simp only [s2 hv, if_neg hng]
        exact ih _ (fun d hd => h d (by simp [hd])) hv
      · simp only [if_pos (s1.2 hv)]
        rw [if_neg]; omega
    · rw [if_pos ((scutoff x).2 hcut), if_neg]; omega

theorem isSpace_iff (c : Byte) : isSpace c = true ↔ IsSpace c := by unfold isSpace IsSpace; simp

theorem dropWhile_space {sp rest : Bytes} (h : ∀ c ∈ sp, IsSpace c) : (sp ++ rest).dropWhile isSpace = rest.dropWhile isSpace :=
  List.dropWhile_append_of_pos fun c hc => (isSpace_iff c).2 (h c hc)

theorem dropWhile_none {l : Bytes} (h : ∀ c, l.head? = some c → ¬ IsSpace c) : l.dropWhile isSpace = l := by
  cases l with
  | nil => rfl
  | cons c s =>
    have : isSpace c = false := by
      cases hb : isSpace c with
      | false => rfl
      | true => exact absurd ((isSpace_iff c).1 hb) (h c rfl)
    simp [this]

theorem trim_eq {sp1 u sp2 : Bytes} (h1 : ∀ c ∈ sp1, IsSpace c) (hu : ∀ c ∈ u, ¬ IsSpace c) (h2 : ∀ c ∈ sp2, IsSpace c) : trimAscii (sp1 ++ u ++ sp2) = u := by
  unfold trimAscii
  rw [List.append_assoc, dropWhile_space h1]
  cases u with
  | nil =>
    have : (sp2.dropWhile isSpace) = [] := by
      have := dropWhile_space (rest := []) h2
      rw [List.append_nil] at this
      rw [this]; rfl
    rw [List.nil_append, this]; rfl
  | cons c s =>
    rw [dropWhile_none (l := c :: s ++ sp2) (fun d hd => by
      have : c = d := by simpa using hd
      subst this; exact hu c (by simp))]
    rw [List.reverse_append, dropWhile_space (fun d hd => h2 d (List.mem_reverse.1 hd)), dropWhile_none, List.reverse_reverse]
    intro d hd
    exact hu d (List.mem_reverse.1 (List.mem_of_mem_head? hd))

theorem space_split (s : Bytes) : ∃ sp rest, s = sp ++ rest ∧ (∀ c ∈ sp, IsSpace c) ∧ rest = s.dropWhile isSpace := by
  refine ⟨s.takeWhile isSpace, s.dropWhile isSpace, List.takeWhile_append_dropWhile.symm, ?_, rfl⟩
  intro c hc
  have := List.all_takeWhile (p := isSpace) (l := s)
  rw [List.all_eq_true] at this
  exact (isSpace_iff c).1 (this c hc)

theorem trim_split (s : Bytes) : ∃ sp1 sp2, s = sp1 ++ trimAscii s ++ sp2 ∧ (∀ c ∈ sp1, IsSpace c) ∧ (∀ c ∈ sp2, IsSpace c) := by
  obtain ⟨sp1, r1, e1, h1, d1⟩ := space_split s
  obtain ⟨sp2, r2, e2, h2, d2⟩ := space_split r1.reverse
  refine ⟨sp1, sp2.reverse, ?_, h1, fun c hc => h2 c (List.mem_reverse.1 hc)⟩
  have : trimAscii s = r2.reverse := by unfold trimAscii; rw [← d1, ← d2]
  rw [this, List.append_assoc, ← List.reverse_append, ← e2, List.reverse_reverse, e1]

/-! ## Units of size -/

theorem lower_ge {c : Byte} (h : 128 ≤ c) : lowerByte c = c := by
  unfold lowerByte
  rw [if_neg]
  rintro ⟨-, h2⟩
  exact absurd (UInt8.le_trans h h2) (by decide)

/-- A byte of which the small letter is a letter. -/
theorem lower_letter {c : Byte} (h1 : 97 ≤ lowerByte c) (h2 : lowerByte c ≤ 122) : c < 128 ∧ ¬ IsSpace c ∧ ¬ IsDigit c := by
  refine ⟨?_, ?_, ?_⟩
  · rcases UInt8.lt_or_le c 128 with h | h
    · exact h
    · rw [lower_ge h] at h2
      exact absurd (UInt8.le_trans h h2) (by decide)
  · intro hs
    have hlt : c ≤ 32 := by
      rcases hs with ⟨-, h⟩ | h
      · exact UInt8.le_trans h (by decide)
      · rw [h]; decide
    have : lowerByte c = c := by
      unfold lowerByte
      rw [if_neg]
      rintro ⟨h, -⟩
      exact absurd (UInt8.le_trans h hlt) (by decide)
    rw [this] at h1
    exact absurd (UInt8.le_trans h1 hlt) (by decide)
  · intro hs
    have hlt : c ≤ 57 := hs.2
    have : lowerByte c = c := by
      unfold lowerByte
      rw [if_neg]
      rintro ⟨h, -⟩
      exact absurd (UInt8.le_trans h hlt) (by decide)
    rw [this] at h1
    exact absurd (UInt8.le_trans h1 hlt) (by decide)

theorem sizeUnits_letters : ∀ p ∈ sizeUnits, ∀ c ∈ p.1, 97 ≤ c ∧ c ≤ 122 := by decide

theorem sizeUnit_facts {u : Bytes} {m : Nat} (h : (u.map lowerByte, m) ∈ sizeUnits) : ∀ c ∈ u, c < 128 ∧ ¬ IsSpace c ∧ ¬ IsDigit c := by
  intro c hc
  have := sizeUnits_letters _ h (lowerByte c) (List.mem_map.2 ⟨c, hc, rfl⟩)
  exact lower_letter this.1 this.2

theorem sizeUnit_of {T : SizeOps} {u : Bytes} {m : Nat} (h : (u, m) ∈ sizeUnits) : sizeUnit T u = some m ∧ 1 ≤ m := by
  simp only [sizeUnits, List.mem_cons, Prod.mk.injEq, List.not_mem_nil, or_false] at h
  rcases h with ⟨rfl, rfl⟩ | ⟨rfl, rfl⟩ | ⟨rfl, rfl⟩ | ⟨rfl, rfl⟩ | ⟨rfl, rfl⟩ | ⟨rfl, rfl⟩ | ⟨rfl, rfl⟩ | ⟨rfl, rfl⟩ | ⟨rfl, rfl⟩ | ⟨rfl, rfl⟩ | ⟨rfl, rfl⟩ |
    ⟨rfl, rfl⟩ | ⟨rfl, rfl⟩ | ⟨rfl, rfl⟩ <;> exact ⟨rfl, by decide⟩

theorem sizeUnit_mem {T : SizeOps} {u : Bytes} {m : Nat} (h : sizeUnit T u = some m) : (u, m) ∈ sizeUnits ∨ T.longUnit u = some m := by
  unfold sizeUnit at h
  repeat' split at h
  all_goals first
    | (left; rename_i e; cases h; rcases e with rfl | rfl <;> decide)
    | exact Or.inr h

theorem size_over (val m : Nat) (hm : 1 ≤ m) : val > 18446744073709551615 / m ↔ ¬ val * m ≤ 18446744073709551615 := by
  have := Nat.le_div_iff_mul_le (x := val) (y := 18446744073709551615) (k := m) hm
  constructor
  · intro h hh; have := this.2 hh; omega
  · intro h
    have : ¬ val ≤ 18446744073709551615 / m := fun hh => h (this.1 hh)
    omega

instance (u : Bytes) : Decidable (IsBits u) := by unfold IsBits; infer_instance

/-- What a number, white space, a unit and white space are read as. -/
theorem size_eq {T : SizeOps} (hT : SizeOpsOk T) {ds sp1 u sp2 : Bytes} (hd : ∀ c ∈ ds, IsDigit c) (hne : ds ≠ []) (h1 : ∀ c ∈ sp1, IsSpace c) (h2 : ∀ c ∈ sp2, IsSpace c)
    (hu : ∀ c ∈ u, c < 128 ∧ ¬ IsSpace c ∧ ¬ IsDigit c) :
    parseSize T (ds ++ sp1 ++ u ++ sp2) =
      if ¬ digitsVal ds ≤ 18446744073709551615 ∨ IsBits u then none
      else match sizeUnit T (u.map lowerByte) with
        | none => none
        | some m => if digitsVal ds > 18446744073709551615 / m then none else some (wrapU64 (digitsVal ds * m)) := by
  have hsp : ∀ c : Byte, IsSpace c → c < 128 ∧ ¬ IsDigit c := by
    intro c hs
    have hlt : c ≤ 32 := by
      rcases hs with ⟨-, h⟩ | h
      · exact UInt8.le_trans h (by decide)
      · rw [h]; decide
    exact ⟨UInt8.lt_of_le_of_lt hlt (by decide), fun hd => absurd (UInt8.le_trans hd.1 hlt) (by decide)⟩
  have hall : ∀ c ∈ sp1 ++ u ++ sp2, c < 128 ∧ ¬ IsDigit c := by
    intro c hc
    rcases List.mem_append.1 hc with hc | hc
    · rcases List.mem_append.1 hc with hc | hc
      · exact hsp c (h1 c hc)
      · exact ⟨(hu c hc).1, (hu c hc).2.2⟩
    · exact hsp c (h2 c hc)
  have hnd : NoDigit (sp1 ++ u ++ sp2) := fun c hc => (hall c (List.mem_of_mem_head? hc)).2
  have hsd := sizeDigits_eq ds (sp1 ++ u ++ sp2) 0 hd hnd (by decide)
  rw [← digitsVal_eq] at hsd
  have ea : ds ++ sp1 ++ u ++ sp2 = ds ++ (sp1 ++ u ++ sp2) := by simp [List.append_assoc]
  have htrim : T.trim (sp1 ++ u ++ sp2) = u := by
    rw [hT.trim _ fun c hc => (hall c hc).1]
    exact trim_eq h1 (fun c hc => (hu c hc).2.1) h2
  have hlow : T.lower u = u.map lowerByte := hT.lower u fun c hc => (hu c hc).1
  rw [ea]
  unfold parseSize
  rw [hsd]
  by_cases hv : digitsVal ds ≤ 18446744073709551615
  · rw [if_pos hv]
    simp only
    have hnr : ¬ (ds ++ (sp1 ++ u ++ sp2) ≠ [] ∧ sp1 ++ u ++ sp2 = ds ++ (sp1 ++ u ++ sp2)) := by
      rintro ⟨-, h⟩
      have hl := congrArg List.length h
      rw [List.length_append (as := ds)] at hl
      have : 0 < ds.length := List.length_pos_iff.2 hne
      omega
    rw [if_neg hnr, htrim, hlow]
    by_cases hb : IsBits u
    · rw [if_pos (by simpa [IsBits] using hb), if_pos (Or.inr hb)]
    · rw [if_neg (by simpa [IsBits] using hb), if_neg (by rintro (h | h); exact h hv; exact hb h)]
      cases sizeUnit T (u.map lowerByte) <;> rfl
  · rw [if_neg hv, if_pos (Or.inl hv)]

/-- What can be read as a size. -/
theorem size_syntax {T : SizeOps} (hT : SizeOpsOk T) {s : Bytes} {n : Nat} (ha : ∀ c ∈ s, c < 128) (h : parseSize T s = some n) :
    (s = [] ∧ n = 0) ∨ SizeText s n ∨
      ∃ (ds sp1 u sp2 : Bytes) (m : Nat), s = ds ++ sp1 ++ u ++ sp2 ∧ (∀ c ∈ ds, IsDigit c) ∧ ds ≠ [] ∧ (∀ c ∈ sp1, IsSpace c) ∧ (∀ c ∈ sp2, IsSpace c) ∧
        T.longUnit (u.map lowerByte) = some m ∧ n = digitsVal ds * m := by
  obtain ⟨ds, rest, e, hd, hn⟩ := digits_split s
  have hsd := sizeDigits_eq ds rest 0 hd hn (by decide)
  rw [← e, ← digitsVal_eq] at hsd
  have har : ∀ c ∈ rest, c < 128 := fun c hc => ha c (by rw [e]; exact List.mem_append_right _ hc)
  obtain ⟨sp1, sp2, et, h1, h2⟩ := trim_split rest
  have hau : ∀ c ∈ trimAscii rest, c < 128 := fun c hc => har c (by
    rw [et]; exact List.mem_append_left _ (List.mem_append_right _ hc))
  unfold parseSize at h
  rw [hsd] at h
  by_cases hv : digitsVal ds ≤ 18446744073709551615
  · rw [if_pos hv] at h
    simp only at h
    rw [hT.trim rest har, hT.lower _ hau] at h
    split at h
    · cases h
    · rename_i hne
      split at h
      · cases h
      · rename_i hb
        split at h
        · cases h
        · rename_i m hm
          split at h
          · cases h
          · rename_i hle
            by_cases hds : ds = []
            · left
              subst hds
              have hs : s = [] := by
                by_contra hs
                exact hne ⟨hs, e.symm⟩
              refine ⟨hs, ?_⟩
              have : digitsVal [] = 0 := rfl
              rw [this] at h
              cases h
              rw [Nat.zero_mul]; rfl
            · right
              have es : s = ds ++ sp1 ++ trimAscii rest ++ sp2 := by
                rw [e, List.append_assoc, List.append_assoc, ← List.append_assoc sp1, ← et]
              rcases sizeUnit_mem hm with hmem | hlong
              · left
                obtain ⟨-, hm1⟩ := sizeUnit_of (T := T) hmem
                refine ⟨ds, sp1, trimAscii rest, sp2, m, es, hd, hds, h1, h2, hmem, by simpa [IsBits] using hb, ?_⟩
                have hle2 : digitsVal ds * m ≤ 18446744073709551615 := by
                  by_contra hc
                  exact hle ((size_over _ _ hm1).2 hc)
                have : n = wrapU64 (digitsVal ds * m) := by cases h; rfl
                rw [this]
                exact Nat.mod_eq_of_lt (by omega)
              · right
                refine ⟨ds, sp1, trimAscii rest, sp2, m, es, hd, hds, h1, h2, hlong, ?_⟩
                have : n = wrapU64 (digitsVal ds * m) := by cases h; rfl
                rw [this]
                rcases Nat.eq_zero_or_pos m with hm0 | hm1
                · rw [hm0, Nat.mul_zero]; rfl
                · have hle2 : digitsVal ds * m ≤ 18446744073709551615 := by
                    by_contra hc
                    exact hle ((size_over _ _ hm1).2 hc)
                  exact Nat.mod_eq_of_lt (by omega)
  · rw [if_neg hv] at h; cases h

end Conf
end Spout
