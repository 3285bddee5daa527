import Verif.Lemmas.Convert

/-! # Properties of `convert.ToInt` (C04, C05) -/

namespace Spout
open Spec

/-- C04 as a user expects it: accept exactly the int64 decimals, with their value. -/
def ToIntExact : Prop := ∀ (s : Bytes) (v : Int), toInt s = .ok v ↔ (Decimal s v ∧ InInt64 v)

/-- **C04 is false of the code**: `n*10+c` is computed modulo 2^64 with no
overflow check inside the loop, so "18446744073709551616" (2^64) is accepted as 0. -/
theorem C04_toInt_accepts_overflow : ¬ ToIntExact := by
  intro h
  have h1 : toInt b!"18446744073709551616" = .ok 0 := by decide +kernel
  obtain ⟨⟨ds, h0, hd, ⟨hs, hv⟩ | ⟨hs, hv⟩⟩, -⟩ := (h _ _).1 h1
  · subst hs; exact absurd hv (by decide)
  · injection hs with h1 _; exact absurd h1 (by decide)

/-- **C04, completeness (no restriction on length).** Every decimal string
whose value fits in int64 is accepted and parsed to that value, whatever
leading zeros it has. -/
theorem C04_toInt_accepts_all_decimals {s : Bytes} {v : Int} (h : Decimal s v) (hv : InInt64 v) :
    toInt s = .ok v := toInt_complete h hv

/-- **C04 (partial).** For inputs of at most 19 digits acceptance is exact.
Missing: longer inputs, where the code accepts out-of-range numbers
(`C04_toInt_accepts_overflow`); what it does there is
`C04_toInt_exact_mod_2_64`. -/
theorem C04_toInt_exact_partial (s : Bytes) (v : Int)
    (hlen : s.length ≤ 19 ∨ (s.length = 20 ∧ s.head? = some MINUS)) :
    toInt s = .ok v ↔ (Decimal s v ∧ InInt64 v) := by
  constructor
  · intro h
    obtain ⟨hv, ds, h0, hd, h⟩ := toInt_ok_iff.1 h
    have hl : ds.length ≤ 19 := by
      rcases h with ⟨rfl, -, -⟩ | ⟨rfl, -, -⟩
      · rcases hlen with h | ⟨h1, h2⟩
        · exact h
        · cases s with
          | nil => simp at h1
          | cons c cs =>
            simp at h2; subst h2
            exact absurd (hd _ (by simp)) not_isDigit_minus
      · simp at hlen; omega
    have hlt : digitsVal ds < 10 ^ 19 := by
      have := digitsAcc_lt 0 ds hd
      rw [digitsVal_eq]
      exact Nat.lt_of_lt_of_le (by simpa using this) (Nat.pow_le_pow_right (by omega) hl)
    have he : digitsVal ds % 18446744073709551616 = digitsVal ds := by
      apply Nat.mod_eq_of_lt; omega
    rw [he] at h
    refine ⟨⟨ds, h0, hd, ?_⟩, hv⟩
    rcases h with ⟨rfl, -, h⟩ | ⟨rfl, -, h⟩
    · exact Or.inl ⟨rfl, h⟩
    · exact Or.inr ⟨rfl, h⟩
  · rintro ⟨h, hv⟩; exact toInt_complete h hv

/-- **C04, exact behaviour on every input**: accepted inputs are exactly the
optional-minus digit strings whose magnitude *modulo 2^64* fits, and the result
is that reduced magnitude with the sign. -/
theorem C04_toInt_exact_mod_2_64 (s : Bytes) (v : Int) :
    toInt s = .ok v ↔ InInt64 v ∧ ∃ ds : Bytes, ds ≠ [] ∧ (∀ d ∈ ds, IsDigit d) ∧
      ((s = ds ∧ 0 ≤ v ∧ v = (digitsVal ds % 2 ^ 64 : Nat)) ∨
       (s = MINUS :: ds ∧ v ≤ 0 ∧ v = -((digitsVal ds % 2 ^ 64 : Nat) : Int))) :=
  toInt_ok_iff

/-- **C04, rejections.** Each rejection is reported for its own cause, and for
no other: the empty input, a lone minus sign, a byte that is not a digit. -/
theorem C04_rejections (s : Bytes) :
    (toInt s = .error .empty ↔ s = []) ∧
    (toInt s = .error .tooShort ↔ s = [MINUS]) ∧
    (toInt s = .error .invalidChar ↔
      (∃ d ∈ s.tail, ¬ IsDigit d) ∨ ∃ c, s.head? = some c ∧ c ≠ MINUS ∧ ¬ IsDigit c) ∧
    (toInt s = .error .overflow ↔ ∃ ds : Bytes, ds ≠ [] ∧ (∀ d ∈ ds, IsDigit d) ∧
      ((s = ds ∧ 2 ^ 63 ≤ digitsVal ds % 2 ^ 64) ∨
       (s = MINUS :: ds ∧ 2 ^ 63 < digitsVal ds % 2 ^ 64))) := by
  have hnd : ¬ IsDigit MINUS := by decide
  cases s with
  | nil =>
    refine ⟨by simp [toInt], by simp [toInt], by simp [toInt], ?_⟩
    constructor
    · intro h; simp [toInt] at h
    · rintro ⟨ds, h0, -, ⟨h, -⟩ | ⟨h, -⟩⟩
      · exact absurd h.symm h0
      · cases h
  | cons c rest =>
    by_cases hc : c = MINUS
    · subst hc
      cases rest with
      | nil =>
        refine ⟨by simp [toInt], by simp [toInt], by simp [toInt], ?_⟩
        constructor
        · intro h; simp [toInt] at h
        · rintro ⟨ds, h0, hd, ⟨h, -⟩ | ⟨h, -⟩⟩
          · subst h; exact absurd (hd MINUS (by simp)) hnd
          · injection h with _ h; exact absurd h.symm h0
      | cons d rest =>
        by_cases ha : ∀ x ∈ d :: rest, IsDigit x
        · have he : toInt (MINUS :: d :: rest) =
              if wrapU64 (digitsVal (d :: rest)) > 9223372036854775808 then .error .overflow
              else .ok (wrap64 (-(wrap64 (wrapU64 (digitsVal (d :: rest)))))) := by
            simp only [toInt, toIntLoop_zero, if_true, if_pos ha]
            simp
          have hno : ¬ ∃ x ∈ d :: rest, ¬ IsDigit x := fun ⟨x, h1, h2⟩ => h2 (ha x h1)
          refine ⟨?_, ?_, ?_, ?_⟩
          · rw [he]; split <;> simp
          · rw [he]; split <;> simp
          · rw [he]
            constructor
            · split <;> simp
            · rintro (h | ⟨c, h1, h2, -⟩)
              · exact absurd h hno
              · exact absurd (by simpa using h1.symm) h2
          · rw [he]
            constructor
            · intro h
              split at h
              · next hgt =>
                refine ⟨d :: rest, by simp, ha, Or.inr ⟨rfl, ?_⟩⟩
                simpa [wrapU64] using hgt
              · cases h
            · rintro ⟨ds, h0, hd, ⟨h, -⟩ | ⟨h, h1⟩⟩
              · subst h; exact absurd (hd MINUS (by simp)) hnd
              · injection h with _ h; subst h
                rw [if_pos]; simpa [wrapU64] using h1
        · have he : toInt (MINUS :: d :: rest) = .error .invalidChar := by
            simp only [toInt, toIntLoop_zero, if_true, if_neg ha]
            simp
          have hex : ∃ x ∈ d :: rest, ¬ IsDigit x := by
            apply Classical.byContradiction
            intro h; apply ha; intro x hx
            apply Classical.byContradiction
            intro h2; exact h ⟨x, hx, h2⟩
          refine ⟨by simp [he], by simp [he], ?_, ?_⟩
          · simp only [he, true_iff]; exact Or.inl hex
          · rw [he]
            constructor
            · intro h; cases h
            · rintro ⟨ds, h0, hd, ⟨h, -⟩ | ⟨h, -⟩⟩
              · subst h; exact absurd (hd MINUS (by simp)) hnd
              · injection h with _ h; subst h; exact absurd hd ha
    · by_cases ha : ∀ x ∈ c :: rest, IsDigit x
      · have he : toInt (c :: rest) =
            if wrapU64 (digitsVal (c :: rest)) > 9223372036854775807 then .error .overflow
            else .ok (wrap64 (wrapU64 (digitsVal (c :: rest)))) := by
          simp only [toInt, toIntLoop_zero, hc, if_false, if_pos ha]
          simp
        refine ⟨?_, ?_, ?_, ?_⟩
        · rw [he]; split <;> simp
        · rw [he]; split <;> simp [hc]
        · rw [he]
          constructor
          · split <;> simp
          · rintro (⟨x, h1, h2⟩ | ⟨x, h1, -, h2⟩)
            · exact absurd (ha x (by simp at h1; simp [h1])) h2
            · exact absurd (ha x (by simp at h1; simp [h1])) h2
        · rw [he]
          constructor
          · intro h
            split at h
            · next hgt =>
              refine ⟨c :: rest, by simp, ha, Or.inl ⟨rfl, ?_⟩⟩
              simp [wrapU64] at hgt; omega
            · cases h
          · rintro ⟨ds, h0, hd, ⟨h, h1⟩ | ⟨h, -⟩⟩
            · subst h
              rw [if_pos]; simp [wrapU64]; omega
            · injection h with h _; exact absurd h hc
      · have he : toInt (c :: rest) = .error .invalidChar := by
          simp only [toInt, toIntLoop_zero, hc, if_false, if_neg ha]
          simp
        refine ⟨by simp [he], by simp [he, hc], ?_, ?_⟩
        · simp only [he, true_iff]
          by_cases hd : IsDigit c
          · left
            apply Classical.byContradiction
            intro h; apply ha; intro x hx
            rcases List.mem_cons.1 hx with rfl | hx
            · exact hd
            · apply Classical.byContradiction
              intro h2; exact h ⟨x, hx, h2⟩
          · exact Or.inr ⟨c, rfl, hc, hd⟩
        · rw [he]
          constructor
          · intro h; cases h
          · rintro ⟨ds, h0, hd, ⟨h, -⟩ | ⟨h, -⟩⟩
            · subst h; exact absurd hd ha
            · injection h with h _; exact absurd h hc

/-- **C05.** Every int64 survives printing and parsing. -/
theorem C05_print_parse_roundtrip (n : Int) (h : InInt64 n) : toInt (itoa n) = .ok n :=
  toInt_complete (itoa_decimal n) h

/-- What is printed is the decimal notation of the number (so C05 is not about
an arbitrary encoding), without leading zeros. -/
theorem C05_print_is_decimal (n : Int) : Decimal (itoa n) n := itoa_decimal n

example : Decimal b!"-42" (-42) ∧ InInt64 (-42) :=
  ⟨⟨b!"42", by decide, by decide, Or.inr (by decide)⟩, by decide⟩
example : toInt b!"-9223372036854775808" = .ok (-9223372036854775808) := by decide +kernel
example : toInt b!"9223372036854775808" = .error .overflow := by decide +kernel
example : toInt b!"12x" = .error .invalidChar := by decide +kernel
example : itoa (-1203) = b!"-1203" := by simp [itoa, natDigits]

end Spout
