import Verif.Model.Convert
import Verif.Spec.Decimal

namespace Spout
open Spec

/-- `digitsVal` with an accumulator. -/
def digitsAcc (n : Nat) (ds : Bytes) : Nat := ds.foldl (fun n c => n * 10 + (c.toNat - 48)) n

theorem digitsAcc_cons (n : Nat) (c : Byte) (cs : Bytes) :
    digitsAcc n (c :: cs) = digitsAcc (n * 10 + (c.toNat - 48)) cs := by
  simp only [digitsAcc, List.foldl_cons]

theorem digitsAcc_append (n : Nat) (a b : Bytes) :
    digitsAcc n (a ++ b) = digitsAcc (digitsAcc n a) b := by
  simp [digitsAcc, List.foldl_append]

theorem digitsVal_eq (ds : Bytes) : digitsVal ds = digitsAcc 0 ds := by
  simp only [digitsAcc, digitsVal]

theorem le_digitsAcc (n : Nat) (ds : Bytes) : n ≤ digitsAcc n ds := by
  induction ds generalizing n with
  | nil => exact Nat.le_refl _
  | cons c cs ih => rw [digitsAcc_cons]; exact Nat.le_trans (by omega) (ih _)

theorem digit_toNat {c : Byte} (h : IsDigit c) : 48 ≤ c.toNat ∧ c.toNat ≤ 57 := by
  obtain ⟨h1, h2⟩ := h
  rw [UInt8.le_iff_toNat_le] at h1 h2
  exact ⟨h1, h2⟩

theorem digit_sub {c : Byte} (h : IsDigit c) : (c - 48).toNat = c.toNat - 48 := by
  have := digit_toNat h
  rw [UInt8.toNat_sub_of_le _ _ h.1]; rfl

theorem digitsAcc_lt (n : Nat) (ds : Bytes) (hd : ∀ d ∈ ds, IsDigit d) :
    digitsAcc n ds < (n + 1) * 10 ^ ds.length := by
  induction ds generalizing n with
  | nil => simp [digitsAcc]
  | cons c cs ih =>
    have h1 := digit_toNat (hd c (by simp))
    have h2 := ih (n * 10 + (c.toNat - 48)) (fun d hd' => hd d (by simp [hd']))
    rw [digitsAcc_cons]
    calc _ < (n * 10 + (c.toNat - 48) + 1) * 10 ^ cs.length := h2
      _ ≤ ((n + 1) * 10) * 10 ^ cs.length := Nat.mul_le_mul_right _ (by omega)
      _ = (n + 1) * 10 ^ (c :: cs).length := by simp [Nat.pow_succ, Nat.mul_assoc, Nat.mul_comm]

/-- The loop succeeds exactly on digit strings and computes the value mod 2^64. -/
theorem toIntLoop_eq (ds : Bytes) (n : Nat) :
    toIntLoop ds (wrapU64 n) =
      if ∀ d ∈ ds, IsDigit d then some (wrapU64 (digitsAcc n ds)) else none := by
  induction ds generalizing n with
  | nil => simp [toIntLoop, digitsAcc]
  | cons c cs ih =>
    by_cases hc : IsDigit c
    · have hw : wrapU64 (wrapU64 n * 10 + (c - 48).toNat) =
          wrapU64 (n * 10 + (c.toNat - 48)) := by
        rw [digit_sub hc]; unfold wrapU64; omega
      have hc' : 48 ≤ c ∧ c ≤ 57 := hc
      simp only [toIntLoop, if_pos hc', hw, ih, digitsAcc_cons]
      simp [hc]
    · have hc' : ¬ (48 ≤ c ∧ c ≤ 57) := hc
      simp only [toIntLoop, if_neg hc']
      rw [if_neg]
      intro h; exact hc (h c (by simp))

theorem toIntLoop_zero (ds : Bytes) :
    toIntLoop ds 0 = if ∀ d ∈ ds, IsDigit d then some (wrapU64 (digitsVal ds)) else none := by
  have := toIntLoop_eq ds 0
  rw [digitsVal_eq]
  exact this

theorem not_isDigit_minus : ¬ IsDigit MINUS := by decide

/-- Exact description of `ToInt` on sign-less input. -/
theorem toInt_pos (c : Byte) (cs : Bytes) (hc : c ≠ MINUS) :
    toInt (c :: cs) =
      if ∀ d ∈ c :: cs, IsDigit d then
        if wrapU64 (digitsVal (c :: cs)) > 9223372036854775807 then .error .overflow
        else .ok (wrapU64 (digitsVal (c :: cs)) : Int)
      else .error .invalidChar := by
  unfold toInt
  simp only [hc, if_false, false_and]
  rw [toIntLoop_zero]
  by_cases h : ∀ d ∈ c :: cs, IsDigit d
  · rw [if_pos h, if_pos h]
    simp only
    split
    · rfl
    · rw [wrap64_of_inInt64 (by unfold InInt64; omega)]
  · rw [if_neg h, if_neg h]

/-- Exact description of `ToInt` on input with a minus sign. -/
theorem toInt_neg (ds : Bytes) :
    toInt (MINUS :: ds) =
      if ds = [] then .error .tooShort
      else if ∀ d ∈ ds, IsDigit d then
        if wrapU64 (digitsVal ds) > 9223372036854775808 then .error .overflow
        else .ok (-(wrapU64 (digitsVal ds) : Int))
      else .error .invalidChar := by
  unfold toInt
  simp only [if_true, true_and]
  by_cases h0 : ds = []
  · simp [h0]
  · have : ¬ ds.length < 1 := by have := List.length_pos_iff.mpr h0; omega
    rw [if_neg this, if_neg h0, toIntLoop_zero]
    by_cases h : ∀ d ∈ ds, IsDigit d
    · rw [if_pos h, if_pos h]
      simp only
      split
      · rfl
      · rename_i hle
        have : wrap64 (-wrap64 ((wrapU64 (digitsVal ds) : Nat) : Int))
            = -((wrapU64 (digitsVal ds) : Nat) : Int) := by
          generalize wrapU64 (digitsVal ds) = k at hle
          unfold wrap64; omega
        rw [this]
    · rw [if_neg h, if_neg h]

theorem isDigit_ofNat {k : Nat} (h : k < 10) : IsDigit (UInt8.ofNat (48 + k)) := by
  unfold IsDigit
  rw [UInt8.le_iff_toNat_le, UInt8.le_iff_toNat_le]
  rw [UInt8.toNat_ofNat']
  constructor <;> simp <;> omega

theorem toNat_digit {k : Nat} (h : k < 10) : (UInt8.ofNat (48 + k)).toNat = 48 + k := by
  rw [UInt8.toNat_ofNat']; omega

theorem natDigits_digits (n : Nat) : ∀ d ∈ natDigits n, IsDigit d := by
  fun_induction natDigits n with
  | case1 n h => intro d hd; rw [List.mem_singleton] at hd; subst hd; exact isDigit_ofNat h
  | case2 n h ih =>
    intro d hd
    simp only [List.mem_append, List.mem_singleton] at hd
    rcases hd with hd | hd
    · exact ih d hd
    · subst hd; exact isDigit_ofNat (by omega)

theorem natDigits_ne_nil (n : Nat) : natDigits n ≠ [] := by
  unfold natDigits; split <;> simp

theorem digitsVal_natDigits (n : Nat) : digitsVal (natDigits n) = n := by
  fun_induction natDigits n with
  | case1 n h => simp only [digitsVal, List.foldl_cons, List.foldl_nil, toNat_digit h]; omega
  | case2 n h ih =>
    have hr : n % 10 < 10 := by omega
    rw [digitsVal_eq, digitsAcc_append, ← digitsVal_eq, ih]
    simp only [digitsAcc, List.foldl_cons, List.foldl_nil, toNat_digit hr]; omega

theorem natDigits_length (n k : Nat) (hk : 1 ≤ k) (h : n < 10 ^ k) :
    (natDigits n).length ≤ k := by
  fun_induction natDigits n generalizing k with
  | case1 n h' => simpa using hk
  | case2 n h' ih =>
    obtain ⟨k', rfl⟩ : ∃ k', k = k' + 1 := ⟨k - 1, by omega⟩
    have : 1 ≤ k' := by
      rcases Nat.eq_zero_or_pos k' with h0 | h0
      · subst h0; simp at h; omega
      · exact h0
    rw [Nat.pow_succ] at h
    have := ih k' this (by omega)
    simp only [List.length_append, List.length_singleton]; omega

theorem itoa_decimal (n : Int) : Decimal (itoa n) n := by
  refine ⟨natDigits n.natAbs, natDigits_ne_nil _, natDigits_digits _, ?_⟩
  unfold itoa
  by_cases h : n < 0
  · right; rw [if_pos h, digitsVal_natDigits]; exact ⟨rfl, by omega⟩
  · left; rw [if_neg h, digitsVal_natDigits]; exact ⟨rfl, by omega⟩

/-- Every in-range decimal is accepted with its value. -/
theorem toInt_complete {s : Bytes} {v : Int} (h : Decimal s v) (hv : InInt64 v) :
    toInt s = .ok v := by
  obtain ⟨ds, h0, hd, ⟨rfl, rfl⟩ | ⟨rfl, rfl⟩⟩ := h
  · cases s with
    | nil => exact absurd rfl h0
    | cons c cs =>
      have hc : c ≠ MINUS := by
        intro hc; subst hc; exact not_isDigit_minus (hd _ (by simp))
      unfold InInt64 at hv
      rw [toInt_pos c cs hc, if_pos hd]
      have : wrapU64 (digitsVal (c :: cs)) = digitsVal (c :: cs) := by unfold wrapU64; omega
      rw [this, if_neg (by omega)]
  · unfold InInt64 at hv
    have : wrapU64 (digitsVal ds) = digitsVal ds := by unfold wrapU64; omega
    rw [toInt_neg, if_neg h0, if_pos hd, this, if_neg (by omega)]

/-- What acceptance implies in general: the value is right modulo 2^64. -/
theorem toInt_ok_iff {s : Bytes} {v : Int} :
    toInt s = .ok v ↔ InInt64 v ∧ ∃ ds : Bytes, ds ≠ [] ∧ (∀ d ∈ ds, IsDigit d) ∧
      ((s = ds ∧ 0 ≤ v ∧ v = (digitsVal ds % 18446744073709551616 : Nat)) ∨
       (s = MINUS :: ds ∧ v ≤ 0 ∧ v = -((digitsVal ds % 18446744073709551616 : Nat) : Int))) := by
  constructor
  · intro h
    cases s with
    | nil => simp [toInt] at h
    | cons c cs =>
      by_cases hc : c = MINUS
      · subst hc
        rw [toInt_neg] at h
        split at h
        · cases h
        · rename_i h0
          split at h
          · rename_i hd
            split at h
            · cases h
            · rename_i hlt
              injection h with h
              refine ⟨by unfold InInt64; omega, cs, h0, hd, Or.inr ⟨rfl, ?_, ?_⟩⟩
              · omega
              · rw [← h]; rfl
          · cases h
      · rw [toInt_pos c cs hc] at h
        split at h
        · rename_i hd
          split at h
          · cases h
          · rename_i hlt
            injection h with h
            refine ⟨by unfold InInt64; omega, c :: cs, by simp, hd, Or.inl ⟨rfl, ?_, ?_⟩⟩
            · omega
            · rw [← h]; rfl
        · cases h
  · rintro ⟨hv, ds, h0, hd, ⟨rfl, hp, h⟩ | ⟨rfl, hp, h⟩⟩
    · cases s with
      | nil => exact absurd rfl h0
      | cons c cs =>
        have hc : c ≠ MINUS := by
          intro hc; subst hc; exact not_isDigit_minus (hd _ (by simp))
        unfold InInt64 at hv
        have hw : wrapU64 (digitsVal (c :: cs)) = digitsVal (c :: cs) % 18446744073709551616 := rfl
        rw [toInt_pos c cs hc, if_pos hd, hw, if_neg (by omega), h]
    · unfold InInt64 at hv
      have hw : wrapU64 (digitsVal ds) = digitsVal ds % 18446744073709551616 := rfl
      rw [toInt_neg, if_neg h0, if_pos hd, hw, if_neg (by omega), h]

end Spout
