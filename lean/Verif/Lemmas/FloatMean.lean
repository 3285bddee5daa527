import Verif.Lemmas.FloatStep
import Verif.Spec.Series

/-! # Lemmas about the average of many samples -/

namespace Spout
open Spec

attribute [local irreducible] oneN infBits maxU

theorem two_le_natAbs {o : Nat} {u : Int} (h : 2 * (o : Int) ≤ u) : 2 * o ≤ u.natAbs := by omega

/-- Within the range of the samples. -/
theorem mean_range (other : Bytes → Option F64) (lo hi H : Int) (hH : 2 * H ≤ maxU) (hlo : -H ≤ lo) (hhi : hi ≤ H) :
    ∀ (xs : List F64) (a : F64) (n : Int), a.Finite → lo ≤ a.units → a.units ≤ hi →
      (∀ x ∈ xs, x.Finite ∧ lo ≤ x.units ∧ x.units ≤ hi) → 1 ≤ n → n + xs.length < 2 ^ 63 →
      ∃ m : F64, runningMeanF (binary64 other) a n xs = m ∧ m.Finite ∧ lo ≤ m.units ∧ m.units ≤ hi := by
  intro xs
  induction xs with
  | nil => intro a n h1 h2 h3 _ _ _; exact ⟨a, rfl, h1, h2, h3⟩
  | cons x xs ih =>
    intro a n h1 h2 h3 h4 h5 h6
    obtain ⟨x1, x2, x3⟩ := h4 x (by simp)
    simp only [List.length_cons] at h6
    obtain ⟨s1, s2⟩ := step_fin (n := n + 1) (H := H) h1 x1 (by omega) (by omega) hH (abs_le.2 (by omega)) (abs_le.2 (by omega))
    obtain ⟨_, c2, _⟩ := ofInt_fin (n + 1) (by omega) (by omega)
    have hb := stepU_between (lo := lo) (hi := hi) (rn_units_one a) (rn_units_one x) (c := (F64.ofInt (n + 1)).units.natAbs)
      (two_le_natAbs c2) ⟨h2, h3⟩ ⟨x2, x3⟩
    rw [← s2] at hb
    exact ih (a.step x (n + 1)) (n + 1) s1 hb.1 hb.2 (fun y hy => h4 y (by simp [hy])) (by omega) (by push_cast at h6 ⊢; omega)

/-- The error of one step. -/
theorem stepU_error {a b M : Int} {n : Nat} (hn : 2 ≤ n) (h1 : |a| ≤ M) (h2 : |b| ≤ M) :
    2 ^ 53 * |n * stepU a b (n * oneN) - ((n - 1) * a + b)| ≤ 6 * M + n * M + n * 2 ^ 52 := by
  have ho := oneN_pos
  have hc : 2 * oneN ≤ n * oneN := Nat.mul_le_mul_right _ hn
  have hQ : rn (rn (b - a) 1 * oneN) (n * oneN) = rn (rn (b - a) 1) n := by
    refine rn_eq (by omega) (by omega) ?_
    push_cast; ring
  obtain ⟨D, hD⟩ : ∃ D, D = rn (b - a) 1 := ⟨_, rfl⟩
  obtain ⟨Q, hQd⟩ : ∃ Q, Q = rn D n := ⟨_, rfl⟩
  have eD := rn_error_one (b - a)
  have eQ := rn_error D n (by omega)
  rw [← hD] at eD
  rw [← hQd] at eQ
  have hbet : (a + Q ≤ max a b) ∧ min a b ≤ a + Q := by
    rw [hQd, hD, ← hQ]
    rcases Int.le_total a b with h | h
    · have := quotient_le (d := b - a) (by omega) hc
      rw [max_eq_right h, min_eq_left h]
      omega
    · have := quotient_le (d := a - b) (by omega) hc
      have e1 : b - a = -(a - b) := by ring
      rw [e1, rn_neg _ 1 (by decide), Int.neg_mul, rn_neg _ _ (by omega), max_eq_left h, min_eq_right h]
      omega
  have hR : stepU a b (n * oneN) = rn (a + Q) 1 := by unfold stepU; rw [hQ, hQd, hD]
  have eR := rn_error_one (a + Q)
  rw [← hR] at eR
  have haq : |a + Q| ≤ M := by
    rw [abs_le] at h1 h2 ⊢
    rcases max_cases a b with h | h <;> rcases min_cases a b with h' | h' <;> omega
  have hba : |b - a| ≤ 2 * M := by
    rw [abs_le] at h1 h2 ⊢
    omega
  obtain ⟨R, hRd⟩ : ∃ R, R = stepU a b (n * oneN) := ⟨_, rfl⟩
  rw [← hRd] at eR ⊢
  have hDle : |D| ≤ 4 * M := by
    have h3 : |D| ≤ |D - (b - a)| + |b - a| := by
      have := abs_add_le (D - (b - a)) (b - a)
      simpa using this
    have : 0 ≤ |D - (b - a)| := abs_nonneg _
    omega
  have eQ2 : 2 ^ 53 * |n * Q - D| ≤ n * 2 ^ 52 + 4 * M := by
    have : 0 ≤ |D| := abs_nonneg _
    rcases eQ with h | h <;> omega
  have hsum : (n : Int) * R - ((n - 1) * a + b) = n * (R - (a + Q)) + ((n * Q - D) + (D - (b - a))) := by ring
  have t1 := abs_add_le ((n : Int) * (R - (a + Q))) ((n * Q - D) + (D - (b - a)))
  have t2 := abs_add_le ((n : Int) * Q - D) (D - (b - a))
  have t3 : |(n : Int) * (R - (a + Q))| = n * |R - (a + Q)| := by rw [abs_mul, abs_of_nonneg (a := (n : Int)) (by omega)]
  have t4 : (n : Int) * (2 ^ 53 * |R - (a + Q)|) ≤ n * M := Int.mul_le_mul_of_nonneg_left (by omega) (by omega)
  have t5 : (n : Int) * (2 ^ 53 * |R - (a + Q)|) = 2 ^ 53 * (n * |R - (a + Q)|) := by ring
  rw [hsum]
  rw [t3] at t1
  omega

/-- The sum of the samples in units. -/
def sumU : List F64 → Int
  | [] => 0
  | x :: xs => x.units + sumU xs

/-- The error of the average: `S` is the sum of the samples so far. -/
theorem mean_error (other : Bytes → Option F64) (M : Int) (hM : 2 * M ≤ maxU) :
    ∀ (xs : List F64) (a : F64) (n : Nat) (S : Int), a.Finite → |a.units| ≤ M →
      (∀ x ∈ xs, x.Finite ∧ |x.units| ≤ M) → 1 ≤ n → n + xs.length ≤ 2 ^ 53 →
      2 ^ 53 * |n * a.units - S| ≤ n * n * (4 * M + 2 ^ 52) →
      ∃ m : F64, runningMeanF (binary64 other) a n xs = m ∧ m.Finite ∧
        2 ^ 53 * |((n + xs.length : Nat) : Int) * m.units - (S + sumU xs)| ≤
          ((n + xs.length : Nat) : Int) * ((n + xs.length : Nat) : Int) * (4 * M + 2 ^ 52) := by
  intro xs
  induction xs with
  | nil => intro a n S h1 _ _ _ _ h6; exact ⟨a, rfl, h1, by simpa [sumU] using h6⟩
  | cons x xs ih =>
    intro a n S h1 h2 h4 h5 h6 h7
    obtain ⟨x1, x2⟩ := h4 x (by simp)
    simp only [List.length_cons] at h6
    obtain ⟨s1, s2⟩ := step_fin (n := (n : Int) + 1) (H := M) h1 x1 (by omega) (by omega) hM h2 x2
    obtain ⟨_, c2, c3⟩ := ofInt_fin ((n : Int) + 1) (by omega) (by omega)
    have hcN : (F64.ofInt ((n : Int) + 1)).units.natAbs = (n + 1) * oneN := by
      rw [c3 (by omega), Int.natAbs_mul, Int.natAbs_natCast]
      congr 1
    rw [hcN] at s2
    have hc : 2 * oneN ≤ (n + 1) * oneN := Nat.mul_le_mul_right _ (by omega)
    have hb := stepU_between (lo := -M) (hi := M) (rn_units_one a) (rn_units_one x) hc (abs_le.1 h2) (abs_le.1 x2)
    have he := stepU_error (n := n + 1) (by omega) h2 x2
    rw [← s2] at hb he
    have hM0 : 0 ≤ M := le_trans (abs_nonneg _) h2
    push_cast at he
    have hstep : 2 ^ 53 * |((n + 1 : Nat) : Int) * (a.step x (n + 1)).units - (S + x.units)| ≤
        ((n + 1 : Nat) : Int) * ((n + 1 : Nat) : Int) * (4 * M + 2 ^ 52) := by
      have e : ((n + 1 : Nat) : Int) * (a.step x (n + 1)).units - (S + x.units) =
          (((n : Int) + 1) * (a.step x (n + 1)).units - (((n : Int) + 1 - 1) * a.units + x.units)) + (n * a.units - S) := by
        push_cast; ring
      rw [e]
      have t := abs_add_le (((n : Int) + 1) * (a.step x (n + 1)).units - (((n : Int) + 1 - 1) * a.units + x.units)) (n * a.units - S)
      have hn1 : (1 : Int) ≤ n := by exact_mod_cast h5
      have t2 : 6 * M + ((n : Int) + 1) * M + ((n : Int) + 1) * 2 ^ 52 + n * n * (4 * M + 2 ^ 52) ≤
          ((n + 1 : Nat) : Int) * ((n + 1 : Nat) : Int) * (4 * M + 2 ^ 52) := by
        push_cast
        nlinarith
      omega
    obtain ⟨m, m1, m2, m3⟩ := ih (a.step x (n + 1)) (n + 1) (S + x.units) s1 (abs_le.2 hb) (fun y hy => h4 y (by simp [hy])) (by omega)
      (by omega) hstep
    refine ⟨m, ?_, m2, ?_⟩
    · rw [← m1]; rfl
    · have e1 : n + (x :: xs).length = n + 1 + xs.length := by simp only [List.length_cons]; omega
      have e2 : S + sumU (x :: xs) = S + x.units + sumU xs := by simp only [sumU]; ring
      rw [e1, e2]
      exact m3

end Spout
