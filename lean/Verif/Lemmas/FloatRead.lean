import Mathlib.Tactic.FieldSimp
import Verif.Lemmas.FloatStep
import Verif.Lemmas.FloatText
import Verif.Spec.Float

/-! # Reading a number gives the nearest float64 -/

namespace Spout
open Spec

set_option exponentiation.threshold 3000

/-- If another float64 is as near, the last bit is zero. -/
theorem nearest_tie (a b l : Nat) (hb : 0 < b) (hl : l ≠ nearest a b) (he : b * magN (nearest a b) + b * magN l = 2 * a) :
    nearest a b % 2 = 0 := by
  obtain ⟨s, m, r⟩ := nearest_rounds a b hb
  have hd : 0 < b * 2 ^ s := by positivity
  have hmle := r.m_le hb
  have hmag := r.parts.mag hmle
  have heq := r.parts.eq
  have e2 : b * magN (nearest a b) = m * (b * 2 ^ s) := by rw [hmag]; ring
  rcases Nat.lt_or_gt_of_ne hl with h | h
  · have hl1 : l = nearest a b - 1 := by
      by_contra hne
      have h1 := nearest_above a b (nearest a b - 1) hb (by omega)
      have h2 : magN l < magN (nearest a b - 1) := magN_lt (by omega)
      have h3 : b * magN l < b * magN (nearest a b - 1) := Nat.mul_lt_mul_of_pos_left h2 hb
      omega
    by_cases hc : s = 0 ∨ 2 ^ 52 ≤ m - 1
    · have hm0 : 0 < m := by
        rcases Nat.eq_zero_or_pos m with h0 | h0
        · rcases hc with h1 | h1
          · subst h1; omega
          · omega
        · exact h0
      have hp : Parts l s (m - 1) := ⟨by omega, hc⟩
      have hl2 := hp.mag (by omega)
      have e3 : b * magN l = (m - 1) * (b * 2 ^ s) := by rw [hl2]; ring
      obtain ⟨m', rfl⟩ : ∃ m', m = m' + 1 := ⟨m - 1, by omega⟩
      have htie := r.round.tie (Or.inl (by
        rw [e2, e3, Nat.add_sub_cancel] at he
        rw [← he]
        ring))
      rw [heq]
      omega
    · have hs : s ≠ 0 := fun h0 => hc (Or.inl h0)
      have hm : m - 1 < 2 ^ 52 := Nat.lt_of_not_le (fun h0 => hc (Or.inr h0))
      rcases r.lo with h0 | h0
      · exact absurd h0 hs
      · have hf := r.parts.full
        have h4 : m = 2 ^ 52 := by omega
        have h5 : magN l < magN (nearest a b) := magN_lt h
        have h6 : b * magN l < b * magN (nearest a b) := Nat.mul_lt_mul_of_pos_left h5 hb
        have h7 : b * 2 ^ (s + 52) = m * (b * 2 ^ s) := by rw [h4, Nat.pow_add]; ring
        omega
  · have hl1 : l = nearest a b + 1 := by
      by_contra hne
      have h1 := nearest_below a b (nearest a b + 1) hb (by omega)
      have h2 : magN (nearest a b + 1) < magN l := magN_lt (by omega)
      have h3 : b * magN (nearest a b + 1) < b * magN l := Nat.mul_lt_mul_of_pos_left h2 hb
      omega
    by_cases hc : m + 1 ≤ 2 ^ 53
    · have hp : Parts l s (m + 1) := ⟨by omega, by have := r.parts.full; omega⟩
      have hl2 := hp.mag hc
      have e3 : b * magN l = (m + 1) * (b * 2 ^ s) := by rw [hl2]; ring
      have htie := r.round.tie (Or.inr (by
        rw [e2, e3] at he
        rw [← he]
        ring))
      rw [heq]
      omega
    · have h4 : m = 2 ^ 53 := by omega
      have h5 : magN (nearest a b) < magN l := magN_lt h
      have h6 : b * magN (nearest a b) < b * magN l := Nat.mul_lt_mul_of_pos_left h5 hb
      have h7 : b * 2 ^ (s + 53) = m * (b * 2 ^ s) := by rw [h4, Nat.pow_add]; ring
      have := r.hi
      omega

/-- The threshold from which a number is too large: the largest float64 and half a step. -/
theorem too_large (a b : Nat) (hb : 0 < b) : infBits ≤ nearest a b ↔ (2 ^ 54 - 1) * 2 ^ 2044 * b ≤ a := by
  have ht : nearest ((2 ^ 54 - 1) * 2 ^ 2044) 1 = infBits := by decide +kernel
  have hm : magN infBits + magN (infBits - 1) = 2 * ((2 ^ 54 - 1) * 2 ^ 2044) := by decide +kernel
  have hpos : 0 < infBits := by decide +kernel
  generalize (2 ^ 54 - 1) * 2 ^ 2044 = T at *
  constructor
  · intro h
    have h1 := nearest_above a b (infBits - 1) hb (by omega)
    have h2 : magN infBits ≤ magN (nearest a b) := magN_le h
    have h3 : b * magN infBits ≤ b * magN (nearest a b) := Nat.mul_le_mul_left _ h2
    have h4 : b * (magN infBits + magN (infBits - 1)) = b * (2 * T) := by rw [hm]
    rw [Nat.mul_add] at h4
    have h5 : b * (2 * T) = 2 * (T * b) := by ring
    omega
  · intro h
    rw [← ht]
    exact nearest_mono (by decide) hb (by omega)

attribute [local irreducible] oneN infBits maxU tenN

theorem mag_error (a b l : Nat) (hb : 0 < b) :
    |(magN (nearest a b) : Rat) - (a : Rat) / b| ≤ |(magN l : Rat) - (a : Rat) / b| ∧
    (|(magN (nearest a b) : Rat) - (a : Rat) / b| = |(magN l : Rat) - (a : Rat) / b| → l = nearest a b ∨ nearest a b % 2 = 0) := by
  have hb' : (0 : Rat) < b := by exact_mod_cast hb
  obtain ⟨r, hr⟩ : ∃ r : Rat, r = (a : Rat) / b := ⟨_, rfl⟩
  have ha : (a : Rat) = b * r := by rw [hr]; field_simp
  rw [← hr]
  rcases Nat.lt_trichotomy l (nearest a b) with h | h | h
  · have h1 := nearest_above a b l hb h
    have h2 : (b : Rat) * magN (nearest a b) + b * magN l ≤ 2 * a := by exact_mod_cast h1
    have h3 : (magN l : Rat) < magN (nearest a b) := by exact_mod_cast magN_lt h
    rw [ha] at h2
    have h4 : (magN (nearest a b) : Rat) + magN l ≤ 2 * r := by
      refine le_of_mul_le_mul_left ?_ hb'
      linarith
    have h5 : |(magN l : Rat) - r| = r - magN l := by
      rw [abs_of_nonpos (by linarith)]; ring
    rw [h5]
    constructor
    · rw [abs_le]; constructor <;> linarith
    · intro he
      right
      refine nearest_tie a b l hb (by omega) ?_
      have h6 : (magN (nearest a b) : Rat) + magN l = 2 * r := by
        rcases abs_cases ((magN (nearest a b) : Rat) - r) with ⟨h7, _⟩ | ⟨h7, _⟩ <;> rw [h7] at he <;> linarith
      have h7 : (b : Rat) * magN (nearest a b) + b * magN l = 2 * a := by
        rw [ha, ← mul_add, h6]; ring
      exact_mod_cast h7
  · subst h
    exact ⟨le_refl _, fun _ => Or.inl rfl⟩
  · have h1 := nearest_below a b l hb h
    have h2 : 2 * (a : Rat) ≤ (b : Rat) * magN (nearest a b) + b * magN l := by exact_mod_cast h1
    have h3 : (magN (nearest a b) : Rat) < magN l := by exact_mod_cast magN_lt h
    rw [ha] at h2
    have h4 : 2 * r ≤ (magN (nearest a b) : Rat) + magN l := by
      refine le_of_mul_le_mul_left ?_ hb'
      linarith
    have h5 : |(magN l : Rat) - r| = magN l - r := by
      rw [abs_of_nonneg (by linarith)]
    rw [h5]
    constructor
    · rw [abs_le]; constructor <;> linarith
    · intro he
      right
      refine nearest_tie a b l hb (by omega) ?_
      have h6 : (magN (nearest a b) : Rat) + magN l = 2 * r := by
        rcases abs_cases ((magN (nearest a b) : Rat) - r) with ⟨h7, _⟩ | ⟨h7, _⟩ <;> rw [h7] at he <;> linarith
      have h7 : (b : Rat) * magN (nearest a b) + b * magN l = 2 * a := by
        rw [ha, ← mul_add, h6]; ring
      exact_mod_cast h7

/-- A number of units that is some float64. -/
def IsUnits (u : Int) : Prop := ∃ l : Nat, u = magN l ∨ u = -(magN l : Int)

theorem isUnits_neg {u : Int} (h : IsUnits u) : IsUnits (-u) := by
  obtain ⟨l, h | h⟩ := h
  · exact ⟨l, Or.inr (by rw [h])⟩
  · exact ⟨l, Or.inl (by rw [h, Int.neg_neg])⟩

theorem isUnits (x : F64) : IsUnits x.units := by
  cases x with
  | nan => exact ⟨0, Or.inl rfl⟩
  | inf s => exact ⟨0, Or.inl rfl⟩
  | fin s k =>
    cases s
    · exact ⟨k.val, Or.inl rfl⟩
    · exact ⟨k.val, Or.inr rfl⟩

theorem units_error (a b : Nat) (hb : 0 < b) (u : Int) (hu : IsUnits u) :
    |(magN (nearest a b) : Rat) - (a : Rat) / b| ≤ |(u : Rat) - (a : Rat) / b| ∧
    (|(magN (nearest a b) : Rat) - (a : Rat) / b| = |(u : Rat) - (a : Rat) / b| → u = magN (nearest a b) ∨ nearest a b % 2 = 0) := by
  obtain ⟨l, h | h⟩ := hu
  · have hm := mag_error a b l hb
    subst h
    rw [Int.cast_natCast]
    exact ⟨hm.1, fun he => (hm.2 he).imp (fun h => by rw [h]) id⟩
  · have hm := mag_error a b 0 hb
    have hr : (0 : Rat) ≤ (a : Rat) / b := div_nonneg (Nat.cast_nonneg _) (Nat.cast_nonneg _)
    have hz : magN 0 = 0 := rfl
    rw [hz, Nat.cast_zero, zero_sub, abs_neg, abs_of_nonneg hr] at hm
    generalize (a : Rat) / b = r at *
    have hl : (0 : Rat) ≤ magN l := Nat.cast_nonneg _
    have hu : (u : Rat) = -(magN l : Rat) := by rw [h]; push_cast; ring
    have e : |(u : Rat) - r| = magN l + r := by
      rw [hu, abs_of_nonpos (by linarith)]; ring
    rw [e]
    refine ⟨by linarith [hm.1], fun he => ?_⟩
    have h0 : (magN l : Rat) = 0 := by linarith [hm.1]
    rcases hm.2 (by linarith) with h1 | h1
    · left
      have h2 : magN l = 0 := by exact_mod_cast h0
      rw [h, ← h1, h2, hz]
      rfl
    · right; exact h1

theorem lastBit_fin (s : Bool) (k : Fin infBits) (h : k.val % 2 = 0) : (F64.fin s k).LastBitZero := h

theorem units_finPos (k : Fin infBits) : (F64.fin false k).units = (magN k.val : Int) := rfl

theorem units_finNeg (k : Fin infBits) : (F64.fin true k).units = -(magN k.val : Int) := rfl

/-- Rounding `±a / b` units. -/
theorem round_error (neg : Bool) (a b : Nat) (hb : 0 < b) (x : F64) (hx : F64.round neg a b = x) (hf : x.IsFinite) (q : Rat)
    (hq : q * oneN = (if neg then -1 else 1) * ((a : Rat) / b)) (y : F64) :
    |x.val - q| ≤ |y.val - q| ∧ (|x.val - q| = |y.val - q| → y.val = x.val ∨ x.LastBitZero) := by
  have hone : (0 : Rat) < (oneN : Rat) := by exact_mod_cast oneN_pos
  unfold F64.round at hx
  split at hx
  · rename_i hlt
    have key : ∀ z : F64, |z.val - q| = |(z.units : Rat) - (if neg then -1 else 1) * ((a : Rat) / b)| / oneN := by
      intro z
      rw [← hq]
      have : z.val - q = ((z.units : Rat) - q * oneN) / oneN := by
        unfold F64.val
        field_simp
      rw [this, abs_div, abs_of_pos hone]
    rw [key, key]
    have hval : y.units = x.units → y.val = x.val := fun h => by unfold F64.val; rw [h]
    have hbit : nearest a b % 2 = 0 → x.LastBitZero := fun h => by
      subst hx
      exact lastBit_fin _ _ h
    cases neg with
    | false =>
      have hxu : x.units = (magN (nearest a b) : Int) := by subst hx; exact units_finPos _
      have h := units_error a b hb y.units (isUnits y)
      rw [hxu]
      simp only [Bool.false_eq_true, if_false, one_mul, Int.cast_natCast]
      refine ⟨div_le_div_of_nonneg_right h.1 (le_of_lt hone), fun he => ?_⟩
      have he' : |(magN (nearest a b) : Rat) - (a : Rat) / b| = |(y.units : Rat) - (a : Rat) / b| := by
        exact (div_left_inj' (ne_of_gt hone)).1 he
      exact (h.2 he').imp (fun h => hval (h.trans hxu.symm)) hbit
    | true =>
      have hxu : x.units = -(magN (nearest a b) : Int) := by subst hx; exact units_finNeg _
      have h := units_error a b hb (-y.units) (isUnits_neg (isUnits y))
      have e1 : |((x.units : Int) : Rat) - (if true = true then -1 else 1) * ((a : Rat) / b)| = |(magN (nearest a b) : Rat) - (a : Rat) / b| := by
        rw [hxu, ← abs_neg]
        congr 1
        push_cast
        simp only [if_true]
        ring
      have e2 : |((y.units : Int) : Rat) - (if true = true then -1 else 1) * ((a : Rat) / b)| = |((-y.units : Int) : Rat) - (a : Rat) / b| := by
        rw [← abs_neg]
        congr 1
        push_cast
        simp only [if_true]
        ring
      rw [e1, e2]
      refine ⟨div_le_div_of_nonneg_right h.1 (le_of_lt hone), fun he => ?_⟩
      have he' := (div_left_inj' (ne_of_gt hone)).1 he
      refine (h.2 he').imp (fun h => hval ?_) hbit
      rw [hxu, ← h, Int.neg_neg]
  · subst hx
    exact absurd hf id

end Spout
