import Mathlib.Tactic.FieldSimp
import Mathlib.Data.Rat.Floor
import Verif.Lemmas.FloatMean
import Verif.Lemmas.FloatText
import Verif.Props.DownsamplerBucket
import Verif.Spec.Float

/-! # C103, C104: averages of floats -/

namespace Spout
open Spec

set_option exponentiation.threshold 3000

theorem oneN_rat : (0 : Rat) < (oneN : Rat) := by exact_mod_cast oneN_pos

theorem halfMax_units : halfMax * oneN * 2 = maxU := by
  have h1 : maxU = (2 ^ 53 - 1) * 2 ^ 970 * oneN * 2 := by decide +kernel
  rw [h1]
  unfold halfMax
  push_cast
  norm_num

attribute [local irreducible] oneN infBits maxU tenN halfMax

theorem finite_iff (x : F64) : x.IsFinite ↔ x.Finite := by
  cases x with
  | nan => simp [F64.IsFinite, F64.Finite]
  | inf s => simp [F64.IsFinite, F64.Finite]
  | fin s k => simp [F64.IsFinite, F64.Finite]

theorem val_le (x : F64) (q : Rat) : x.val ≤ q ↔ (x.units : Rat) ≤ q * oneN := by
  unfold F64.val
  rw [div_le_iff₀ oneN_rat]

theorem le_val (x : F64) (q : Rat) : q ≤ x.val ↔ q * oneN ≤ (x.units : Rat) := by
  unfold F64.val
  rw [le_div_iff₀ oneN_rat]

/-- What a float field emits. -/
theorem emits_float (other : Bytes → Option F64) (k n : Bytes) (s : Sample) (ss : List Sample) (v : F64) (hw : WFSamples k n (s :: ss))
    (hq : s.quoted = false) (hi : intLit s.content = none) (hv : parseFloat other s.content = some v) :
    Emits (binary64 other) k n (s :: ss) (printFloat (runningMeanF (binary64 other) v 1 (floatsOf other ss))) := by
  have h := emits_agg (binary64 other) k n (s :: ss) (by simp) hw
  have e : aggText (binary64 other) (s :: ss) = printFloat (runningMeanF (binary64 other) v 1 (floatsOf other ss)) := by
    have hv' : (binary64 other).parse s.content = some v := hv
    simp only [aggText, hq, hi, hv']
    rfl
  rwa [e] at h

/-- The full C103: a field whose first sample of the period is a float is emitted as a finite number between the smallest and the
largest of its samples. -/
def FloatAverageWithinSamples : Prop :=
  ∀ (other : Bytes → Option F64) (k n : Bytes) (s : Sample) (ss : List Sample) (v : F64) (lo hi : Rat), WFSamples k n (s :: ss) →
    s.quoted = false → intLit s.content = none → parseFloat other s.content = some v →
    (∀ x ∈ v :: floatsOf other ss, x.IsFinite ∧ lo ≤ x.val ∧ x.val ≤ hi) →
    ∃ m : F64, Emits (binary64 other) k n (s :: ss) (printFloat m) ∧ m.IsFinite ∧ lo ≤ m.val ∧ m.val ≤ hi

/-- **C103 (partial).** If no sample is larger than half the largest float64, and there are fewer than 2^63 of them, the emitted number is
between the smallest and the largest sample.  Missing: larger samples, whose difference may overflow (`C103_overflow`). -/
theorem C103_average_within_samples_partial (other : Bytes → Option F64) (k n : Bytes) (s : Sample) (ss : List Sample) (v : F64) (lo hi : Rat)
    (hw : WFSamples k n (s :: ss)) (hq : s.quoted = false) (hi' : intLit s.content = none) (hv : parseFloat other s.content = some v)
    (h : ∀ x ∈ v :: floatsOf other ss, x.IsFinite ∧ lo ≤ x.val ∧ x.val ≤ hi)
    (hlo : -halfMax ≤ lo) (hhi : hi ≤ halfMax) (hlen : ss.length < 2 ^ 62) :
    ∃ m : F64, Emits (binary64 other) k n (s :: ss) (printFloat m) ∧ m.IsFinite ∧ lo ≤ m.val ∧ m.val ≤ hi := by
  have hone := oneN_rat
  have hunits : ∀ x ∈ v :: floatsOf other ss, x.Finite ∧ ⌈lo * oneN⌉ ≤ x.units ∧ x.units ≤ ⌊hi * oneN⌋ := by
    intro x hx
    obtain ⟨h1, h2, h3⟩ := h x hx
    exact ⟨(finite_iff x).1 h1, Int.ceil_le.2 ((le_val x lo).1 h2), Int.le_floor.2 ((val_le x hi).1 h3)⟩
  have hmax := halfMax_units
  have hH : 2 * ⌊halfMax * oneN⌋ ≤ (maxU : Int) := by
    have h1 := Int.floor_le (halfMax * oneN)
    have h2 : ((2 * ⌊halfMax * oneN⌋ : Int) : Rat) ≤ ((maxU : Int) : Rat) := by
      push_cast
      rw [← hmax]
      linarith
    exact_mod_cast h2
  have hb : -⌊halfMax * oneN⌋ ≤ ⌈lo * oneN⌉ := by
    rw [← Int.ceil_neg]
    apply Int.ceil_le_ceil
    have := mul_le_mul_of_nonneg_right hlo (le_of_lt hone)
    linarith
  have hc : ⌊hi * oneN⌋ ≤ ⌊halfMax * oneN⌋ := Int.floor_le_floor (mul_le_mul_of_nonneg_right hhi (le_of_lt hone))
  obtain ⟨v1, v2, v3⟩ := hunits v (by simp)
  have hl2 : (floatsOf other ss).length ≤ ss.length := List.length_filterMap_le _ _
  obtain ⟨m, m1, m2, m3, m4⟩ := mean_range other ⌈lo * oneN⌉ ⌊hi * oneN⌋ ⌊halfMax * oneN⌋ hH hb hc (floatsOf other ss) v 1 v1 v2 v3
    (fun x hx => hunits x (by simp [hx])) (by decide) (by omega)
  refine ⟨m, ?_, (finite_iff m).2 m2, ?_, ?_⟩
  · rw [← m1]
    exact emits_float other k n s ss v hw hq hi' hv
  · rw [le_val]; exact Int.ceil_le.1 m3
  · rw [val_le]; exact Int.le_floor.1 m4

theorem sum_units (xs : List F64) : (xs.map F64.val).sum * oneN = (sumU xs : Rat) := by
  have hone := oneN_rat
  induction xs with
  | nil => simp [sumU]
  | cons x xs ih =>
    simp only [List.map_cons, List.sum_cons, sumU]
    rw [add_mul, ih]
    unfold F64.val
    push_cast
    rw [div_mul_cancel₀ _ (ne_of_gt hone)]

theorem error_arith (one N mU S F M : Rat) (h1 : 0 < one) (hN : 0 < N) (hF : F ≤ M * one)
    (h : 2 ^ 53 * |N * mU - S * one| ≤ N * N * (4 * F + 2 ^ 52)) : |mU / one - S / N| ≤ N * (M / 2 ^ 51 + 1 / (2 * one)) := by
  have e : mU / one - S / N = (N * mU - S * one) / (N * one) := by field_simp
  have hp : 0 < N * one := mul_pos hN h1
  rw [e, abs_div, abs_of_pos hp, div_le_iff₀ hp]
  have e2 : N * (M / 2 ^ 51 + 1 / (2 * one)) * (N * one) = N * N * (4 * (M * one) + 2 ^ 52) / 2 ^ 53 := by
    field_simp
    ring
  rw [e2, le_div_iff₀ (by norm_num)]
  have h3 : N * N * (4 * F + 2 ^ 52) ≤ N * N * (4 * (M * one) + 2 ^ 52) :=
    mul_le_mul_of_nonneg_left (by linarith) (le_of_lt (mul_pos hN hN))
  linarith

theorem pow1075 : (1 : Rat) / 2 ^ 1075 = 1 / (2 * oneN) := by
  have h1 : (2 * oneN : Nat) = 2 ^ 1075 := by decide +kernel
  have h2 : ((2 * oneN : Nat) : Rat) = ((2 ^ 1075 : Nat) : Rat) := by rw [h1]
  rw [Nat.cast_mul, Nat.cast_pow] at h2
  have h3 : (2 : Rat) * (oneN : Rat) = 2 ^ 1075 := h2
  rw [h3]

/-- **C104.** The number emitted for float samples is their mean, up to an error of 2^-51 of the largest sample (and half the smallest float64) for each sample. -/
theorem C104_error_bound (other : Bytes → Option F64) (k n : Bytes) (s : Sample) (ss : List Sample) (v : F64) (M : Rat)
    (hw : WFSamples k n (s :: ss)) (hq : s.quoted = false) (hi' : intLit s.content = none) (hv : parseFloat other s.content = some v)
    (h : ∀ x ∈ v :: floatsOf other ss, x.IsFinite ∧ |x.val| ≤ M) (hM : M ≤ halfMax) (hlen : ss.length < 2 ^ 53) :
    ∃ m : F64, Emits (binary64 other) k n (s :: ss) (printFloat m) ∧ m.IsFinite ∧
      |m.val - mean ((v :: floatsOf other ss).map F64.val)| ≤ ((v :: floatsOf other ss).length : Rat) * (M / 2 ^ 51 + 1 / 2 ^ 1075) := by
  have hone := oneN_rat
  have hMU : ∀ x ∈ v :: floatsOf other ss, x.Finite ∧ |x.units| ≤ ⌊M * oneN⌋ := by
    intro x hx
    obtain ⟨h1, h2⟩ := h x hx
    refine ⟨(finite_iff x).1 h1, ?_⟩
    rw [Int.le_floor]
    unfold F64.val at h2
    rw [abs_div, abs_of_pos hone, div_le_iff₀ hone] at h2
    exact_mod_cast h2
  have hmax := halfMax_units
  have hH : 2 * ⌊M * oneN⌋ ≤ (maxU : Int) := by
    have h1 := Int.floor_le (M * oneN)
    have h2 : ((2 * ⌊M * oneN⌋ : Int) : Rat) ≤ ((maxU : Int) : Rat) := by
      push_cast
      rw [← hmax]
      have := mul_le_mul_of_nonneg_right hM (le_of_lt hone)
      linarith
    exact_mod_cast h2
  obtain ⟨v1, v2⟩ := hMU v (by simp)
  have hl2 : (floatsOf other ss).length ≤ ss.length := List.length_filterMap_le _ _
  have hM0 : 0 ≤ ⌊M * oneN⌋ := le_trans (abs_nonneg _) v2
  obtain ⟨m, m1, m2, m3⟩ := mean_error other ⌊M * oneN⌋ hH (floatsOf other ss) v 1 v.units v1 v2
    (fun x hx => hMU x (by simp [hx])) (by decide) (by omega) (by
      simp only [Nat.cast_one, one_mul, sub_self, abs_zero, mul_zero]
      omega)
  refine ⟨m, ?_, (finite_iff m).2 m2, ?_⟩
  · rw [← m1]
    exact emits_float other k n s ss v hw hq hi' hv
  · have e1 : 1 + (floatsOf other ss).length = (v :: floatsOf other ss).length := by simp only [List.length_cons]; omega
    have e2 : v.units + sumU (floatsOf other ss) = sumU (v :: floatsOf other ss) := rfl
    rw [e1, e2] at m3
    have hsum := sum_units (v :: floatsOf other ss)
    have hN : (0 : Rat) < ((v :: floatsOf other ss).length : Rat) := by
      have : 0 < (v :: floatsOf other ss).length := by simp
      exact_mod_cast this
    rw [pow1075]
    generalize (v :: floatsOf other ss) = xs at *
    have hfl := Int.floor_le (M * oneN)
    have m4 : (2 : Rat) ^ 53 * |(xs.length : Rat) * (m.units : Rat) - (sumU xs : Rat)| ≤ (xs.length : Rat) * xs.length * (4 * (⌊M * oneN⌋ : Rat) + 2 ^ 52) := by
      exact_mod_cast m3
    rw [← hsum] at m4
    unfold mean
    rw [List.length_map]
    exact error_arith _ _ _ _ _ _ hone hN hfl m4

/-! ## Examples, and the overflow -/

/-- Of the examples: no numbers in hexadecimal. -/
def noOther : Bytes → Option F64 := fun _ => none

theorem val_of (k : Fin infBits) (n d : Nat) (hd : 0 < d) (h : magN k.val * d = n * oneN) : (F64.fin false k).val = (n : Rat) / d := by
  have hone := oneN_rat
  have hd' : (0 : Rat) < d := by exact_mod_cast hd
  have h' : (magN k.val : Rat) * d = n * oneN := by exact_mod_cast h
  have e : (F64.fin false k).val = (magN k.val : Rat) / oneN := by
    unfold F64.val
    rw [show (F64.fin false k).units = (magN k.val : Int) from rfl, Int.cast_natCast]
  rw [e, div_eq_div_iff (ne_of_gt hone) (ne_of_gt hd'), h']

theorem val_neg (k : Fin infBits) : (F64.fin true k).val = -(F64.fin false k).val := by
  unfold F64.val
  rw [show (F64.fin true k).units = -(magN k.val : Int) from rfl, show (F64.fin false k).units = (magN k.val : Int) from rfl]
  push_cast
  ring

/-- The bits of 1.5, 4 and 2. -/
def bits15 : Fin infBits := ⟨4609434218613702656, by decide +kernel⟩
def bits4 : Fin infBits := ⟨4616189618054758400, by decide +kernel⟩
def bits2 : Fin infBits := ⟨4611686018427387904, by decide +kernel⟩

theorem val15 : (F64.fin false bits15).val = 3 / 2 := by
  have := val_of bits15 3 2 (by decide) (by decide +kernel)
  exact_mod_cast this

theorem val4 : (F64.fin false bits4).val = 4 := by
  have := val_of bits4 4 1 (by decide) (by decide +kernel)
  rw [this]; norm_num

theorem val2 : (F64.fin false bits2).val = 2 := by
  have := val_of bits2 2 1 (by decide) (by decide +kernel)
  rw [this]; norm_num

theorem read15 : parseFloat noOther b!"1.5" = some (.fin false bits15) := by decide +kernel

/-- The second sample is a boolean, which is not averaged. -/
theorem later15 : floatsOf noOther [⟨false, b!"true"⟩, ⟨false, b!"4e0"⟩, ⟨false, b!"2"⟩] = [.fin false bits4, .fin false bits2] := by decide +kernel

theorem half_ge : (4 : Rat) ≤ halfMax := by unfold halfMax; norm_num

/-- The samples 1.5, true, 4e0 and 2 give a number between 1.5 and 4. -/
example : ∃ m : F64, Emits (binary64 noOther) b!"m" b!"f" [⟨false, b!"1.5"⟩, ⟨false, b!"true"⟩, ⟨false, b!"4e0"⟩, ⟨false, b!"2"⟩] (printFloat m) ∧
    m.IsFinite ∧ 3 / 2 ≤ m.val ∧ m.val ≤ 4 := by
  have hh := half_ge
  apply C103_average_within_samples_partial noOther b!"m" b!"f" ⟨false, b!"1.5"⟩ [⟨false, b!"true"⟩, ⟨false, b!"4e0"⟩, ⟨false, b!"2"⟩] (.fin false bits15) (3 / 2) 4
    (wfSamples_ints [b!"1.5", b!"true", b!"4e0", b!"2"] (by decide)) rfl (by decide) read15
  · rw [later15]
    intro x hx
    simp only [List.mem_cons, List.not_mem_nil, or_false] at hx
    rcases hx with rfl | rfl | rfl
    · rw [val15]; exact ⟨trivial, by norm_num, by norm_num⟩
    · rw [val4]; exact ⟨trivial, by norm_num, by norm_num⟩
    · rw [val2]; exact ⟨trivial, by norm_num, by norm_num⟩
  · linarith
  · exact hh
  · decide

/-- … and it is within 3 * 4 * 2^-51 of 2.5. -/
example : ∃ m : F64, Emits (binary64 noOther) b!"m" b!"f" [⟨false, b!"1.5"⟩, ⟨false, b!"true"⟩, ⟨false, b!"4e0"⟩, ⟨false, b!"2"⟩] (printFloat m) ∧
    m.IsFinite ∧ |m.val - 5 / 2| ≤ 3 * (4 / 2 ^ 51 + 1 / 2 ^ 1075) := by
  have h := C104_error_bound noOther b!"m" b!"f" ⟨false, b!"1.5"⟩ [⟨false, b!"true"⟩, ⟨false, b!"4e0"⟩, ⟨false, b!"2"⟩] (.fin false bits15) 4
    (wfSamples_ints [b!"1.5", b!"true", b!"4e0", b!"2"] (by decide)) rfl (by decide) read15 (by
      rw [later15]
      intro x hx
      simp only [List.mem_cons, List.not_mem_nil, or_false] at hx
      rcases hx with rfl | rfl | rfl
      · rw [val15]; exact ⟨trivial, by norm_num⟩
      · rw [val4]; exact ⟨trivial, by norm_num⟩
      · rw [val2]; exact ⟨trivial, by norm_num⟩) half_ge (by decide)
  rw [later15] at h
  have e : mean ([F64.fin false bits15, .fin false bits4, .fin false bits2].map F64.val) = 5 / 2 := by
    simp only [mean, List.map_cons, List.map_nil, val15, val4, val2, List.sum_cons, List.sum_nil, List.length_cons, List.length_nil]
    norm_num
  rw [e] at h
  exact h

/-- The bits of 1.7e308. -/
def bitsBig : Fin infBits := ⟨9218378953502702454, by decide +kernel⟩

theorem readBig : parseFloat noOther b!"1.7e308" = some (.fin false bitsBig) := by decide +kernel

theorem laterBig : floatsOf noOther [⟨false, b!"-1.7e308"⟩] = [.fin true bitsBig] := by decide +kernel

theorem meanBig : printFloat (runningMeanF (binary64 noOther) (F64.fin false bitsBig) 1 [F64.fin true bitsBig]) = b!"-Inf" := by decide +kernel

theorem specialInf : parseFloat noOther b!"-Inf" = some (.inf true) := by decide +kernel

/-- **C103.** The samples 1.7e308 and -1.7e308 are emitted as `-Inf`. -/
theorem C103_overflow : Emits (binary64 noOther) b!"m" b!"f" [⟨false, b!"1.7e308"⟩, ⟨false, b!"-1.7e308"⟩] b!"-Inf" := by
  have h := emits_float noOther b!"m" b!"f" ⟨false, b!"1.7e308"⟩ [⟨false, b!"-1.7e308"⟩] (.fin false bitsBig)
    (wfSamples_ints [b!"1.7e308", b!"-1.7e308"] (by decide)) rfl (by decide) readBig
  rw [laterBig] at h
  exact Eq.mp (congrArg (Emits (binary64 noOther) b!"m" b!"f" [⟨false, b!"1.7e308"⟩, ⟨false, b!"-1.7e308"⟩]) meanBig) h

/-- **C103.** … so the full property is false. -/
theorem C103_not_within_samples : ¬ FloatAverageWithinSamples := by
  intro h
  have hb : (0 : Rat) ≤ (F64.fin false bitsBig).val := by
    unfold F64.val
    rw [show (F64.fin false bitsBig).units = (magN bitsBig.val : Int) from rfl, Int.cast_natCast]
    exact div_nonneg (Nat.cast_nonneg _) (le_of_lt oneN_rat)
  obtain ⟨m, m1, m2, -⟩ := h noOther b!"m" b!"f" ⟨false, b!"1.7e308"⟩ [⟨false, b!"-1.7e308"⟩] (.fin false bitsBig)
    (-(F64.fin false bitsBig).val) (F64.fin false bitsBig).val
    (wfSamples_ints [b!"1.7e308", b!"-1.7e308"] (by decide)) rfl (by decide) readBig (by
      rw [laterBig]
      intro x hx
      simp only [List.mem_cons, List.not_mem_nil, or_false] at hx
      rcases hx with rfl | rfl
      · exact ⟨trivial, by linarith, le_refl _⟩
      · rw [val_neg]; exact ⟨trivial, le_refl _, by linarith⟩)
  have e := emits_unique m1 C103_overflow
  cases m with
  | nan => exact m2
  | inf s => exact m2
  | fin s k =>
    have hp := print_parse noOther s k
    have e' : printFloat (.fin s k) = b!"-Inf" := e
    rw [e', specialInf] at hp
    cases hp

end Spout
