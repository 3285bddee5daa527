import Mathlib.Tactic.FieldSimp
import Verif.Lemmas.FloatStep
import Verif.Spec.ConfigText

/-! # The fraction of a duration: float64 arithmetic -/

namespace Spout
open Spec

set_option exponentiation.threshold 3000

attribute [local irreducible] oneN infBits maxU

/-- The value of the float64 with the bits `k`. -/
def vq (k : Nat) : Rat := (magN k : Rat) / (oneN : Rat)

theorem oneQ_pos : (0 : Rat) < (oneN : Rat) := by exact_mod_cast oneN_pos

theorem vq_nonneg (k : Nat) : 0 ≤ vq k := by
  unfold vq
  have := oneQ_pos
  positivity

/-- Half the smallest positive float64. -/
def tinyQ : Rat := 1 / (2 * (oneN : Rat))

theorem tinyQ_pos : 0 < tinyQ := by
  unfold tinyQ
  have := oneQ_pos
  positivity

theorem oneN_big : 10 ^ 40 ≤ oneN := by unfold oneN; decide +kernel

theorem tinyQ_small : tinyQ ≤ 1 / 10 ^ 40 := by
  unfold tinyQ
  have h : (10 ^ 40 : Rat) ≤ (oneN : Rat) := by exact_mod_cast oneN_big
  apply one_div_le_one_div_of_le (by positivity)
  linarith

/-- The error of rounding. -/
theorem nearest_errorQ (a b : Nat) (hb : 0 < b) :
    |vq (nearest a b) - (a : Rat) / b / oneN| ≤ (a : Rat) / b / oneN / 2 ^ 53 + tinyQ := by
  have ho := oneQ_pos
  have hbq : (0 : Rat) < b := by exact_mod_cast hb
  have ht := tinyQ_pos
  have haq : (0 : Rat) ≤ (a : Rat) / b / oneN := by positivity
  have e : vq (nearest a b) - (a : Rat) / b / oneN = ((b : Rat) * magN (nearest a b) - a) / (b * oneN) := by
    unfold vq; field_simp
  rw [e, abs_div, abs_of_pos (show (0 : Rat) < b * oneN by positivity)]
  rcases nearest_error a b hb with ⟨h1, h2⟩ | ⟨h1, h2⟩
  · have h1' : (2 * (b * magN (nearest a b)) : Rat) ≤ 2 * a + b := by exact_mod_cast h1
    have h2' : (2 * a : Rat) ≤ 2 * (b * magN (nearest a b)) + b := by exact_mod_cast h2
    have h3 : |(b : Rat) * magN (nearest a b) - a| ≤ b / 2 := by rw [abs_le]; constructor <;> linarith
    have h4 : |(b : Rat) * magN (nearest a b) - a| / (b * oneN) ≤ tinyQ := by
      unfold tinyQ
      rw [div_le_div_iff₀ (by positivity) (by positivity)]
      nlinarith
    have : 0 ≤ (a : Rat) / b / oneN / 2 ^ 53 := by positivity
    linarith
  · have h1' : (2 ^ 53 * (b * magN (nearest a b)) : Rat) ≤ 2 ^ 53 * a + a := by exact_mod_cast h1
    have h2' : (2 ^ 53 * a : Rat) ≤ 2 ^ 53 * (b * magN (nearest a b)) + a := by exact_mod_cast h2
    have h3 : |(b : Rat) * magN (nearest a b) - a| ≤ a / 2 ^ 53 := by rw [abs_le]; constructor <;> linarith
    have h4 : |(b : Rat) * magN (nearest a b) - a| / (b * oneN) ≤ (a : Rat) / 2 ^ 53 / (b * oneN) := by
      apply div_le_div_of_nonneg_right h3 (by positivity)
    have e2 : (a : Rat) / 2 ^ 53 / (b * oneN) = (a : Rat) / b / oneN / 2 ^ 53 := by field_simp
    linarith

/-- The error for a whole number of units. -/
theorem nearest_errorQ_one (a : Nat) : |vq (nearest a 1) - (a : Rat) / oneN| ≤ (a : Rat) / oneN / 2 ^ 53 := by
  have ho := oneQ_pos
  obtain ⟨h1, h2⟩ := nearest_error_one a
  have h1' : (2 ^ 53 * magN (nearest a 1) : Rat) ≤ 2 ^ 53 * a + a := by exact_mod_cast h1
  have h2' : (2 ^ 53 * a : Rat) ≤ 2 ^ 53 * magN (nearest a 1) + a := by exact_mod_cast h2
  have e : vq (nearest a 1) - (a : Rat) / oneN = ((magN (nearest a 1) : Rat) - a) / oneN := by
    unfold vq; field_simp
  rw [e, abs_div, abs_of_pos ho]
  have h3 : |(magN (nearest a 1) : Rat) - a| ≤ a / 2 ^ 53 := by rw [abs_le]; constructor <;> linarith
  have h4 := div_le_div_of_nonneg_right h3 ho.le
  have e2 : (a : Rat) / 2 ^ 53 / oneN = (a : Rat) / oneN / 2 ^ 53 := by field_simp
  linarith

theorem maxU_big : 10 ^ 305 * oneN ≤ maxU := by unfold oneN maxU; decide +kernel

/-- Rounding a number that is not too large. -/
theorem round_ok (a b : Nat) (hb : 0 < b) (h : (a : Rat) / b / oneN ≤ 10 ^ 305) :
    ∃ k : Fin infBits, F64.round false a b = .fin false k ∧ k.val = nearest a b := by
  have ho := oneQ_pos
  have hbq : (0 : Rat) < b := by exact_mod_cast hb
  have h1 : a ≤ maxU * b := by
    have h2 : (a : Rat) ≤ 10 ^ 305 * oneN * b := by
      rw [div_div, div_le_iff₀ (by positivity)] at h
      linarith
    have h3 : a ≤ 10 ^ 305 * oneN * b := by exact_mod_cast h2
    exact h3.trans (Nat.mul_le_mul_right _ maxU_big)
  unfold F64.round
  rw [dif_pos (nearest_lt_inf hb h1)]
  exact ⟨_, rfl, rfl⟩

/-- `float64(n)`. -/
theorem ofInt_ok (n : Nat) (h : n < 2 ^ 63) : ∃ k : Fin infBits, F64.ofInt n = .fin false k ∧ |vq k - n| ≤ (n : Rat) / 2 ^ 53 ∧
    (n ≤ 2 ^ 53 → magN k = n * oneN) := by
  have ho := oneQ_pos
  have e : F64.ofInt n = F64.round false (n * oneN) 1 := by
    unfold F64.ofInt F64.ofUnits
    have h1 : ¬ ((n : Int) * (oneN : Int) < 0) := not_lt.2 (by positivity)
    have h2 : (if (n : Int) * (oneN : Int) = 0 then false else decide ((n : Int) * (oneN : Int) < 0)) = false := by
      rw [decide_eq_false h1]; simp
    rw [h2]
    have h3 : ((n : Int) * (oneN : Int)).natAbs = n * oneN := by
      rw [Int.natAbs_mul]; rfl
    rw [h3]
  have hv : ((n * oneN : Nat) : Rat) / oneN = n := by push_cast; field_simp
  have hn : (n : Rat) ≤ 10 ^ 305 := by
    have h1 : (n : Rat) < 2 ^ 63 := by exact_mod_cast h
    have h2 : (2 ^ 63 : Rat) ≤ 10 ^ 305 := by norm_num
    linarith
  obtain ⟨k, h1, h2⟩ := round_ok (n * oneN) 1 (by decide) (by rw [Nat.cast_one, div_one, hv]; exact hn)
  refine ⟨k, e.trans h1, ?_, ?_⟩
  · have := nearest_errorQ_one (n * oneN)
    rw [hv, ← h2] at this
    exact this
  · intro hle
    rw [h2]
    exact exact_one n hle

theorem mul_fin_fin (k l : Fin infBits) : (F64.fin false k).mul (.fin false l) = .round false (magN k * magN l) oneN := rfl

theorem div_fin_fin (k l : Fin infBits) (h : 0 < magN l) : (F64.fin false k).div (.fin false l) = .round false (magN k * oneN) (magN l) := by
  show (if magN l = 0 then _ else F64.round (false != false) (magN k * oneN) (magN l)) = _
  rw [if_neg (by omega)]
  rfl

/-- The product. -/
theorem mul_ok (k l : Fin infBits) (h : vq k * vq l ≤ 10 ^ 305) :
    ∃ m : Fin infBits, (F64.fin false k).mul (.fin false l) = .fin false m ∧ |vq m - vq k * vq l| ≤ vq k * vq l / 2 ^ 53 + tinyQ ∧ m.val = nearest (magN k * magN l) oneN := by
  have ho := oneQ_pos
  have e : ((magN k * magN l : Nat) : Rat) / (oneN : Rat) / oneN = vq k * vq l := by
    unfold vq; push_cast; field_simp
  obtain ⟨m, h1, h2⟩ := round_ok (magN k * magN l) oneN oneN_pos (by rw [e]; exact h)
  refine ⟨m, (mul_fin_fin k l).trans h1, ?_, h2⟩
  have := nearest_errorQ (magN k * magN l) oneN oneN_pos
  rwa [e, ← h2] at this

/-- The quotient. -/
theorem div_ok (k l : Fin infBits) (hl : 0 < vq l) (h : vq k / vq l ≤ 10 ^ 305) :
    ∃ m : Fin infBits, (F64.fin false k).div (.fin false l) = .fin false m ∧ |vq m - vq k / vq l| ≤ vq k / vq l / 2 ^ 53 + tinyQ ∧ m.val = nearest (magN k * oneN) (magN l) := by
  have ho := oneQ_pos
  have hm : 0 < magN l := by
    apply Nat.pos_of_ne_zero
    intro h0
    unfold vq at hl
    rw [h0] at hl
    simp at hl
  have hmq : (0 : Rat) < magN l := by exact_mod_cast hm
  have e : ((magN k * oneN : Nat) : Rat) / (magN l : Rat) / oneN = vq k / vq l := by
    unfold vq; push_cast; field_simp
  obtain ⟨m, h1, h2⟩ := round_ok (magN k * oneN) (magN l) hm (by rw [e]; exact h)
  refine ⟨m, (div_fin_fin k l hm).trans h1, ?_, h2⟩
  have := nearest_errorQ (magN k * oneN) (magN l) hm
  rwa [e, ← h2] at this

/-! ## The powers of ten -/

/-- The power of ten after `j` digits. -/
def scaleF : Nat → F64
  | 0 => .ofInt 1
  | j + 1 => (scaleF j).mul (.ofInt 10)

theorem ten_ok : ∃ l : Fin infBits, F64.ofInt 10 = .fin false l ∧ magN l = 10 * oneN := by
  obtain ⟨l, h1, -, h2⟩ := ofInt_ok 10 (by norm_num)
  exact ⟨l, h1, h2 (by norm_num)⟩

/-- Ten times a number. -/
theorem mul_ten (k l : Fin infBits) (hl : magN l = 10 * oneN) : nearest (magN k * magN l) oneN = nearest (10 * magN k) 1 := by
  apply nearest_eq oneN_pos (by decide)
  rw [hl]; ring

theorem scale_near (j : Nat) (hj : j ≤ 300) : ∃ k : Fin infBits, scaleF j = .fin false k ∧ |vq k - 10 ^ j| ≤ (j : Rat) / 2 ^ 52 * 10 ^ j := by
  induction j with
  | zero =>
    obtain ⟨k, h1, -, h2⟩ := ofInt_ok 1 (by norm_num)
    refine ⟨k, h1, ?_⟩
    have h3 := h2 (by norm_num)
    have ho := oneQ_pos
    unfold vq
    rw [h3]
    have : (((1 * oneN : Nat) : Rat)) / oneN = 1 := by push_cast; field_simp
    rw [this]
    simp
  | succ j ih =>
    obtain ⟨k, h1, h2⟩ := ih (by omega)
    obtain ⟨l, hl, hl2⟩ := ten_ok
    have ho := oneQ_pos
    have hvl : vq l = 10 := by
      unfold vq; rw [hl2]; push_cast; field_simp
    have hj' : (j : Rat) ≤ 300 := by exact_mod_cast (by omega : j ≤ 300)
    have hjn : (0 : Rat) ≤ j := by positivity
    have hp : (0 : Rat) < 10 ^ j := by positivity
    have hp2 : (10 : Rat) ^ j ≤ 10 ^ 300 := pow_le_pow_right₀ (by norm_num) (by omega)
    have hb : (j : Rat) / 2 ^ 52 * 10 ^ j ≤ 10 ^ j / 10 := by
      have : (j : Rat) / 2 ^ 52 ≤ 1 / 10 := by
        rw [div_le_iff₀ (by norm_num)]
        linarith
      nlinarith
    rw [abs_le] at h2
    have hv : vq k ≤ 2 * 10 ^ j := by linarith [h2.2]
    have hk := vq_nonneg k
    have hlim : vq k * vq l ≤ 10 ^ 305 := by
      rw [hvl]
      have : (20 : Rat) * 10 ^ 300 ≤ 10 ^ 305 := by norm_num
      linarith
    obtain ⟨m, h3, -, h5⟩ := mul_ok k l hlim
    refine ⟨m, ?_, ?_⟩
    · show (scaleF j).mul (.ofInt 10) = _
      rw [h1, hl, h3]
    · have h6 := nearest_errorQ_one (10 * magN k)
      rw [← mul_ten k l hl2, ← h5] at h6
      have e : ((10 * magN k : Nat) : Rat) / oneN = 10 * vq k := by unfold vq; push_cast; ring
      rw [e, abs_le] at h6
      rw [pow_succ]
      push_cast
      have h7 : 10 * vq k / 2 ^ 53 ≤ 10 * 10 ^ j / 2 ^ 52 := by
        rw [div_le_div_iff₀ (by norm_num) (by norm_num)]
        nlinarith
      have e2 : ((j : Rat) + 1) / 2 ^ 52 * (10 ^ j * 10) = 10 * ((j : Rat) / 2 ^ 52 * 10 ^ j) + 10 * 10 ^ j / 2 ^ 52 := by ring
      rw [e2, abs_le]
      constructor
      · linarith [h2.1, h6.1]
      · linarith [h2.2, h6.2]

/-- Small powers are exact. -/
theorem scale_exact (j : Nat) (hj : j ≤ 15) : ∃ k : Fin infBits, scaleF j = .fin false k ∧ magN k = 10 ^ j * oneN := by
  induction j with
  | zero =>
    obtain ⟨k, h1, -, h2⟩ := ofInt_ok 1 (by norm_num)
    exact ⟨k, h1, by rw [h2 (by norm_num)]; simp⟩
  | succ j ih =>
    obtain ⟨k, h1, h2⟩ := ih (by omega)
    obtain ⟨l, hl, hl2⟩ := ten_ok
    have hp : 10 ^ (j + 1) ≤ 2 ^ 53 := by
      have : 10 ^ (j + 1) ≤ 10 ^ 15 := Nat.pow_le_pow_right (by norm_num) hj
      have : 10 ^ 15 ≤ 2 ^ 53 := by norm_num
      omega
    have ho := oneQ_pos
    have hvl : vq l = 10 := by
      unfold vq; rw [hl2]; push_cast; field_simp
    have hvk : vq k = 10 ^ j := by
      unfold vq; rw [h2]; push_cast; field_simp
    have hlim : vq k * vq l ≤ 10 ^ 305 := by
      rw [hvl, hvk, ← pow_succ]
      exact pow_le_pow_right₀ (by norm_num) (by omega)
    obtain ⟨m, h3, -, h5⟩ := mul_ok k l hlim
    refine ⟨m, ?_, ?_⟩
    · show (scaleF j).mul (.ofInt 10) = _
      rw [h1, hl, h3]
    · rw [h5, mul_ten k l hl2, h2]
      have e : 10 * (10 ^ j * oneN) = 10 ^ (j + 1) * oneN := by ring
      rw [e]
      exact exact_one _ hp

/-- Large powers stay large. -/
theorem scale_large (j : Nat) (hj : 300 ≤ j) : scaleF j = .inf false ∨ ∃ k : Fin infBits, scaleF j = .fin false k ∧ 10 ^ 299 ≤ vq k := by
  induction j, hj using Nat.le_induction with
  | base =>
    obtain ⟨k, h1, h2⟩ := scale_near 300 (by omega)
    refine Or.inr ⟨k, h1, ?_⟩
    rw [abs_le] at h2
    have h3 := h2.1
    have : (300 : Rat) / 2 ^ 52 * 10 ^ 300 ≤ 10 ^ 299 := by norm_num
    have e : (10 : Rat) ^ 300 = 10 * 10 ^ 299 := by norm_num
    push_cast at h3
    have hp : (0 : Rat) < 10 ^ 299 := by positivity
    linarith
  | succ j hj ih =>
    obtain ⟨l, hl, hl2⟩ := ten_ok
    have hpos := oneN_pos
    rcases ih with h | ⟨k, h1, h2⟩
    · left
      show (scaleF j).mul (.ofInt 10) = _
      rw [h, hl]
      show (if magN l = 0 then F64.nan else F64.inf (false != false)) = _
      rw [if_neg (by rw [hl2]; omega)]
      rfl
    · have e : scaleF (j + 1) = .round false (magN k * magN l) oneN := by
        show (scaleF j).mul (.ofInt 10) = _
        rw [h1, hl, mul_fin_fin]
      rw [e]
      unfold F64.round
      split
      · right
        refine ⟨_, rfl, ?_⟩
        show 10 ^ 299 ≤ vq (nearest (magN k * magN l) oneN)
        have hm : k.val ≤ nearest (magN k * magN l) oneN := by
          rw [mul_ten k l hl2]
          have := nearest_mono (a := magN k) (b := 1) (a' := 10 * magN k) (b' := 1) (by decide) (by decide) (by omega)
          rwa [nearest_magN_one] at this
        have h3 := magN_le hm
        have h4 : vq k ≤ vq (nearest (magN k * magN l) oneN) := by
          unfold vq
          apply div_le_div_of_nonneg_right _ oneQ_pos.le
          exact_mod_cast h3
        linarith
      · exact Or.inl rfl

/-! ## The fraction -/

/-- The nanoseconds of a fraction. -/
def fracNs (x u : Nat) (j : Nat) : Int := ((F64.ofInt x).mul ((F64.ofInt u).div (scaleF j))).toInt64

theorem toInt64_val (m : Fin infBits) : (((F64.fin false m).toInt64 : Int) : Rat) ≤ vq m ∧ vq m < (F64.fin false m).toInt64 + 1 ∧ 0 ≤ (F64.fin false m).toInt64 := by
  have ho := oneN_pos
  have hoq := oneQ_pos
  have e : (F64.fin false m).toInt64 = ((magN m / oneN : Nat) : Int) := rfl
  rw [e]
  have h1 := Nat.div_add_mod (magN m) oneN
  have h2 := Nat.mod_lt (magN m) ho
  refine ⟨?_, ?_, by positivity⟩
  · unfold vq
    rw [le_div_iff₀ hoq]
    have : (magN m / oneN) * oneN ≤ magN m := Nat.div_mul_le_self _ _
    exact_mod_cast this
  · unfold vq
    rw [div_lt_iff₀ hoq]
    have : magN m < (magN m / oneN + 1) * oneN := by
      rw [Nat.add_mul, Nat.one_mul, Nat.mul_comm]
      omega
    exact_mod_cast this

/-- The error of the arithmetic. -/
theorem error_bound {x w X D P η t : Rat} (hx : 0 ≤ x) (hx2 : x ≤ 2 ^ 63) (hw : 0 ≤ w) (ht : 0 ≤ t) (ht2 : t ≤ 1 / 10 ^ 40) (_hη : 0 ≤ η)
    (hy : x * w ≤ 36 * 10 ^ 11) (hηy : x * w * η ≤ 1 / 50) (hη2 : η ≤ 1 / 2 ^ 10) (hD : 0 ≤ D)
    (h1 : |X - x| ≤ x / 2 ^ 53) (h2 : |D - w| ≤ (2 * η + 1 / 2 ^ 52) * w + t) (h3 : |P - X * D| ≤ X * D / 2 ^ 53 + t) : |P - x * w| ≤ 1 / 20 := by
  have hxt : x * t ≤ 1 / 10 ^ 20 := by
    have : x * t ≤ 2 ^ 63 * (1 / 10 ^ 40) := mul_le_mul hx2 ht2 ht (by norm_num)
    have : (2 ^ 63 * (1 / 10 ^ 40) : Rat) ≤ 1 / 10 ^ 20 := by norm_num
    linarith
  have hxt0 : 0 ≤ x * t := mul_nonneg hx ht
  have hxw0 : 0 ≤ x * w := mul_nonneg hx hw
  have hD2 : D ≤ 2 * w + t := by
    rw [abs_le] at h2
    have : (2 * η + 1 / 2 ^ 52) * w ≤ 1 * w := by
      apply mul_le_mul_of_nonneg_right _ hw
      have : (2 * (1 / 2 ^ 10) + 1 / 2 ^ 52 : Rat) ≤ 1 := by norm_num
      linarith
    linarith [h2.2]
  have a1 : |(X - x) * D| ≤ (2 * (x * w) + x * t) / 2 ^ 53 := by
    rw [abs_mul, abs_of_nonneg hD]
    have : |X - x| * D ≤ x / 2 ^ 53 * (2 * w + t) := mul_le_mul h1 hD2 hD (by positivity)
    have e : x / 2 ^ 53 * (2 * w + t) = (2 * (x * w) + x * t) / 2 ^ 53 := by ring
    linarith
  have a2 : |x * (D - w)| ≤ 2 * (x * w * η) + x * w / 2 ^ 52 + x * t := by
    rw [abs_mul, abs_of_nonneg hx]
    have : x * |D - w| ≤ x * ((2 * η + 1 / 2 ^ 52) * w + t) := mul_le_mul_of_nonneg_left h2 hx
    have e : x * ((2 * η + 1 / 2 ^ 52) * w + t) = 2 * (x * w * η) + x * w / 2 ^ 52 + x * t := by ring
    linarith
  have hX : X ≤ 2 * x := by
    rw [abs_le] at h1
    have : x / 2 ^ 53 ≤ x := by
      rw [div_le_iff₀ (by norm_num)]
      linarith
    linarith [h1.2]
  have a3 : X * D ≤ 4 * (x * w) + 2 * (x * t) := by
    have : X * D ≤ 2 * x * (2 * w + t) := mul_le_mul hX hD2 hD (by positivity)
    have e : 2 * x * (2 * w + t) = 4 * (x * w) + 2 * (x * t) := by ring
    linarith
  have e : P - x * w = (P - X * D) + ((X - x) * D + x * (D - w)) := by ring
  have b1 := abs_add_le (P - X * D) ((X - x) * D + x * (D - w))
  have b2 := abs_add_le ((X - x) * D) (x * (D - w))
  rw [e]
  have c1 : X * D / 2 ^ 53 ≤ (4 * (x * w) + 2 * (x * t)) / 2 ^ 53 := div_le_div_of_nonneg_right a3 (by norm_num)
  have c2 : (4 * (x * w) + 2 * (x * t)) / 2 ^ 53 + t + ((2 * (x * w) + x * t) / 2 ^ 53 + (2 * (x * w * η) + x * w / 2 ^ 52 + x * t)) ≤ 1 / 20 := by
    have d1 : (1 / 10 ^ 20 : Rat) ≤ 1 / 1000 := by norm_num
    have d2 : (1 / 10 ^ 40 : Rat) ≤ 1 / 1000 := by norm_num
    have d3 : (4 * (x * w) + 2 * (x * t)) / 2 ^ 53 = x * w * (4 / 2 ^ 53) + x * t * (2 / 2 ^ 53) := by ring
    have d4 : (2 * (x * w) + x * t) / 2 ^ 53 = x * w * (2 / 2 ^ 53) + x * t * (1 / 2 ^ 53) := by ring
    have d5 : x * w / 2 ^ 52 = x * w * (2 / 2 ^ 53) := by ring
    rw [d3, d4, d5]
    have f1 : x * w * (8 / 2 ^ 53) ≤ 36 * 10 ^ 11 * (8 / 2 ^ 53) := mul_le_mul_of_nonneg_right hy (by norm_num)
    have f2 : (36 * 10 ^ 11 * (8 / 2 ^ 53) : Rat) ≤ 4 / 1000 := by norm_num
    have f3 : x * t * (2 / 2 ^ 53) ≤ x * t := by nlinarith
    have f4 : x * t * (1 / 2 ^ 53) ≤ x * t := by nlinarith
    have f5 : x * w * (8 / 2 ^ 53) = x * w * (4 / 2 ^ 53) + x * w * (2 / 2 ^ 53) + x * w * (2 / 2 ^ 53) := by ring
    linarith
  linarith

/-- The quotient by a power of ten that is known up to `η`. -/
theorem quotient_bound {u s S η t D U : Rat} (hu : 0 ≤ u) (hs : 0 < s) (hη : 0 ≤ η) (hη2 : η ≤ 1 / 2 ^ 10) (hS : |S - s| ≤ η * s)
    (hU : U = u) (hD : |D - U / S| ≤ U / S / 2 ^ 53 + t) : |D - u / s| ≤ (2 * η + 1 / 2 ^ 52) * (u / s) + t ∧ 0 < S ∧ U / S ≤ 2 * (u / s) := by
  subst hU
  have hS0 : 0 < S := by
    rw [abs_le] at hS
    have : η * s ≤ 1 / 2 ^ 10 * s := mul_le_mul_of_nonneg_right hη2 hs.le
    have e : (1 / 2 ^ 10 * s : Rat) < s := by linarith
    linarith [hS.1]
  have h1 : |U / S - U / s| ≤ 2 * η * (U / s) := by
    have e : U / S - U / s = U / s * ((s - S) / S) := by field_simp
    rw [e, abs_mul, abs_of_nonneg (by positivity), mul_comm]
    apply mul_le_mul_of_nonneg_right _ (by positivity)
    rw [abs_div, abs_of_pos hS0, div_le_iff₀ hS0, abs_sub_comm]
    rw [abs_le] at hS
    have : η * s ≤ 1 / 2 ^ 10 * s := mul_le_mul_of_nonneg_right hη2 hs.le
    have h2 : s ≤ 2 * S := by linarith [hS.1]
    have : η * s ≤ η * (2 * S) := mul_le_mul_of_nonneg_left h2 hη
    rw [abs_le]
    constructor <;> linarith [hS.1, hS.2]
  have hw : 0 ≤ U / s := by positivity
  have h4 : U / S ≤ 2 * (U / s) := by
    rw [abs_le] at h1
    have : 2 * η * (U / s) ≤ 1 * (U / s) := by
      apply mul_le_mul_of_nonneg_right _ hw
      linarith
    linarith [h1.2]
  refine ⟨?_, hS0, h4⟩
  have h5 : U / S / 2 ^ 53 ≤ 1 / 2 ^ 52 * (U / s) := by
    rw [div_le_iff₀ (by norm_num)]
    have e : 1 / 2 ^ 52 * (U / s) * 2 ^ 53 = 2 * (U / s) := by ring
    rw [e]; exact h4
  have e : D - U / s = (D - U / S) + (U / S - U / s) := by ring
  rw [e]
  have := abs_add_le (D - U / S) (U / S - U / s)
  have e2 : (2 * η + 1 / 2 ^ 52) * (U / s) + t = 2 * η * (U / s) + 1 / 2 ^ 52 * (U / s) + t := by ring
  rw [e2]
  linarith

/-- The nanoseconds of a fraction are near. -/
theorem fracNs_near (x u j : Nat) (hx : x < 2 ^ 63) (hxj : x < 10 ^ j) (hu : 1 ≤ u) (hu2 : u ≤ 36 * 10 ^ 11) :
    0 ≤ fracNs x u j ∧ (fracNs x u j : Rat) ≤ (x : Rat) * u / 10 ^ j + 1 / 20 ∧ (x : Rat) * u / 10 ^ j - 21 / 20 < fracNs x u j := by
  have hoq := oneQ_pos
  have ht := tinyQ_pos
  have ht2 := tinyQ_small
  obtain ⟨a, a1, a2, -⟩ := ofInt_ok x hx
  obtain ⟨b, b1, -, b3⟩ := ofInt_ok u (by omega)
  have hb3 := b3 (by omega)
  have hub : vq b = u := by unfold vq; rw [hb3]; push_cast; field_simp
  have huq : (0 : Rat) < u := by exact_mod_cast hu
  have huq2 : (u : Rat) ≤ 36 * 10 ^ 11 := by exact_mod_cast hu2
  have hxq : (0 : Rat) ≤ x := by positivity
  have hxq2 : (x : Rat) ≤ 2 ^ 63 := by exact_mod_cast hx.le
  have hp : (0 : Rat) < 10 ^ j := by positivity
  have hxj' : (x : Rat) ≤ 10 ^ j := by exact_mod_cast hxj.le
  have hX : vq a ≤ 2 ^ 64 := by
    rw [abs_le] at a2
    have : (x : Rat) / 2 ^ 53 ≤ x := by
      rw [div_le_iff₀ (by norm_num)]; linarith
    have e : (2 ^ 64 : Rat) = 2 * 2 ^ 63 := by norm_num
    linarith [a2.2]
  have hX0 := vq_nonneg a
  have hxw : (x : Rat) * (u / 10 ^ j) ≤ 36 * 10 ^ 11 := by
    have : (x : Rat) * (u / 10 ^ j) = x / 10 ^ j * u := by ring
    rw [this]
    have h1 : (x : Rat) / 10 ^ j ≤ 1 := by rw [div_le_one hp]; exact hxj'
    have h2 : (x : Rat) / 10 ^ j * u ≤ 1 * u := mul_le_mul_of_nonneg_right h1 huq.le
    linarith
  by_cases hj : j ≤ 300
  · obtain ⟨k, k1, k2⟩ := scale_near j hj
    have hη2 : (j : Rat) / 2 ^ 52 ≤ 1 / 2 ^ 10 := by
      have : (j : Rat) ≤ 300 := by exact_mod_cast hj
      rw [div_le_iff₀ (by norm_num)]
      have : (300 : Rat) ≤ 1 / 2 ^ 10 * 2 ^ 52 := by norm_num
      linarith
    have hη : (0 : Rat) ≤ (j : Rat) / 2 ^ 52 := by positivity
    have hηy : (x : Rat) * (u / 10 ^ j) * ((j : Rat) / 2 ^ 52) ≤ 1 / 50 := by
      by_cases hj2 : j ≤ 20
      · have h1 : (j : Rat) / 2 ^ 52 ≤ 20 / 2 ^ 52 := div_le_div_of_nonneg_right (by exact_mod_cast hj2) (by norm_num)
        have : (x : Rat) * (u / 10 ^ j) * ((j : Rat) / 2 ^ 52) ≤ 36 * 10 ^ 11 * (20 / 2 ^ 52) := mul_le_mul hxw h1 hη (by norm_num)
        have : (36 * 10 ^ 11 * (20 / 2 ^ 52) : Rat) ≤ 1 / 50 := by norm_num
        linarith
      · have h0 : (10 : Rat) ^ 21 ≤ 10 ^ j := pow_le_pow_right₀ (by norm_num) (by omega)
        have h1 : (j : Rat) / 2 ^ 52 ≤ 300 / 2 ^ 52 := div_le_div_of_nonneg_right (by exact_mod_cast hj) (by norm_num)
        have h2 : (u : Rat) / 10 ^ j ≤ 36 * 10 ^ 11 / 10 ^ 21 := div_le_div₀ (by norm_num) huq2 (by norm_num) h0
        have h3 : (x : Rat) * (u / 10 ^ j) ≤ 2 ^ 63 * (36 * 10 ^ 11 / 10 ^ 21) := mul_le_mul hxq2 h2 (by positivity) (by norm_num)
        have : (x : Rat) * (u / 10 ^ j) * ((j : Rat) / 2 ^ 52) ≤ 2 ^ 63 * (36 * 10 ^ 11 / 10 ^ 21) * (300 / 2 ^ 52) := mul_le_mul h3 h1 hη (by norm_num)
        have : (2 ^ 63 * (36 * 10 ^ 11 / 10 ^ 21) * (300 / 2 ^ 52) : Rat) ≤ 1 / 50 := by norm_num
        linarith
    -- the quotient
    have hS0 : 0 < vq k := by
      rw [abs_le] at k2
      have : (j : Rat) / 2 ^ 52 * 10 ^ j ≤ 1 / 2 ^ 10 * 10 ^ j := mul_le_mul_of_nonneg_right hη2 hp.le
      linarith [k2.1]
    have hq1 : vq b / vq k ≤ 10 ^ 305 := by
      rw [div_le_iff₀ hS0, hub]
      rw [abs_le] at k2
      have h1 : (j : Rat) / 2 ^ 52 * 10 ^ j ≤ 1 / 2 ^ 10 * 10 ^ j := mul_le_mul_of_nonneg_right hη2 hp.le
      have h2 : (1 : Rat) ≤ 10 ^ j := one_le_pow₀ (by norm_num)
      have h3 : (1 / 2 : Rat) ≤ vq k := by linarith [k2.1]
      have h4 : (10 ^ 305 * (1 / 2) : Rat) ≤ 10 ^ 305 * vq k := mul_le_mul_of_nonneg_left h3 (by norm_num)
      have h5 : (36 * 10 ^ 11 : Rat) ≤ 10 ^ 305 * (1 / 2) := by norm_num
      linarith
    obtain ⟨D, D1, D2, -⟩ := div_ok b k hS0 hq1
    obtain ⟨q1, -, q3⟩ := quotient_bound (u := u) (s := 10 ^ j) (S := vq k) (η := (j : Rat) / 2 ^ 52) (t := tinyQ) (D := vq D) (U := vq b)
      huq.le hp hη hη2 k2 hub D2
    have hw1 : (u : Rat) / 10 ^ j ≤ 36 * 10 ^ 11 := by
      rw [div_le_iff₀ hp]
      have h2 : (1 : Rat) ≤ 10 ^ j := one_le_pow₀ (by norm_num)
      have : (36 * 10 ^ 11 * 1 : Rat) ≤ 36 * 10 ^ 11 * 10 ^ j := mul_le_mul_of_nonneg_left h2 (by norm_num)
      linarith
    have hD0 := vq_nonneg D
    have hDle : vq D ≤ 10 ^ 14 := by
      rw [abs_le] at D2
      have h1 : vq b / vq k / 2 ^ 53 ≤ vq b / vq k := by
        have : 0 ≤ vq b / vq k := div_nonneg (vq_nonneg b) hS0.le
        rw [div_le_iff₀ (by norm_num)]
        linarith
      have : (1 / 10 ^ 40 : Rat) ≤ 1 := by norm_num
      linarith [D2.2]
    have hm : vq a * vq D ≤ 10 ^ 305 := by
      have : vq a * vq D ≤ 2 ^ 64 * 10 ^ 14 := mul_le_mul hX hDle hD0 (by norm_num)
      have : (2 ^ 64 * 10 ^ 14 : Rat) ≤ 10 ^ 305 := by norm_num
      linarith
    obtain ⟨P, P1, P2, -⟩ := mul_ok a D hm
    have hfin : fracNs x u j = (F64.fin false P).toInt64 := by
      unfold fracNs
      rw [a1, b1, k1, D1, P1]
    have hb := error_bound (x := x) (w := u / 10 ^ j) (X := vq a) (D := vq D) (P := vq P) (η := (j : Rat) / 2 ^ 52) (t := tinyQ)
      hxq hxq2 (by positivity) ht.le ht2 hη hxw hηy hη2 hD0 a2 q1 P2
    rw [abs_le] at hb
    obtain ⟨t1, t2, t3⟩ := toInt64_val P
    rw [hfin]
    have e : (x : Rat) * u / 10 ^ j = x * (u / 10 ^ j) := by ring
    rw [e]
    refine ⟨t3, ?_, ?_⟩
    · linarith [hb.2]
    · linarith [hb.1]
  · -- so many digits that nothing is left
    have hz : fracNs x u j = 0 := by
      unfold fracNs
      rw [a1, b1]
      rcases scale_large j (by omega) with h | ⟨k, k1, k2⟩
      · rw [h]
        show ((F64.fin false a).mul (.fin false ⟨0, _⟩)).toInt64 = 0
        rw [mul_fin_fin]
        have e : magN 0 = 0 := by decide
        show (F64.round false (magN a * magN 0) oneN).toInt64 = 0
        rw [e, Nat.mul_zero]
        obtain ⟨m, h1, h2⟩ := round_ok 0 oneN oneN_pos (by simp)
        rw [h1]
        show ((magN m / oneN : Nat) : Int) = 0
        rw [h2, nearest_zero _ oneN_pos, e]
        simp
      · have hS0 : 0 < vq k := lt_of_lt_of_le (by positivity) k2
        have hq : vq b / vq k ≤ 36 * 10 ^ 11 / 10 ^ 299 := by
          rw [hub]
          exact div_le_div₀ (by norm_num) huq2 (by norm_num) k2
        have hq0 : 0 ≤ vq b / vq k := div_nonneg (vq_nonneg b) hS0.le
        obtain ⟨D, D1, D2, -⟩ := div_ok b k hS0 (hq.trans (by norm_num))
        have hD0 := vq_nonneg D
        have hDle : vq D ≤ 1 / 10 ^ 30 := by
          rw [abs_le] at D2
          have h1 : vq b / vq k / 2 ^ 53 ≤ vq b / vq k := by
            rw [div_le_iff₀ (by norm_num)]
            linarith
          have : (36 * 10 ^ 11 / 10 ^ 299 * 2 + 1 / 10 ^ 40 : Rat) ≤ 1 / 10 ^ 30 := by norm_num
          linarith [D2.2]
        have hXD : vq a * vq D ≤ 2 ^ 64 * (1 / 10 ^ 30) := mul_le_mul hX hDle hD0 (by norm_num)
        obtain ⟨P, P1, P2, -⟩ := mul_ok a D (hXD.trans (by norm_num))
        rw [k1, D1, P1]
        obtain ⟨t1, -, t3⟩ := toInt64_val P
        have hP : vq P < 1 := by
          rw [abs_le] at P2
          have h0 : 0 ≤ vq a * vq D := mul_nonneg hX0 hD0
          have h1 : vq a * vq D / 2 ^ 53 ≤ vq a * vq D := by
            rw [div_le_iff₀ (by norm_num)]
            linarith
          have : (2 ^ 64 * (1 / 10 ^ 30) * 2 + 1 / 10 ^ 40 : Rat) < 1 := by norm_num
          linarith [P2.2]
        have h1 : (((F64.fin false P).toInt64 : Int) : Rat) < 1 := lt_of_le_of_lt t1 hP
        have h2 : (F64.fin false P).toInt64 < 1 := by exact_mod_cast h1
        omega
    rw [hz]
    have hy0 : 0 ≤ (x : Rat) * u / 10 ^ j := by positivity
    have hy1 : (x : Rat) * u / 10 ^ j ≤ 1 / 20 := by
      have h0 : (10 : Rat) ^ 300 ≤ 10 ^ j := pow_le_pow_right₀ (by norm_num) (by omega)
      have h1 : (x : Rat) * u ≤ 2 ^ 63 * (36 * 10 ^ 11) := mul_le_mul hxq2 huq2 huq.le (by norm_num)
      have : (x : Rat) * u / 10 ^ j ≤ 2 ^ 63 * (36 * 10 ^ 11) / 10 ^ 300 := div_le_div₀ (by norm_num) h1 (by norm_num) h0
      exact this.trans (by norm_num)
    refine ⟨le_refl _, ?_, ?_⟩
    · push_cast; linarith
    · push_cast; linarith

/-- A fraction of whole nanoseconds is exact. -/
theorem fracNs_exact (x u j : Nat) (hxj : x < 10 ^ j) (hu : 1 ≤ u) (hu2 : u ≤ 36 * 10 ^ 11) (hd : 10 ^ j ∣ u) :
    fracNs x u j = (x * (u / 10 ^ j) : Nat) := by
  have hoq := oneQ_pos
  have ho := oneN_pos
  obtain ⟨c, rfl⟩ := hd
  have hp : 0 < 10 ^ j := by positivity
  have hc : 1 ≤ c := by
    rcases Nat.eq_zero_or_pos c with h | h
    · subst h; omega
    · exact h
  have hj : j ≤ 15 := by
    by_contra h
    have h1 : 10 ^ 16 ≤ 10 ^ j := Nat.pow_le_pow_right (by norm_num) (by omega)
    have h2 : 10 ^ j * 1 ≤ 10 ^ j * c := Nat.mul_le_mul_left _ hc
    have h3 : (36 * 10 ^ 11 : Nat) < 10 ^ 16 := by norm_num
    omega
  have hjp : 10 ^ j ≤ 10 ^ 15 := Nat.pow_le_pow_right (by norm_num) hj
  have h15 : 10 ^ 15 ≤ 2 ^ 53 := by norm_num
  have hcle : c ≤ 36 * 10 ^ 11 := by
    have : 1 * c ≤ 10 ^ j * c := Nat.mul_le_mul_right _ hp
    omega
  have h53 : (36 * 10 ^ 11 : Nat) ≤ 2 ^ 53 := by norm_num
  have hx53 : x ≤ 2 ^ 53 := by omega
  rw [Nat.mul_div_cancel_left c hp]
  obtain ⟨a, a1, -, a3⟩ := ofInt_ok x (by omega)
  obtain ⟨b, b1, -, b3⟩ := ofInt_ok (10 ^ j * c) (by omega)
  obtain ⟨k, k1, k2⟩ := scale_exact j hj
  have ha := a3 hx53
  have hb := b3 (by omega)
  have hkq : 0 < vq k := by
    unfold vq; rw [k2]; push_cast; positivity
  have hq : vq b / vq k = c := by
    unfold vq; rw [hb, k2]; push_cast; field_simp
  have hcq : (c : Rat) ≤ 36 * 10 ^ 11 := by exact_mod_cast hcle
  obtain ⟨D, D1, -, D3⟩ := div_ok b k hkq (by rw [hq]; exact hcq.trans (by norm_num))
  have hD : magN D = c * oneN := by
    rw [D3, hb, k2]
    have : nearest (10 ^ j * c * oneN * oneN) (10 ^ j * oneN) = nearest (c * oneN) 1 := by
      apply nearest_eq (by positivity) (by decide)
      ring
    rw [this]
    exact exact_one c (by omega)
  have hva : vq a = x := by unfold vq; rw [ha]; push_cast; field_simp
  have hvD : vq D = c := by unfold vq; rw [hD]; push_cast; field_simp
  have hxc : x * c ≤ 10 ^ j * c := Nat.mul_le_mul_right _ hxj.le
  have hxcq : (x : Rat) * c ≤ 36 * 10 ^ 11 := by exact_mod_cast hxc.trans hu2
  obtain ⟨P, P1, -, P3⟩ := mul_ok a D (by rw [hva, hvD]; exact hxcq.trans (by norm_num))
  have hP : magN P = x * c * oneN := by
    rw [P3, ha, hD]
    have : nearest (x * oneN * (c * oneN)) oneN = nearest (x * c * oneN) 1 := by
      apply nearest_eq ho (by decide)
      ring
    rw [this]
    exact exact_one _ (by omega)
  unfold fracNs
  rw [a1, b1, k1, D1, P1]
  show ((magN P / oneN : Nat) : Int) = _
  rw [hP, Nat.mul_div_cancel _ ho]

end Spout
