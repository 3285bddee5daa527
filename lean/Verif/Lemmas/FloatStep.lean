import Verif.Lemmas.Float64

/-! # Lemmas about float64 with signs, and about the incremental average -/

namespace Spout

attribute [local irreducible] oneN infBits

/-- `u / b` units rounded to a float64, in units. -/
def rn (u : Int) (b : Nat) : Int := if u < 0 then -(magN (nearest u.natAbs b) : Int) else magN (nearest u.natAbs b)

/-- The largest finite float64, in units. -/
def maxU : Nat := magN (infBits - 1)

theorem maxU_eq : maxU = (2 ^ 53 - 1) * 2 ^ 2045 := by decide +kernel

attribute [local irreducible] maxU

theorem rn_nonneg {u : Int} (h : 0 ≤ u) (b : Nat) : rn u b = magN (nearest u.natAbs b) := by
  unfold rn; rw [if_neg (by omega)]

theorem rn_nonpos {u : Int} (h : u ≤ 0) (b : Nat) (hb : 0 < b) : rn u b = -(magN (nearest u.natAbs b) : Int) := by
  unfold rn
  by_cases h0 : u < 0
  · rw [if_pos h0]
  · have : u = 0 := by omega
    subst this
    simp [nearest_zero b hb]

theorem rn_neg (u : Int) (b : Nat) (hb : 0 < b) : rn (-u) b = -rn u b := by
  rcases Int.le_total 0 u with h | h
  · rw [rn_nonneg h, rn_nonpos (by omega) b hb, Int.natAbs_neg]
  · rw [rn_nonpos h b hb, rn_nonneg (by omega), Int.natAbs_neg, Int.neg_neg]

theorem rn_zero (b : Nat) (hb : 0 < b) : rn 0 b = 0 := by
  rw [rn_nonneg (by omega)]
  simp [nearest_zero b hb]

theorem rn_mono {u u' : Int} {b b' : Nat} (hb : 0 < b) (hb' : 0 < b') (h : u * b' ≤ u' * b) : rn u b ≤ rn u' b' := by
  have hbz : (0 : Int) < b := by exact_mod_cast hb
  have hbz' : (0 : Int) < b' := by exact_mod_cast hb'
  rcases Int.le_total 0 u with h1 | h1
  · have h2 : 0 ≤ u' := by
      by_contra h2
      have : u' * b < 0 := mul_neg_of_neg_of_pos (by omega) hbz
      have : 0 ≤ u * b' := mul_nonneg h1 (by omega)
      omega
    rw [rn_nonneg h1, rn_nonneg h2]
    obtain ⟨n, rfl⟩ := Int.eq_ofNat_of_zero_le h1
    obtain ⟨n', rfl⟩ := Int.eq_ofNat_of_zero_le h2
    have h3 : n * b' ≤ n' * b := by exact_mod_cast h
    simpa using magN_le (nearest_mono hb hb' h3)
  · rw [rn_nonpos h1 b hb]
    rcases Int.le_total 0 u' with h2 | h2
    · rw [rn_nonneg h2]; omega
    · rw [rn_nonpos h2 b' hb']
      obtain ⟨n, hn⟩ := Int.eq_ofNat_of_zero_le (a := -u) (by omega)
      obtain ⟨n', hn'⟩ := Int.eq_ofNat_of_zero_le (a := -u') (by omega)
      have e1 : u = -(n : Int) := by omega
      have e2 : u' = -(n' : Int) := by omega
      subst e1
      subst e2
      have h3 : n' * b ≤ n * b' := by
        have : -((n : Int) * b') ≤ -((n' : Int) * b) := by linarith
        have : (n' : Int) * b ≤ n * b' := by omega
        exact_mod_cast this
      have := magN_le (nearest_mono hb' hb h3)
      simp only [Int.natAbs_neg, Int.natAbs_natCast]
      omega

theorem rn_eq {u u' : Int} {b b' : Nat} (hb : 0 < b) (hb' : 0 < b') (h : u * b' = u' * b) : rn u b = rn u' b' :=
  Int.le_antisymm (rn_mono hb hb' (le_of_eq h)) (rn_mono hb' hb (le_of_eq h.symm))

theorem rn_mag (k : Nat) (b : Nat) (hb : 0 < b) : rn (magN k * b) b = magN k := by
  rw [rn_nonneg (by positivity)]
  have : ((magN k : Int) * b).natAbs = magN k * b := by
    rw [Int.natAbs_mul]; rfl
  rw [this, nearest_magN k b hb]

theorem rn_mag_one (k : Nat) : rn (magN k) 1 = magN k := by
  have := rn_mag k 1 (by decide)
  simpa using this

/-- The relative error for a whole number of units. -/
theorem rn_error_one (u : Int) : 2 ^ 53 * |rn u 1 - u| ≤ |u| := by
  have key : ∀ n : Nat, 2 ^ 53 * |rn n 1 - n| ≤ (n : Int) := by
    intro n
    rw [rn_nonneg (by omega)]
    have := nearest_error_one n
    simp only [Int.natAbs_natCast]
    rcases abs_cases ((magN (nearest n 1) : Int) - n) with h | h <;> omega
  rcases Int.le_total 0 u with h | h
  · obtain ⟨n, rfl⟩ := Int.eq_ofNat_of_zero_le h
    have := key n
    rwa [abs_of_nonneg (a := (n : Int)) (by omega)]
  · obtain ⟨n, hn⟩ := Int.eq_ofNat_of_zero_le (a := -u) (by omega)
    have e1 : u = -(n : Int) := by omega
    subst e1
    rw [rn_neg _ 1 (by decide), abs_neg (n : Int), abs_of_nonneg (a := (n : Int)) (by omega)]
    have := key n
    have e : -rn (n : Int) 1 - -(n : Int) = -(rn n 1 - n) := by ring
    rwa [e, abs_neg]

/-- The error of a division. -/
theorem rn_error (u : Int) (b : Nat) (hb : 0 < b) : 2 * |b * rn u b - u| ≤ b ∨ 2 ^ 53 * |b * rn u b - u| ≤ |u| := by
  have key : ∀ n : Nat, 2 * |b * rn n b - n| ≤ b ∨ 2 ^ 53 * |b * rn n b - n| ≤ (n : Int) := by
    intro n
    rw [rn_nonneg (by omega)]
    have h0 := nearest_error n b hb
    simp only [Int.natAbs_natCast]
    have e : (b : Int) * magN (nearest n b) = ((b * magN (nearest n b) : Nat) : Int) := by push_cast; rfl
    rw [e]
    rcases abs_cases (((b * magN (nearest n b) : Nat) : Int) - n) with h | h <;> omega
  rcases Int.le_total 0 u with h | h
  · obtain ⟨n, rfl⟩ := Int.eq_ofNat_of_zero_le h
    have := key n
    rwa [abs_of_nonneg (a := (n : Int)) (by omega)]
  · obtain ⟨n, hn⟩ := Int.eq_ofNat_of_zero_le (a := -u) (by omega)
    have e1 : u = -(n : Int) := by omega
    subst e1
    rw [rn_neg _ b hb, abs_neg (n : Int), abs_of_nonneg (a := (n : Int)) (by omega)]
    have := key n
    have e : (b : Int) * -rn (n : Int) b - -(n : Int) = -(b * rn n b - n) := by ring
    rwa [e, abs_neg]

/-! ## The operations -/

/-- A finite number. -/
def F64.Finite (x : F64) : Prop := ∃ s k, x = .fin s k

theorem nearest_lt_inf {a b : Nat} (hb : 0 < b) (h : a ≤ maxU * b) : nearest a b < infBits := by
  have h1 : nearest a b ≤ infBits - 1 := by
    have := nearest_mono (a := a) (b := b) (a' := maxU * b) (b' := b) hb hb (Nat.mul_le_mul_right _ h)
    unfold maxU at this
    rwa [nearest_magN _ b hb] at this
  have : 0 < infBits := by decide +kernel
  omega

@[simp] theorem units_pos (k : Fin infBits) : (F64.fin false k).units = magN k := rfl
@[simp] theorem units_min (k : Fin infBits) : (F64.fin true k).units = -(magN k : Int) := rfl

theorem abs_units (s : Bool) (k : Fin infBits) : |(F64.fin s k).units| = (magN k : Int) := by
  cases s
  · rw [units_pos, abs_of_nonneg (by omega)]
  · rw [units_min, abs_neg, abs_of_nonneg (by omega)]

theorem units_le (x : F64) : |x.units| ≤ maxU := by
  cases x with
  | nan => simp [F64.units]
  | inf s => simp [F64.units]
  | fin s k =>
    have h := magN_le (k := k.val) (l := infBits - 1) (by have := k.isLt; omega)
    rw [abs_units]
    unfold maxU
    exact_mod_cast h

/-- Every finite float64 is rounded to itself. -/
theorem rn_units (x : F64) (b : Nat) (hb : 0 < b) : rn (x.units * b) b = x.units := by
  cases x with
  | nan => simpa [F64.units] using rn_zero b hb
  | inf s => simpa [F64.units] using rn_zero b hb
  | fin s k =>
    have := rn_mag k.val b hb
    cases s
    · exact this
    · rw [units_min, Int.neg_mul, rn_neg _ b hb, this]

theorem rn_units_one (x : F64) : rn x.units 1 = x.units := by
  have := rn_units x 1 (by decide)
  simpa using this

theorem round_fin (s : Bool) (a b : Nat) (hb : 0 < b) (h : a ≤ maxU * b) :
    (F64.round s a b).Finite ∧ (F64.round s a b).units = if s then -(magN (nearest a b) : Int) else magN (nearest a b) := by
  unfold F64.round
  rw [dif_pos (nearest_lt_inf hb h)]
  exact ⟨⟨_, _, rfl⟩, rfl⟩

theorem ofUnits_fin (z : Bool) (u : Int) (h : |u| ≤ maxU) :
    (F64.ofUnits z u).Finite ∧ (F64.ofUnits z u).units = rn u 1 := by
  have h1 : u.natAbs ≤ maxU * 1 := by
    rw [Int.abs_eq_natAbs] at h
    omega
  unfold F64.ofUnits
  obtain ⟨h2, h3⟩ := round_fin (if u = 0 then z else decide (u < 0)) u.natAbs 1 (by decide) h1
  refine ⟨h2, h3.trans ?_⟩
  by_cases h0 : u = 0
  · subst h0
    simp [nearest_zero, rn_zero]
  · rw [if_neg h0]
    unfold rn
    by_cases h4 : u < 0 <;> simp [h4]

theorem units_neg (x : F64) : x.neg.units = -x.units := by
  cases x with
  | nan => rfl
  | inf s => rfl
  | fin s k => cases s <;> simp [F64.neg, F64.units]

theorem add_fin {x y : F64} (hx : x.Finite) (hy : y.Finite) (h : |x.units + y.units| ≤ maxU) :
    (x.add y).Finite ∧ (x.add y).units = rn (x.units + y.units) 1 := by
  obtain ⟨s, k, rfl⟩ := hx
  obtain ⟨t, l, rfl⟩ := hy
  exact ofUnits_fin _ _ h

theorem sub_fin {x y : F64} (hx : x.Finite) (hy : y.Finite) (h : |x.units - y.units| ≤ maxU) :
    (x.sub y).Finite ∧ (x.sub y).units = rn (x.units - y.units) 1 := by
  have hn : y.neg.Finite := by
    obtain ⟨t, l, rfl⟩ := hy
    exact ⟨_, _, rfl⟩
  have := add_fin hx hn (by rw [units_neg]; simpa [sub_eq_add_neg] using h)
  rw [units_neg] at this
  simpa [F64.sub, sub_eq_add_neg] using this

theorem div_fin {x y : F64} (hx : x.Finite) (hy : y.Finite) (hy0 : 0 < y.units) (h : |x.units| * oneN ≤ maxU * y.units) :
    (x.div y).Finite ∧ (x.div y).units = rn (x.units * oneN) y.units.natAbs := by
  obtain ⟨s, k, rfl⟩ := hx
  obtain ⟨t, l, rfl⟩ := hy
  have ht : t = false := by
    cases t
    · rfl
    · simp only [F64.units, if_true] at hy0
      omega
  subst ht
  rw [units_pos] at hy0 h
  have hl : 0 < magN l := by omega
  have e1 : (F64.fin false l).units.natAbs = magN l := by simp [F64.units]
  rw [abs_units] at h
  have h1 : magN k * oneN ≤ maxU * magN l := by
    exact_mod_cast h
  obtain ⟨h2, h3⟩ := round_fin (s != false) (magN k * oneN) (magN l) hl h1
  have e3 : (F64.fin s k).div (F64.fin false l) = F64.round (s != false) (magN k * oneN) (magN l) := by
    simp only [F64.div]
    rw [if_neg (by omega)]
  rw [e3, e1]
  refine ⟨h2, h3.trans ?_⟩
  have h5 : (0 : Int) ≤ magN k * oneN := Int.mul_nonneg (by omega) (by omega)
  have h6 : ((magN k : Int) * oneN).natAbs = magN k * oneN := by rw [Int.natAbs_mul, Int.natAbs_natCast, Int.natAbs_natCast]
  cases s
  · rw [units_pos, rn_nonneg h5, h6]; exact if_neg (by decide)
  · rw [units_min, Int.neg_mul, rn_nonpos (by omega) _ hl, Int.natAbs_neg, h6]; exact if_pos (by decide)

/-! ## One step of the average -/

theorem oneN_pos : 0 < oneN := by decide +kernel

/-- The step in units: `a` the average, `b` the sample, `c` the count as a float64. -/
def stepU (a b : Int) (c : Nat) : Int := rn (a + rn (rn (b - a) 1 * oneN) c) 1

theorem half_exact {k : Nat} (h : 2 ^ 53 ≤ magN k) : ∃ l, 2 * magN l = magN k := by
  obtain ⟨s, m, p, hm⟩ := parts_exist k
  rw [p.mag (by omega)] at h
  have hs : s ≠ 0 := by
    rintro rfl
    omega
  obtain ⟨t, rfl⟩ : ∃ t, s = t + 1 := ⟨s - 1, by omega⟩
  have := p.full
  refine ⟨t * 2 ^ 52 + m, ?_⟩
  rw [p.mag (by omega), (Parts.mk (k := t * 2 ^ 52 + m) rfl (Or.inr (by omega))).mag (by omega), pow_succ 2 t]
  ring

/-- The quotient is at most the difference. -/
theorem quotient_le {d : Int} {c : Nat} (hd : 0 ≤ d) (hc : 2 * oneN ≤ c) :
    0 ≤ rn (rn d 1 * oneN) c ∧ rn (rn d 1 * oneN) c ≤ d := by
  have h1 := oneN_pos
  have hc0 : 0 < c := by omega
  obtain ⟨n, rfl⟩ := Int.eq_ofNat_of_zero_le hd
  have hD : rn (n : Int) 1 = magN (nearest n 1) := by rw [rn_nonneg hd]; rfl
  rw [hD]
  have hcz : (2 * oneN : Int) ≤ c := by exact_mod_cast hc
  have hoz : (0 : Int) < oneN := by exact_mod_cast h1
  have hmz : (0 : Int) ≤ magN (nearest n 1) := by omega
  have hq : 0 ≤ rn ((magN (nearest n 1) : Int) * oneN) c := by
    rw [rn_nonneg (Int.mul_nonneg hmz (by omega))]; omega
  refine ⟨hq, ?_⟩
  have he := nearest_error_one n
  by_cases h2 : magN (nearest n 1) ≤ n
  · have h3 : rn ((magN (nearest n 1) : Int) * oneN) c ≤ rn (magN (nearest n 1)) 1 := by
      apply rn_mono hc0 (by decide)
      have : (magN (nearest n 1) : Int) * oneN ≤ magN (nearest n 1) * c := by nlinarith
      simpa using this
    rw [rn_mag_one] at h3
    omega
  · have h4 : 2 ^ 53 ≤ n := by
      by_contra h5
      exact h2 (Nat.le_of_eq (nearest_small n (by omega)))
    obtain ⟨l, hl⟩ := half_exact (k := nearest n 1) (by omega)
    have h3 : rn ((magN (nearest n 1) : Int) * oneN) c ≤ rn (magN l) 1 := by
      apply rn_mono hc0 (by decide)
      have e : (magN (nearest n 1) : Int) = 2 * magN l := by exact_mod_cast hl.symm
      have hlz : (0 : Int) ≤ magN l := by omega
      have : (magN (nearest n 1) : Int) * oneN ≤ magN l * c := by rw [e]; nlinarith
      simpa using this
    rw [rn_mag_one] at h3
    omega

theorem stepU_up {a b : Int} {c : Nat} (ha : rn a 1 = a) (hb : rn b 1 = b) (hc : 2 * oneN ≤ c) (h : a ≤ b) :
    a ≤ stepU a b c ∧ stepU a b c ≤ b := by
  have hc0 : 0 < c := by have := oneN_pos; omega
  obtain ⟨h1, h2⟩ := quotient_le (d := b - a) (by omega) hc
  unfold stepU
  constructor
  · conv => lhs; rw [← ha]
    exact rn_mono (by decide) (by decide) (by push_cast; omega)
  · conv => rhs; rw [← hb]
    exact rn_mono (by decide) (by decide) (by push_cast; omega)

theorem stepU_neg (a b : Int) (c : Nat) (hc : 0 < c) : stepU (-a) (-b) c = -stepU a b c := by
  unfold stepU
  have e1 : -b - -a = -(b - a) := by ring
  rw [e1, rn_neg _ 1 (by decide), Int.neg_mul, rn_neg _ c hc, ← rn_neg _ 1 (by decide)]
  congr 1
  ring

/-- The new average is between the old one and the sample. -/
theorem stepU_between {a b lo hi : Int} {c : Nat} (ha : rn a 1 = a) (hb : rn b 1 = b) (hc : 2 * oneN ≤ c)
    (h1 : lo ≤ a ∧ a ≤ hi) (h2 : lo ≤ b ∧ b ≤ hi) : lo ≤ stepU a b c ∧ stepU a b c ≤ hi := by
  have hc0 : 0 < c := by have := oneN_pos; omega
  rcases Int.le_total a b with h | h
  · have := stepU_up ha hb hc h
    omega
  · have := stepU_up (a := -a) (b := -b) (by rw [rn_neg _ 1 (by decide), ha]) (by rw [rn_neg _ 1 (by decide), hb]) hc (by omega)
    rw [stepU_neg a b c hc0] at this
    omega

/-- All numbers of at most 53 bits are exact. -/
theorem exact_mul (m s : Nat) (hm : m ≤ 2 ^ 53) : magN (nearest (m * 2 ^ s) 1) = m * 2 ^ s := by
  obtain ⟨t, n, r⟩ := nearest_rounds (m * 2 ^ s) 1 (by decide)
  rw [r.parts.mag (r.m_le (by decide))]
  have key : ∀ q, m * 2 ^ s = q * 2 ^ t → n * 2 ^ t = m * 2 ^ s := by
    intro q hq
    have h := r.round
    rw [hq, Nat.one_mul] at h
    rw [h.unique (IsRound.exact q (2 ^ t) (by positivity)) (by positivity), hq]
  rcases Nat.lt_or_ge s t with h | h
  · have h1 : 1 * 2 ^ (t + 52) ≤ m * 2 ^ s := by
      rcases r.lo with h1 | h1
      · omega
      · exact h1
    have h2 : m * 2 ^ s ≤ 2 ^ 53 * 2 ^ s := Nat.mul_le_mul_right _ hm
    rw [← Nat.pow_add] at h2
    have h3 : 2 ^ (t + 52) ≤ 2 ^ (53 + s) := by omega
    have h4 : t + 52 ≤ 53 + s := (Nat.pow_le_pow_iff_right (by decide)).1 h3
    have h5 : t = s + 1 := by omega
    subst h5
    refine key (2 ^ 52) ?_
    have h6 : 2 ^ (s + 1 + 52) = 2 ^ 53 * 2 ^ s := by rw [show s + 1 + 52 = 53 + s by omega, Nat.pow_add]
    rw [Nat.pow_add] at h2
    rw [h6] at h1
    rw [pow_succ 2 s]
    omega
  · refine key (m * 2 ^ (s - t)) ?_
    rw [Nat.mul_assoc, ← Nat.pow_add]
    congr 2; omega

set_option exponentiation.threshold 2000 in
theorem exact_one (m : Nat) (hm : m ≤ 2 ^ 53) : magN (nearest (m * oneN) 1) = m * oneN := by
  unfold oneN
  exact exact_mul m 1074 hm

/-- `float64(n)` for a counter. -/
theorem ofInt_fin (n : Int) (h2 : 2 ≤ n) (h : n < 2 ^ 63) :
    (F64.ofInt n).Finite ∧ 2 * oneN ≤ (F64.ofInt n).units ∧ (n ≤ 2 ^ 53 → (F64.ofInt n).units = n * oneN) := by
  have hoz : (0 : Int) < oneN := by exact_mod_cast oneN_pos
  have hmax : (2 ^ 63 * oneN : Nat) ≤ maxU := by decide +kernel
  have hmz : (2 ^ 63 * oneN : Int) ≤ maxU := by exact_mod_cast hmax
  have h3 : |n * (oneN : Int)| ≤ maxU := by
    rw [abs_of_nonneg (Int.mul_nonneg (by omega) (by omega))]
    have h4 : n * (oneN : Int) ≤ 2 ^ 63 * oneN := Int.mul_le_mul_of_nonneg_right (by omega) (by omega)
    omega
  have e : F64.ofInt n = F64.ofUnits false (n * oneN) := rfl
  obtain ⟨h4, h5⟩ := ofUnits_fin false (n * oneN) h3
  rw [← e] at h4 h5
  have hex : ∀ m : Nat, m ≤ 2 ^ 53 → rn ((m : Int) * oneN) 1 = m * oneN := by
    intro m hm
    have := exact_one m hm
    rw [rn_nonneg (Int.mul_nonneg (by omega) (by omega))]
    have e2 : ((m : Int) * oneN).natAbs = m * oneN := by
      rw [Int.natAbs_mul, Int.natAbs_natCast, Int.natAbs_natCast]
    rw [e2, this]
    push_cast; rfl
  refine ⟨h4, ?_, ?_⟩
  · rw [h5]
    have h6 := hex 2 (by decide)
    have h7 : rn (((2 : Nat) : Int) * oneN) 1 ≤ rn (n * oneN) 1 := rn_mono (by decide) (by decide) (by push_cast; nlinarith)
    rw [h6] at h7
    exact_mod_cast h7
  · intro hn
    rw [h5]
    obtain ⟨m, rfl⟩ := Int.eq_ofNat_of_zero_le (a := n) (by omega)
    exact hex m (by omega)

/-- A step computes what `stepU` says, if the numbers are at most half the largest. -/
theorem step_fin {a b : F64} {n : Int} {H : Int} (ha : a.Finite) (hb : b.Finite) (h2 : 2 ≤ n) (hn : n < 2 ^ 63)
    (hH : 2 * H ≤ maxU) (h1 : |a.units| ≤ H) (h3 : |b.units| ≤ H) :
    (a.step b n).Finite ∧ (a.step b n).units = stepU a.units b.units (F64.ofInt n).units.natAbs := by
  obtain ⟨c1, c2, _⟩ := ofInt_fin n h2 hn
  have hoz : (0 : Int) < oneN := by exact_mod_cast oneN_pos
  have hcN : 2 * oneN ≤ (F64.ofInt n).units.natAbs := by omega
  have d0 : |b.units - a.units| ≤ maxU := by
    have := abs_sub b.units a.units
    omega
  obtain ⟨d1, d2⟩ := sub_fin hb ha d0
  -- the difference
  have d3 : |(b.sub a).units| ≤ maxU := units_le _
  obtain ⟨q1, q2⟩ := div_fin d1 c1 (by omega) (by
    have h4 : (oneN : Int) ≤ (F64.ofInt n).units := by omega
    have h5 : (0 : Int) ≤ maxU := by omega
    have h6 : 0 ≤ |(b.sub a).units| := abs_nonneg _
    nlinarith)
  rw [d2] at q2
  have hq : (a.units + ((b.sub a).div (F64.ofInt n)).units ≤ max a.units b.units) ∧
      min a.units b.units ≤ a.units + ((b.sub a).div (F64.ofInt n)).units := by
    rw [q2]
    rcases Int.le_total a.units b.units with h | h
    · have := quotient_le (d := b.units - a.units) (by omega) hcN
      rw [max_eq_right h, min_eq_left h]
      omega
    · have := quotient_le (d := a.units - b.units) (by omega) hcN
      have e1 : b.units - a.units = -(a.units - b.units) := by ring
      rw [e1, rn_neg _ 1 (by decide), Int.neg_mul, rn_neg _ _ (by omega), max_eq_left h, min_eq_right h]
      omega
  obtain ⟨r1, r2⟩ := add_fin ha q1 (by
    rw [abs_le] at h1 h3 ⊢
    rcases max_cases a.units b.units with h | h <;> rcases min_cases a.units b.units with h' | h' <;> omega)
  refine ⟨r1, ?_⟩
  unfold F64.step stepU
  rw [r2, q2]

end Spout
