import Mathlib.Tactic.Linarith
import Mathlib.Tactic.Ring
import Mathlib.Tactic.NormNum
import Mathlib.Tactic.Positivity
import Verif.Model.Float64

/-! # Lemmas about the rounding of float64 -/

namespace Spout

/-! ## Division with rounding -/

/-- `q` is `a / d` rounded to nearest, ties to even. -/
structure IsRound (a d q : Nat) : Prop where
  lo : 2 * q * d ≤ 2 * a + d
  hi : 2 * a ≤ 2 * q * d + d
  tie : 2 * q * d = 2 * a + d ∨ 2 * a = 2 * q * d + d → q % 2 = 0

theorem divEven_round (a d : Nat) (hd : 0 < d) : IsRound a d (divEven a d) := by
  have h1 := Nat.div_add_mod a d
  have h2 := Nat.mod_lt a hd
  have h3 : d * (a / d) = a / d * d := Nat.mul_comm _ _
  have e1 : 2 * (a / d) * d = 2 * (a / d * d) := by ring
  have e2 : 2 * (a / d + 1) * d = 2 * (a / d * d) + 2 * d := by ring
  unfold divEven
  split
  · exact ⟨by omega, by omega, by omega⟩
  · split
    · exact ⟨by omega, by omega, by omega⟩
    · split
      · exact ⟨by omega, by omega, by omega⟩
      · exact ⟨by omega, by omega, by omega⟩

theorem IsRound.mono {a d q a' d' q' : Nat} (h : IsRound a d q) (h' : IsRound a' d' q') (hd : 0 < d) (hd' : 0 < d')
    (hle : a * d' ≤ a' * d) : q ≤ q' := by
  apply Nat.le_of_not_lt
  intro hlt
  have k1 : 2 * q * d * d' ≤ (2 * a + d) * d' := Nat.mul_le_mul_right _ h.lo
  have k2 : 2 * a' * d ≤ (2 * q' * d' + d') * d := Nat.mul_le_mul_right _ h'.hi
  have hdd : 0 < d * d' := Nat.mul_pos hd hd'
  have hq : q = q' + 1 := by
    by_contra hne
    have h2 : q' + 2 ≤ q := by omega
    have k3 : (q' + 2) * (d * d') ≤ q * (d * d') := Nat.mul_le_mul_right _ h2
    nlinarith
  subst hq
  have t1 : 2 * (q' + 1) * d * d' = (2 * a + d) * d' := by nlinarith
  have t2 : 2 * a' * d = (2 * q' * d' + d') * d := by nlinarith
  have s1 := h.tie (Or.inl (Nat.eq_of_mul_eq_mul_right hd' t1))
  have s2 := h'.tie (Or.inr (Nat.eq_of_mul_eq_mul_right hd t2))
  omega

theorem IsRound.unique {a d q q' : Nat} (h : IsRound a d q) (h' : IsRound a d q') (hd : 0 < d) : q = q' :=
  Nat.le_antisymm (h.mono h' hd hd (Nat.le_refl _)) (h'.mono h hd hd (Nat.le_refl _))

theorem IsRound.exact (q d : Nat) (hd : 0 < d) : IsRound (q * d) d q :=
  ⟨by nlinarith, by nlinarith, by intro h; rcases h with h | h <;> nlinarith⟩

/-! ## Bits and magnitudes -/

/-- `k` stands for `m * 2^s`. -/
structure Parts (k s m : Nat) : Prop where
  eq : k = s * 2 ^ 52 + m
  full : s = 0 ∨ 2 ^ 52 ≤ m

theorem Parts.mag {k s m : Nat} (h : Parts k s m) (hm : m ≤ 2 ^ 53) : magN k = m * 2 ^ s := by
  obtain ⟨rfl, hf⟩ := h
  unfold magN
  by_cases h0 : m < 2 ^ 52
  · have hs : s = 0 := by omega
    subst hs
    rw [if_pos (by omega)]
    simp
  · rw [if_neg (by omega)]
    by_cases h1 : m < 2 ^ 53
    · have e1 : (s * 2 ^ 52 + m) % 2 ^ 52 = m - 2 ^ 52 := by omega
      have e2 : (s * 2 ^ 52 + m) / 2 ^ 52 - 1 = s := by omega
      have e3 : 2 ^ 52 + (m - 2 ^ 52) = m := by omega
      rw [e1, e2, e3]
    · have e1 : (s * 2 ^ 52 + m) % 2 ^ 52 = 0 := by omega
      have e2 : (s * 2 ^ 52 + m) / 2 ^ 52 - 1 = s + 1 := by omega
      have e3 : m = 2 ^ 53 := by omega
      rw [e1, e2, pow_succ 2 s, e3]
      ring

theorem parts_exist (k : Nat) : ∃ s m, Parts k s m ∧ m < 2 ^ 53 := by
  by_cases h : k < 2 ^ 52
  · exact ⟨0, k, ⟨by omega, Or.inl rfl⟩, by omega⟩
  · exact ⟨k / 2 ^ 52 - 1, 2 ^ 52 + k % 2 ^ 52, ⟨by omega, Or.inr (by omega)⟩, by omega⟩

theorem magN_lt {k l : Nat} (h : k < l) : magN k < magN l := by
  obtain ⟨s, m, p, hm⟩ := parts_exist k
  obtain ⟨t, n, r, hn⟩ := parts_exist l
  rw [p.mag (by omega), r.mag (by omega)]
  have := p.eq
  have := r.eq
  have := p.full
  have := r.full
  rcases Nat.lt_trichotomy s t with hst | hst | hst
  · have h1 : 2 ^ (s + 1) ≤ 2 ^ t := Nat.pow_le_pow_right (by decide) hst
    have h2 : 2 ^ 52 * 2 ^ t ≤ n * 2 ^ t := Nat.mul_le_mul_right _ (by omega)
    have h3 : m * 2 ^ s < 2 ^ 53 * 2 ^ s := Nat.mul_lt_mul_of_pos_right hm (by positivity)
    have h4 : 2 ^ (s + 1) = 2 * 2 ^ s := by rw [Nat.pow_succ]; ring
    omega
  · subst hst
    exact Nat.mul_lt_mul_of_pos_right (by omega) (by positivity)
  · omega

theorem magN_le {k l : Nat} (h : k ≤ l) : magN k ≤ magN l := by
  rcases Nat.lt_or_eq_of_le h with h | h
  · exact Nat.le_of_lt (magN_lt h)
  · rw [h]

theorem magN_le_iff {k l : Nat} : magN k ≤ magN l ↔ k ≤ l := by
  constructor
  · intro h
    apply Nat.le_of_not_lt
    intro h2
    have := magN_lt h2
    omega
  · exact magN_le

@[simp] theorem magN_zero : magN 0 = 0 := rfl

theorem magN_pos {k : Nat} (h : 0 < k) : 0 < magN k := by
  have := magN_lt h
  simpa using this

/-! ## Rounding -/

/-- `k` are the bits of the float64 nearest to `a / b` units; `s` says how many bits are lost. -/
structure Rounds (a b k s m : Nat) : Prop where
  parts : Parts k s m
  round : IsRound a (b * 2 ^ s) m
  lo : s = 0 ∨ b * 2 ^ (s + 52) ≤ a
  hi : a < b * 2 ^ (s + 53)

theorem Rounds.m_le {a b k s m : Nat} (h : Rounds a b k s m) (hb : 0 < b) : m ≤ 2 ^ 53 := by
  have hd : 0 < b * 2 ^ s := by positivity
  refine h.round.mono (IsRound.exact (2 ^ 53) (b * 2 ^ s) hd) hd hd ?_
  have := h.hi
  rw [Nat.pow_add] at this
  refine Nat.mul_le_mul_right _ ?_
  nlinarith

theorem nearest_rounds (a b : Nat) (hb : 0 < b) : ∃ s m, Rounds a b (nearest a b) s m := by
  have hs : ∃ s, s = Nat.log2 (a / b) - 52 := ⟨_, rfl⟩
  obtain ⟨s, hs⟩ := hs
  have hd : 0 < b * 2 ^ s := by positivity
  have hlo : s = 0 ∨ b * 2 ^ (s + 52) ≤ a := by
    by_cases h0 : s = 0
    · exact Or.inl h0
    · right
      have h1 : s + 52 = Nat.log2 (a / b) := by omega
      rw [h1]
      have hne : a / b ≠ 0 := by
        intro h
        rw [h] at h1
        simp at h1
      have h2 := Nat.log2_self_le hne
      exact (Nat.le_div_iff_mul_le hb |>.1 h2).trans_eq' (by ring)
  have hhi : a < b * 2 ^ (s + 53) := by
    have h1 : Nat.log2 (a / b) < s + 53 := by omega
    have h2 : a / b < 2 ^ (s + 53) := by
      by_cases hz : a / b = 0
      · rw [hz]; positivity
      · exact (Nat.log2_lt hz).1 h1
    rw [Nat.div_lt_iff_lt_mul hb] at h2
    linarith
  have hr := divEven_round a (b * 2 ^ s) hd
  refine ⟨s, divEven a (b * 2 ^ s), ⟨by unfold nearest; rw [← hs], ?_⟩, hr, hlo, hhi⟩
  rcases hlo with h | h
  · exact Or.inl h
  · right
    refine (IsRound.exact (2 ^ 52) (b * 2 ^ s) hd).mono hr hd hd (Nat.mul_le_mul_right _ ?_)
    rw [Nat.pow_add] at h
    nlinarith

theorem Rounds.mono {a b k s m a' b' k' s' m' : Nat} (h : Rounds a b k s m) (h' : Rounds a' b' k' s' m') (hb : 0 < b) (hb' : 0 < b')
    (hle : a * b' ≤ a' * b) : k ≤ k' := by
  have hm := h.m_le hb
  have e := h.parts.eq
  have e' := h'.parts.eq
  rcases Nat.lt_trichotomy s s' with hs | hs | hs
  · have := h'.parts.full
    omega
  · subst hs
    have : m ≤ m' := by
      refine h.round.mono h'.round (by positivity) (by positivity) ?_
      nlinarith [Nat.mul_le_mul_right (2 ^ s) hle]
    omega
  · exfalso
    have h1 : b * 2 ^ (s + 52) ≤ a := by
      rcases h.lo with h | h
      · omega
      · exact h
    have h2 : b' * b * 2 ^ (s + 52) ≤ b' * a := by nlinarith
    have h3 := h'.hi
    have h4 : a' * b < b' * b * 2 ^ (s' + 53) := by nlinarith
    have h5 : 2 ^ (s' + 53) ≤ 2 ^ (s + 52) := Nat.pow_le_pow_right (by decide) (by omega)
    have h6 : b' * b * 2 ^ (s' + 53) ≤ b' * b * 2 ^ (s + 52) := Nat.mul_le_mul_left _ h5
    nlinarith

theorem nearest_mono {a b a' b' : Nat} (hb : 0 < b) (hb' : 0 < b') (h : a * b' ≤ a' * b) : nearest a b ≤ nearest a' b' := by
  obtain ⟨s, m, r⟩ := nearest_rounds a b hb
  obtain ⟨s', m', r'⟩ := nearest_rounds a' b' hb'
  exact r.mono r' hb hb' h

theorem nearest_eq {a b a' b' : Nat} (hb : 0 < b) (hb' : 0 < b') (h : a * b' = a' * b) : nearest a b = nearest a' b' :=
  Nat.le_antisymm (nearest_mono hb hb' (Nat.le_of_eq h)) (nearest_mono hb' hb (Nat.le_of_eq h.symm))

theorem nearest_unique {a b k s m : Nat} (h : Rounds a b k s m) (hb : 0 < b) : nearest a b = k := by
  obtain ⟨s', m', r⟩ := nearest_rounds a b hb
  exact Nat.le_antisymm (r.mono h hb hb (Nat.le_refl _)) (h.mono r hb hb (Nat.le_refl _))

theorem nearest_magN (k b : Nat) (hb : 0 < b) : nearest (magN k * b) b = k := by
  obtain ⟨s, m, p, hm⟩ := parts_exist k
  rw [p.mag (by omega)]
  refine nearest_unique ⟨p, ?_, ?_, ?_⟩ hb
  · have := IsRound.exact m (b * 2 ^ s) (by positivity)
    rwa [show m * 2 ^ s * b = m * (b * 2 ^ s) by ring]
  · rcases p.full with h | h
    · exact Or.inl h
    · right
      rw [Nat.pow_add]
      have : 2 ^ 52 * (b * 2 ^ s) ≤ m * (b * 2 ^ s) := Nat.mul_le_mul_right _ h
      nlinarith
  · rw [Nat.pow_add]
    have : m * (b * 2 ^ s) < 2 ^ 53 * (b * 2 ^ s) := Nat.mul_lt_mul_of_pos_right hm (by positivity)
    nlinarith

theorem nearest_magN_one (k : Nat) : nearest (magN k) 1 = k := by
  have := nearest_magN k 1 (by decide)
  simpa using this

theorem nearest_zero (b : Nat) (hb : 0 < b) : nearest 0 b = 0 := by
  have := nearest_magN 0 b hb
  simpa using this

/-! ## The error of rounding -/

/-- The error is at most half a unit, or 2^-53 of the number. -/
theorem nearest_error (a b : Nat) (hb : 0 < b) :
    (2 * (b * magN (nearest a b)) ≤ 2 * a + b ∧ 2 * a ≤ 2 * (b * magN (nearest a b)) + b) ∨
    (2 ^ 53 * (b * magN (nearest a b)) ≤ 2 ^ 53 * a + a ∧ 2 ^ 53 * a ≤ 2 ^ 53 * (b * magN (nearest a b)) + a) := by
  obtain ⟨s, m, r⟩ := nearest_rounds a b hb
  rw [r.parts.mag (r.m_le hb)]
  have h1 := r.round.lo
  have h2 := r.round.hi
  rcases r.lo with h | h
  · left
    subst h
    simp only [Nat.pow_zero, Nat.mul_one] at *
    constructor <;> nlinarith
  · right
    have e : b * 2 ^ (s + 52) = 2 ^ 52 * (b * 2 ^ s) := by rw [Nat.pow_add]; ring
    have e2 : b * (m * 2 ^ s) = m * (b * 2 ^ s) := by ring
    have e3 : 2 * m * (b * 2 ^ s) = 2 * (m * (b * 2 ^ s)) := by ring
    rw [e] at h
    rw [e2]
    rw [e3] at h1 h2
    omega

/-- A whole number of units below 2^53 is not rounded. -/
theorem nearest_small (a : Nat) (h : a < 2 ^ 53) : magN (nearest a 1) = a := by
  obtain ⟨s, m, r⟩ := nearest_rounds a 1 (by decide)
  have hs : s = 0 := by
    rcases r.lo with h1 | h1
    · exact h1
    · by_contra h2
      have : 2 ^ 53 ≤ 2 ^ (s + 52) := Nat.pow_le_pow_right (by decide) (by omega)
      omega
  subst hs
  have := r.round.unique (IsRound.exact a 1 (by decide) |> fun h => by simpa using h) (by decide)
  rw [r.parts.mag (r.m_le (by decide)), this]
  simp

/-- A whole number of units is rounded by at most 2^-53 of it. -/
theorem nearest_error_one (a : Nat) : 2 ^ 53 * magN (nearest a 1) ≤ 2 ^ 53 * a + a ∧ 2 ^ 53 * a ≤ 2 ^ 53 * magN (nearest a 1) + a := by
  by_cases h : a < 2 ^ 53
  · rw [nearest_small a h]; omega
  · have := nearest_error a 1 (by decide)
    omega

/-- No smaller float64 is nearer. -/
theorem nearest_above (a b l : Nat) (hb : 0 < b) (hl : l < nearest a b) : b * magN (nearest a b) + b * magN l ≤ 2 * a := by
  obtain ⟨s, m, r⟩ := nearest_rounds a b hb
  have hd : 0 < b * 2 ^ s := by positivity
  have hmle := r.m_le hb
  have hmag := r.parts.mag hmle
  have e2 : b * magN (nearest a b) = m * (b * 2 ^ s) := by rw [hmag]; ring
  have h1 : 2 * (m * (b * 2 ^ s)) ≤ 2 * a + b * 2 ^ s := by have := r.round.lo; linarith
  have hlt : b * magN l ≤ b * magN (nearest a b) := Nat.mul_le_mul_left _ (magN_le (Nat.le_of_lt hl))
  by_cases h4 : 0 < s ∧ m = 2 ^ 52
  · have h5 : b * 2 ^ (s + 52) ≤ a := by
      rcases r.lo with h | h
      · omega
      · exact h
    have h6 : b * magN (nearest a b) = b * 2 ^ (s + 52) := by rw [hmag, h4.2, Nat.pow_add]; ring
    omega
  · have h0 := r.parts.eq
    have h00 := r.parts.full
    have h5 : Parts (nearest a b - 1) s (m - 1) := ⟨by omega, by omega⟩
    have h6 : magN l ≤ (m - 1) * 2 ^ s := by
      rw [← h5.mag (by omega)]
      exact magN_le (by omega)
    have h7 : b * magN l ≤ (m - 1) * (b * 2 ^ s) := by
      have := Nat.mul_le_mul_left b h6
      linarith
    have h8 : (m - 1) * (b * 2 ^ s) + b * 2 ^ s = m * (b * 2 ^ s) := by
      have : m - 1 + 1 = m := by omega
      rw [← Nat.succ_mul, Nat.succ_eq_add_one, this]
    omega

/-- No larger float64 is nearer. -/
theorem nearest_below (a b l : Nat) (hb : 0 < b) (hl : nearest a b < l) : 2 * a ≤ b * magN (nearest a b) + b * magN l := by
  obtain ⟨s, m, r⟩ := nearest_rounds a b hb
  have hd : 0 < b * 2 ^ s := by positivity
  have hmle := r.m_le hb
  have hmag := r.parts.mag hmle
  have e2 : b * magN (nearest a b) = m * (b * 2 ^ s) := by rw [hmag]; ring
  have h2 : 2 * a ≤ 2 * (m * (b * 2 ^ s)) + b * 2 ^ s := by have := r.round.hi; linarith
  have h0 := r.parts.eq
  have h00 := r.parts.full
  have h6 : (m + 1) * 2 ^ s ≤ magN l := by
    refine Nat.le_trans ?_ (magN_le (k := nearest a b + 1) (by omega))
    by_cases hm : m = 2 ^ 53
    · have h5 : Parts (nearest a b + 1) (s + 1) (2 ^ 52 + 1) := ⟨by omega, by omega⟩
      rw [h5.mag (by omega), hm, pow_succ 2 s]
      have : 0 < 2 ^ s := by positivity
      nlinarith
    · have h5 : Parts (nearest a b + 1) s (m + 1) := ⟨by omega, by omega⟩
      rw [h5.mag (by omega)]
  have h7 : (m + 1) * (b * 2 ^ s) ≤ b * magN l := by
    have := Nat.mul_le_mul_left b h6
    linarith
  have h8 : (m + 1) * (b * 2 ^ s) = m * (b * 2 ^ s) + b * 2 ^ s := by ring
  omega

/-- A number that differs from a float64 by less than 2^-54 of it is rounded to it. -/
theorem nearest_close (a b k : Nat) (hb : 0 < b) (h1 : 2 ^ 54 * a < 2 ^ 54 * (b * magN k) + b * magN k)
    (h2 : 2 ^ 54 * (b * magN k) < 2 ^ 54 * a + b * magN k) : nearest a b = k := by
  obtain ⟨s, m, p, hm⟩ := parts_exist k
  have hmag := p.mag (by omega)
  have e2 : b * magN k = m * (b * 2 ^ s) := by rw [hmag]; ring
  rw [e2] at h1 h2
  have hD : ∃ D, D = b * 2 ^ s := ⟨_, rfl⟩
  obtain ⟨D, hD⟩ := hD
  have hd : 0 < D := by rw [hD]; positivity
  rw [← hD] at h1 h2
  have h3 : m * D ≤ (2 ^ 53 - 1) * D := Nat.mul_le_mul_right _ (by omega)
  have ea : b * 2 ^ (s + 52) = 2 ^ 52 * D := by rw [hD, Nat.pow_add]; ring
  have eb : b * 2 ^ (s + 53) = 2 ^ 53 * D := by rw [hD, Nat.pow_add]; ring
  have ec : 2 * m * D = 2 * (m * D) := by ring
  by_cases h4 : 0 < s ∧ a < 2 ^ 52 * D
  · have h5 : m = 2 ^ 52 := by
      have := p.full
      by_contra hne
      have h6 : (2 ^ 52 + 1) * D ≤ m * D := Nat.mul_le_mul_right _ (by omega)
      omega
    obtain ⟨t, rfl⟩ : ∃ t, s = t + 1 := ⟨s - 1, by omega⟩
    have hD2 : D = 2 * (b * 2 ^ t) := by rw [hD, pow_succ 2 t]; ring
    have hE : ∃ E, E = b * 2 ^ t := ⟨_, rfl⟩
    obtain ⟨E, hE⟩ := hE
    rw [← hE] at hD2
    rw [h5] at h1 h2
    obtain ⟨n, hn⟩ : ∃ n : Nat, n = 9007199254740992 := ⟨_, rfl⟩
    refine nearest_unique (s := t) (m := n) ⟨⟨?_, Or.inr (by omega)⟩, ?_, ?_, ?_⟩ hb
    · rw [p.eq, h5, hn]; ring
    · rw [← hE, hn]
      exact ⟨by omega, by omega, by omega⟩
    · right
      rw [Nat.pow_add, ← Nat.mul_assoc, ← hE]
      omega
    · rw [Nat.pow_add, ← Nat.mul_assoc, ← hE]
      omega
  · refine nearest_unique (s := s) (m := m) ⟨p, ?_, ?_, ?_⟩ hb
    · rw [← hD]
      exact ⟨by omega, by omega, by omega⟩
    · omega
    · omega

end Spout
