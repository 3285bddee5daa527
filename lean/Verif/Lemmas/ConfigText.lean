import Verif.Lemmas.DurationFloat
import Verif.Props.FloatText

/-! # The texts of durations and sizes -/

namespace Spout
open Spec

set_option exponentiation.threshold 3000

attribute [local irreducible] oneN infBits maxU

namespace Conf

theorem notDigit_iff (c : Byte) : notDigit c ↔ ¬ IsDigit c := by
  unfold IsDigit
  constructor
  · rintro (h | h) ⟨h1, h2⟩
    · exact absurd h1 (UInt8.not_le.2 h)
    · exact absurd h2 (UInt8.not_le.2 h)
  · intro h
    by_cases h1 : 48 ≤ c
    · exact Or.inr (UInt8.not_le.1 fun h2 => h ⟨h1, h2⟩)
    · exact Or.inl (UInt8.not_le.1 h1)

theorem dstep {x c : Nat} (hx : x ≤ 922337203685477580) (h1 : 48 ≤ c) (h2 : c ≤ 57) (h : x * 10 + (c - 48) ≤ 9223372036854775807) :
    wrap64 ((x : Int) * 10 + (c : Int) - 48) = ((x * 10 + (c - 48) : Nat) : Int) := by
  unfold wrap64; omega

theorem dstep_over {x c : Nat} (hx : x ≤ 922337203685477580) (h1 : 48 ≤ c) (h2 : c ≤ 57) (h : ¬ x * 10 + (c - 48) ≤ 9223372036854775807) :
    wrap64 ((x : Int) * 10 + (c : Int) - 48) < 0 := by
  unfold wrap64; omega

theorem cutoff_iff (x : Nat) : (x : Int) > maxI64 / 10 ↔ ¬ x ≤ 922337203685477580 := by
  unfold maxI64; omega

/-- The digits before the point. -/
theorem leadingInt_eq (ds rest : Bytes) (x : Nat) (h : ∀ d ∈ ds, IsDigit d) (hr : NoDigit rest) (hx : x ≤ 9223372036854775807) :
    leadingInt x (ds ++ rest) = if digitsAcc x ds ≤ 9223372036854775807 then some (((digitsAcc x ds : Nat) : Int), rest) else none := by
  induction ds generalizing x with
  | nil =>
    rw [if_pos (by simpa [digitsAcc] using hx)]
    cases rest with
    | nil => rfl
    | cons c s =>
      have : notDigit c := (notDigit_iff c).2 (hr c rfl)
      simp [leadingInt, this, digitsAcc]
  | cons c ds ih =>
    have hc := h c (by simp)
    have hn : ¬ notDigit c := fun hn => (notDigit_iff c).1 hn hc
    obtain ⟨b1, b2⟩ := digit_toNat hc
    rw [List.cons_append, digitsAcc_cons]
    unfold leadingInt
    rw [if_neg hn]
    have hle := le_digitsAcc (x * 10 + (c.toNat - 48)) ds
    by_cases hcut : x ≤ 922337203685477580
    · rw [if_neg (fun h => (cutoff_iff x).1 h hcut)]
      by_cases hv : x * 10 + (c.toNat - 48) ≤ 9223372036854775807
      · rw [dstep hcut b1 b2 hv]
        have : ¬ (((x * 10 + (c.toNat - 48) : Nat) : Int) < 0) := by omega
        simp only [if_neg this]
        exact ih _ (fun d hd => h d (by simp [hd])) hv
      · simp only [if_pos (dstep_over hcut b1 b2 hv)]
        rw [if_neg]; omega
    · rw [if_pos ((cutoff_iff x).2 hcut), if_neg]; omega

theorem leadingFraction_skip (ds rest : Bytes) (x : Int) (sc : F64) (h : ∀ d ∈ ds, IsDigit d) (hr : NoDigit rest) :
    leadingFraction x sc true (ds ++ rest) = (x, sc, rest) := by
  induction ds with
  | nil =>
    cases rest with
    | nil => rfl
    | cons c s =>
      have : notDigit c := (notDigit_iff c).2 (hr c rfl)
      simp [leadingFraction, this]
  | cons c ds ih =>
    have hn : ¬ notDigit c := fun hn => (notDigit_iff c).1 hn (h c (by simp))
    rw [List.cons_append]
    unfold leadingFraction
    rw [if_neg hn, if_pos rfl]
    exact ih fun d hd => h d (by simp [hd])

/-- The digits after the point: those that are used. -/
theorem leadingFraction_eq (ds : Bytes) (x : Nat) (i : Nat) (h : ∀ d ∈ ds, IsDigit d) (hx : x ≤ 9223372036854775807) :
    ∃ k, k ≤ ds.length ∧ digitsAcc x (ds.take k) ≤ 9223372036854775807 ∧ (k = ds.length ∨ 922337203685477580 ≤ digitsAcc x (ds.take k)) ∧
      ∀ rest, NoDigit rest → leadingFraction x (scaleF i) false (ds ++ rest) = (((digitsAcc x (ds.take k) : Nat) : Int), scaleF (i + k), rest) := by
  induction ds generalizing x i with
  | nil =>
    refine ⟨0, Nat.le_refl _, by simpa [digitsAcc] using hx, Or.inl rfl, fun rest hr => ?_⟩
    cases rest with
    | nil => rfl
    | cons c s =>
      have : notDigit c := (notDigit_iff c).2 (hr c rfl)
      simp [leadingFraction, this, digitsAcc]
  | cons c ds ih =>
    have hc := h c (by simp)
    have hn : ¬ notDigit c := fun hn => (notDigit_iff c).1 hn hc
    have hd' : ∀ d ∈ ds, IsDigit d := fun d hd => h d (by simp [hd])
    obtain ⟨b1, b2⟩ := digit_toNat hc
    by_cases hcut : x ≤ 922337203685477580
    · by_cases hv : x * 10 + (c.toNat - 48) ≤ 9223372036854775807
      · obtain ⟨k, k1, k2, k3, k4⟩ := ih (x * 10 + (c.toNat - 48)) (i + 1) hd' hv
        refine ⟨k + 1, by simpa using k1, ?_, ?_, fun rest hr => ?_⟩
        · rw [List.take_succ_cons, digitsAcc_cons]; exact k2
        · rw [List.take_succ_cons, digitsAcc_cons]
          rcases k3 with k3 | k3
          · exact Or.inl (by simpa using k3)
          · exact Or.inr k3
        · rw [List.take_succ_cons, digitsAcc_cons, List.cons_append]
          unfold leadingFraction
          rw [if_neg hn, if_neg (by simp), if_neg (fun h => (cutoff_iff x).1 h hcut), dstep hcut b1 b2 hv]
          have : ¬ (((x * 10 + (c.toNat - 48) : Nat) : Int) < 0) := by omega
          simp only [if_neg this]
          have e := k4 rest hr
          rw [show i + (k + 1) = i + 1 + k by omega]
          exact e
      · refine ⟨0, Nat.zero_le _, by simpa [digitsAcc] using hx, Or.inr ?_, fun rest hr => ?_⟩
        · simp only [List.take_zero, digitsAcc, List.foldl_nil]; omega
        · rw [List.cons_append]
          unfold leadingFraction
          rw [if_neg hn, if_neg (by simp), if_neg (fun h => (cutoff_iff x).1 h hcut)]
          simp only [if_pos (dstep_over hcut b1 b2 hv)]
          exact leadingFraction_skip ds rest x _ hd' hr
    · refine ⟨0, Nat.zero_le _, by simpa [digitsAcc] using hx, Or.inr ?_, fun rest hr => ?_⟩
      · simp only [List.take_zero, digitsAcc, List.foldl_nil]; omega
      · rw [List.cons_append]
        unfold leadingFraction
        rw [if_neg hn, if_neg (by simp), if_pos ((cutoff_iff x).2 hcut)]
        exact leadingFraction_skip ds rest x _ hd' hr

/-! ## Units of time -/

theorem unit_facts {u : Bytes} {n : Nat} (h : (u, n) ∈ timeUnits) :
    u ≠ [] ∧ (∀ c ∈ u, unitByte c = true) ∧ unitMap u = some (n : Int) ∧ 1 ≤ n ∧ n ≤ 36 * 10 ^ 11 := by
  simp only [timeUnits, List.mem_cons, Prod.mk.injEq, List.not_mem_nil, or_false] at h
  rcases h with ⟨rfl, rfl⟩ | ⟨rfl, rfl⟩ | ⟨rfl, rfl⟩ | ⟨rfl, rfl⟩ | ⟨rfl, rfl⟩ | ⟨rfl, rfl⟩ | ⟨rfl, rfl⟩ | ⟨rfl, rfl⟩ <;>
    exact ⟨by decide, by decide, by decide, by decide, by decide⟩

theorem unitMap_mem {u : Bytes} {n : Int} (h : unitMap u = some n) : ∃ m : Nat, n = m ∧ (u, m) ∈ timeUnits := by
  unfold unitMap at h
  repeat' split at h
  all_goals first
    | (cases h; rename_i e; subst e; exact ⟨_, rfl, by decide⟩)
    | cases h

theorem unitByte_iff (c : Byte) : unitByte c = true ↔ c ≠ 46 ∧ ¬ IsDigit c := by
  unfold unitByte
  simp only [Bool.not_eq_true', Bool.or_eq_false_iff, beq_eq_false_iff_ne, Bool.not_eq_false', decide_eq_true_eq, ne_eq, notDigit_iff]

/-! ## A part -/

/-- The text after a part: nothing, or a digit or point. -/
def Stop (rest : Bytes) : Prop := ∀ c, rest.head? = some c → unitByte c = false

theorem takeWhile_unit {u rest : Bytes} (hu : ∀ c ∈ u, unitByte c = true) (hr : Stop rest) :
    (u ++ rest).takeWhile unitByte = u ∧ (u ++ rest).dropWhile unitByte = rest := by
  rw [List.takeWhile_append_of_pos hu, List.dropWhile_append_of_pos hu]
  cases rest with
  | nil => simp
  | cons c s => simp [hr c rfl]

theorem unit_head {u : Bytes} (hu : ∀ c ∈ u, unitByte c = true) (hne : u ≠ []) (rest : Bytes) :
    NoDigit (u ++ rest) ∧ ∃ c s, u ++ rest = c :: s ∧ c ≠ 46 := by
  cases u with
  | nil => exact absurd rfl hne
  | cons c s =>
    have := (unitByte_iff c).1 (hu c (by simp))
    refine ⟨fun d hd => ?_, c, s ++ rest, rfl, this.1⟩
    have : c = d := by simpa using hd
    subst this; exact this.2

theorem inUnit_eq (v x u j : Nat) (hx : x < 2 ^ 63) (hxj : x < 10 ^ j) (hu : 1 ≤ u) (hu2 : u ≤ 36 * 10 ^ 11) :
    inUnit v x (scaleF j) u = if ((v * u : Nat) : Int) + fracNs x u j ≤ maxI64 then some (((v * u : Nat) : Int) + fracNs x u j) else none := by
  obtain ⟨n0, n1, n2⟩ := fracNs_near x u j hx hxj hu hu2
  have hle : (fracNs x u j : Rat) ≤ 36 * 10 ^ 11 + 1 / 20 := by
    have : (x : Rat) * u / 10 ^ j ≤ u := by
      rw [div_le_iff₀ (by positivity), mul_comm]
      have : (x : Rat) ≤ 10 ^ j := by exact_mod_cast hxj.le
      exact mul_le_mul_of_nonneg_left this (by positivity)
    have : (u : Rat) ≤ 36 * 10 ^ 11 := by exact_mod_cast hu2
    linarith
  have hle2 : fracNs x u j ≤ 36 * 10 ^ 11 := by
    have h3 : (fracNs x u j : Rat) < ((36 * 10 ^ 11 + 1 : Int) : Rat) := by push_cast; linarith
    have h4 : fracNs x u j < 36 * 10 ^ 11 + 1 := by exact_mod_cast h3
    omega
  have hz : x = 0 → fracNs x u j = 0 := by
    rintro rfl
    have h3 : (fracNs 0 u j : Rat) < ((1 : Int) : Rat) := by
      have : ((0 : Nat) : Rat) * u / 10 ^ j = 0 := by simp
      rw [this] at n1
      push_cast; linarith
    have h4 : fracNs 0 u j < 1 := by exact_mod_cast h3
    omega
  unfold inUnit
  have hcut : ((v : Int) > maxI64 / (u : Int)) ↔ ¬ v * u ≤ 9223372036854775807 := by
    have e : maxI64 / (u : Int) = ((9223372036854775807 / u : Nat) : Int) := by unfold maxI64; exact rfl
    rw [e]
    have := Nat.le_div_iff_mul_le (x := v) (y := 9223372036854775807) (k := u) hu
    constructor
    · intro h hh
      have := this.2 hh
      omega
    · intro h
      have : ¬ v ≤ 9223372036854775807 / u := fun hh => h (this.1 hh)
      omega
  by_cases hvu : v * u ≤ 9223372036854775807
  · rw [if_neg (fun h => hcut.1 h hvu)]
    have ecast : ((v : Int) * (u : Int)) = ((v * u : Nat) : Int) := by push_cast; rfl
    by_cases hf : (x : Int) > 0
    · simp only [if_pos hf]
      show (if wrap64 ((v : Int) * (u : Int) + fracNs x u j) < 0 then none else some (wrap64 ((v : Int) * (u : Int) + fracNs x u j))) = _
      rw [ecast]
      generalize v * u = w at *
      generalize fracNs x u j = r at *
      by_cases hs : (w : Int) + r ≤ maxI64
      · have e : wrap64 ((w : Int) + r) = (w : Int) + r := wrap64_of_inInt64 (by unfold InInt64; unfold maxI64 at hs; omega)
        rw [e, if_neg (by omega), if_pos hs]
      · have e : wrap64 ((w : Int) + r) < 0 := by unfold maxI64 at hs; unfold wrap64; omega
        rw [if_pos e, if_neg hs]
    · simp only [if_neg hf]
      rw [hz (by omega), ecast, Int.add_zero, if_pos (by unfold maxI64; omega)]
  · rw [if_pos (hcut.2 hvu), if_neg]
    unfold maxI64; omega

theorem digits_take_lt {ds : Bytes} (h : ∀ d ∈ ds, IsDigit d) (k : Nat) (hk : k ≤ ds.length) : digitsVal (ds.take k) < 10 ^ k := by
  rw [digitsVal_eq]
  have := digitsAcc_lt 0 (ds.take k) fun d hd => h d (List.mem_of_mem_take hd)
  rw [List.length_take, Nat.min_eq_left hk] at this
  omega

/-- Leaving out digits after the eighteenth hardly matters. -/
theorem take_near {ds : Bytes} (h : ∀ d ∈ ds, IsDigit d) (k : Nat) (hk : k ≤ ds.length) (hk2 : k = ds.length ∨ 922337203685477580 ≤ digitsVal (ds.take k))
    (u : Nat) (hu2 : u ≤ 36 * 10 ^ 11) :
    (digitsVal (ds.take k) : Rat) * u / 10 ^ k ≤ (digitsVal ds : Rat) / 10 ^ ds.length * u ∧
    (digitsVal ds : Rat) / 10 ^ ds.length * u ≤ (digitsVal (ds.take k) : Rat) * u / 10 ^ k + 1 / 20 := by
  have e := digitsVal_append (ds.take k) (ds.drop k)
  rw [List.take_append_drop] at e
  have hd : digitsVal (ds.drop k) < 10 ^ (ds.drop k).length := by
    rw [digitsVal_eq]
    have := digitsAcc_lt 0 (ds.drop k) fun d hd => h d (List.mem_of_mem_drop hd)
    omega
  have hl : ds.length = k + (ds.drop k).length := by rw [List.length_drop]; omega
  have hlt := digits_take_lt h k hk
  have hcase : (digitsVal (ds.drop k) = 0) ∨ 18 ≤ k := by
    rcases hk2 with rfl | hk2
    · left; rw [List.drop_length]; rfl
    · right
      by_contra hc
      have : 10 ^ k ≤ 10 ^ 17 := Nat.pow_le_pow_right (by norm_num) (by omega)
      have : (10 : Nat) ^ 17 < 922337203685477580 := by norm_num
      omega
  generalize digitsVal (ds.take k) = x at *
  generalize digitsVal (ds.drop k) = y at *
  generalize (ds.drop k).length = m at *
  rw [hl, e]
  have hp : (0 : Rat) < 10 ^ k := by positivity
  have hm : (0 : Rat) < 10 ^ m := by positivity
  have eq : ((x * 10 ^ m + y : Nat) : Rat) / 10 ^ (k + m) * u = (x : Rat) * u / 10 ^ k + (y : Rat) / 10 ^ m * u / 10 ^ k := by
    rw [pow_add]; push_cast; field_simp
  rw [eq]
  have hy0 : (0 : Rat) ≤ (y : Rat) / 10 ^ m * u / 10 ^ k := by positivity
  refine ⟨by linarith, ?_⟩
  rcases hcase with h0 | h18
  · rw [h0]; simp
  · have h1 : (y : Rat) / 10 ^ m ≤ 1 := by
      rw [div_le_one hm]; exact_mod_cast hd.le
    have h2 : (y : Rat) / 10 ^ m * u ≤ 36 * 10 ^ 11 := by
      have : (u : Rat) ≤ 36 * 10 ^ 11 := by exact_mod_cast hu2
      calc (y : Rat) / 10 ^ m * u ≤ 1 * u := mul_le_mul_of_nonneg_right h1 (by positivity)
        _ ≤ _ := by linarith
    have h3 : (10 : Rat) ^ 18 ≤ 10 ^ k := pow_le_pow_right₀ (by norm_num) h18
    have h4 : (y : Rat) / 10 ^ m * u / 10 ^ k ≤ 36 * 10 ^ 11 / 10 ^ 18 := div_le_div₀ (by positivity) h2 (by positivity) h3
    have : (36 * 10 ^ 11 / 10 ^ 18 : Rat) ≤ 1 / 20 := by norm_num
    linarith

theorem parsePart_of (s : Bytes) (c : Byte) (cs : Bytes) (hs : s = c :: cs) (hc : c = 46 ∨ IsDigit c) (v : Int) (s1 : Bytes) (h1 : leadingInt 0 s = some (v, s1))
    (f : Int) (sc : F64) (s2 : Bytes) (post : Bool) (h2 : afterPoint s1 = (f, sc, s2, post)) (h3 : s.length ≠ s1.length ∨ post = true)
    (u rest : Bytes) (hu : s2.takeWhile unitByte = u) (hr : s2.dropWhile unitByte = rest) (hne : u ≠ []) (n : Int) (hn : unitMap u = some n) :
    parsePart s = (inUnit v f sc n).map fun v => (v, rest) := by
  subst hs
  unfold parsePart
  simp only
  rw [if_neg (by rcases hc with h | h; exact fun hh => hh (Or.inl h); exact fun hh => hh (Or.inr fun hd => (notDigit_iff c).1 hd h))]
  rw [h1]
  simp only
  rw [h2]
  simp only
  rw [hu, hr, if_neg hne, hn]
  have : ¬ ((!decide ((c :: cs).length ≠ s1.length) && !post) = true) := by
    rcases h3 with h3 | h3
    · rw [decide_eq_true h3]; simp
    · rw [h3]; simp
  rw [if_neg this]

theorem parsePart_over (s : Bytes) (h1 : leadingInt 0 s = none) : parsePart s = none := by
  unfold parsePart
  split
  · rfl
  · rw [h1]; split <;> rfl

/-- What one part of a duration is read as. -/
theorem part_ok (p : DurPart) (hp : p.Ok) : ∃ N : Int, 0 ≤ N ∧ p.value - (if p.decimals ≠ [] then 11 / 10 else 0) ≤ N ∧
    (N : Rat) ≤ p.value + (if p.decimals ≠ [] then 1 / 10 else 0) ∧ (10 ^ p.decimals.length ∣ p.ns → (N : Rat) = p.value) ∧
    ∀ rest, Stop rest → parsePart (p.text ++ rest) = if N ≤ maxI64 then some (N, rest) else none := by
  obtain ⟨whole, frac, unit, ns⟩ := p
  obtain ⟨hd, hsome, hunit⟩ := hp
  obtain ⟨u1, u2, u3, u4, u5⟩ := unit_facts hunit
  change unit ≠ [] at u1
  change ∀ c ∈ unit, unitByte c = true at u2
  change unitMap unit = some (ns : Int) at u3
  change 1 ≤ ns at u4
  change ns ≤ 36 * 10 ^ 11 at u5
  have hw : ∀ d ∈ whole, IsDigit d := fun d h => hd d (by simp [h])
  have hfd : ∀ d ∈ frac.getD [], IsDigit d := fun d h => hd d (by
    show d ∈ whole ++ frac.getD []
    simp [h])
  obtain ⟨k, k1, k2, k3, k4⟩ := leadingFraction_eq (frac.getD []) 0 0 hfd (by norm_num)
  rw [← digitsVal_eq] at k2 k3 k4
  have hlt := digits_take_lt hfd k k1
  obtain ⟨t1, t2⟩ := take_near hfd k k1 k3 ns u5
  obtain ⟨n0, n1, n2⟩ := fracNs_near (digitsVal ((frac.getD []).take k)) ns k (by omega) hlt u4 u5
  have hval : (DurPart.mk whole frac unit ns).value = (digitsVal whole : Rat) * ns + (digitsVal (frac.getD []) : Rat) / 10 ^ (frac.getD []).length * ns := by
    unfold DurPart.value DurPart.decimals; simp only; ring
  have hdec : (DurPart.mk whole frac unit ns).decimals = frac.getD [] := rfl
  have hexact : 10 ^ (frac.getD []).length ∣ ns →
      (fracNs (digitsVal ((frac.getD []).take k)) ns k : Rat) = (digitsVal (frac.getD []) : Rat) / 10 ^ (frac.getD []).length * ns := by
    intro hdvd
    have hkl : k = (frac.getD []).length := by
      rcases k3 with h | h
      · exact h
      · exfalso
        have h1 : 10 ^ k ≤ ns := Nat.le_trans (Nat.pow_le_pow_right (by norm_num) k1) (Nat.le_of_dvd (by omega) hdvd)
        omega
    rw [fracNs_exact _ ns k hlt u4 u5 (hkl ▸ hdvd), hkl, List.take_length]
    obtain ⟨c, hc⟩ := hdvd
    have hpos : 0 < 10 ^ (frac.getD []).length := by positivity
    rw [hc, Nat.mul_div_cancel_left _ hpos]
    push_cast
    have : (0 : Rat) < 10 ^ (frac.getD []).length := by positivity
    field_simp
  refine ⟨((digitsVal whole * ns : Nat) : Int) + fracNs (digitsVal ((frac.getD []).take k)) ns k, by omega, ?_, ?_, ?_, ?_⟩
  · rw [hval, hdec]
    by_cases hz : frac.getD [] = []
    · have := hexact (by rw [hz]; simp)
      rw [if_neg (by simp [hz])]
      push_cast at this ⊢
      linarith
    · rw [if_pos hz]; push_cast; linarith
  · rw [hval, hdec]
    by_cases hz : frac.getD [] = []
    · have := hexact (by rw [hz]; simp)
      rw [if_neg (by simp [hz])]
      push_cast at this ⊢
      linarith
    · rw [if_pos hz]; push_cast; linarith
  · intro hdvd
    have := hexact hdvd
    rw [hval]; push_cast at this ⊢; linarith
  · intro rest hr
    obtain ⟨e1, e2⟩ := takeWhile_unit u2 hr
    obtain ⟨nd, c', s', hcs, hc'⟩ := unit_head u2 u1 rest
    have hin := inUnit_eq (digitsVal whole) (digitsVal ((frac.getD []).take k)) ns k (by omega) hlt u4 u5
    have hscale : scaleF (0 + k) = scaleF k := by rw [Nat.zero_add]
    -- what follows the digits before the point
    have key : ∃ tail : Bytes, (DurPart.mk whole frac unit ns).text ++ rest = whole ++ tail ∧ NoDigit tail ∧
        (∃ post, afterPoint tail = ((digitsVal ((frac.getD []).take k) : Int), scaleF k, unit ++ rest, post) ∧ (whole ≠ [] ∨ post = true)) ∧
        (whole = [] → tail.head? = some 46) := by
      cases frac with
      | none =>
        have hk0 : k = 0 := by simpa using k1
        subst hk0
        refine ⟨unit ++ rest, by simp [DurPart.text], nd, ⟨false, ?_, Or.inl (by simpa [DurPart.decimals] using hsome)⟩, fun h => ?_⟩
        · rw [hcs]; unfold afterPoint; simp only; rw [if_neg hc']; rfl
        · simp [DurPart.decimals, h] at hsome
      | some fs =>
        refine ⟨46 :: (fs ++ (unit ++ rest)), by simp [DurPart.text], ?_, ⟨decide ((fs ++ (unit ++ rest)).length ≠ (unit ++ rest).length), ?_, ?_⟩, fun _ => rfl⟩
        · intro c hc
          have : 46 = c := by simpa using hc
          subst this; decide
        · have := k4 (unit ++ rest) nd
          have e0 : leadingFraction 0 (F64.ofInt 1) false (fs ++ (unit ++ rest)) = ((digitsVal (fs.take k) : Int), scaleF k, unit ++ rest) := by
            rw [← hscale]; exact this
          unfold afterPoint
          simp only
          rw [if_pos trivial, e0]
          rfl
        · by_cases hwn : whole = []
          · right
            have : fs ≠ [] := by simpa [DurPart.decimals, hwn] using hsome
            have : 0 < fs.length := List.length_pos_iff.2 this
            simp only [List.length_append, decide_eq_true_eq, ne_eq]; omega
          · exact Or.inl hwn
    obtain ⟨tail, et, ht1, ⟨post, hap, hpost⟩, ht2⟩ := key
    rw [et]
    have hli := leadingInt_eq whole tail 0 hw ht1 (by norm_num)
    rw [← digitsVal_eq] at hli
    by_cases hbig : digitsVal whole ≤ 9223372036854775807
    · rw [if_pos hbig] at hli
      have hhead : ∃ c cs, whole ++ tail = c :: cs ∧ (c = 46 ∨ IsDigit c) := by
        cases whole with
        | nil =>
          have := ht2 rfl
          cases tail with
          | nil => cases this
          | cons c cs => exact ⟨c, cs, rfl, Or.inl (by simpa using this)⟩
        | cons c cs => exact ⟨c, cs ++ tail, rfl, Or.inr (hw c (by simp))⟩
      obtain ⟨c, cs, hc1, hc2⟩ := hhead
      have := parsePart_of (whole ++ tail) c cs hc1 hc2 _ tail hli _ _ _ post hap (by
        rcases hpost with h | h
        · left
          have : 0 < whole.length := List.length_pos_iff.2 h
          simp only [List.length_append]; omega
        · exact Or.inr h) unit rest e1 e2 u1 _ u3
      rw [this, hin]
      split <;> rfl
    · rw [if_neg hbig] at hli
      rw [parsePart_over _ hli, if_neg]
      have : digitsVal whole ≤ digitsVal whole * ns := Nat.le_mul_of_pos_right _ u4
      unfold maxI64
      omega

/-- Digits at the start of a text. -/
theorem digits_split (s : Bytes) : ∃ ds rest, s = ds ++ rest ∧ (∀ d ∈ ds, IsDigit d) ∧ NoDigit rest := by
  induction s with
  | nil => exact ⟨[], [], rfl, by simp, fun c hc => by cases hc⟩
  | cons c s ih =>
    by_cases hc : IsDigit c
    · obtain ⟨ds, rest, e, h1, h2⟩ := ih
      refine ⟨c :: ds, rest, by rw [e]; rfl, ?_, h2⟩
      intro d hd
      rcases List.mem_cons.1 hd with rfl | hd
      · exact hc
      · exact h1 d hd
    · refine ⟨[], c :: s, rfl, by simp, fun d hd => ?_⟩
      have : c = d := by simpa using hd
      subst this; exact hc

/-- A text of which a first part can be read begins with that part. -/
theorem part_syntax {s rest : Bytes} {v : Int} (h : parsePart s = some (v, rest)) : ∃ p : DurPart, p.Ok ∧ s = p.text ++ rest ∧ Stop rest := by
  obtain ⟨whole, s1, e, hw, hn⟩ := digits_split s
  have hli := leadingInt_eq whole s1 0 hw hn (by norm_num)
  rw [← e] at hli
  unfold parsePart at h
  split at h
  · cases h
  · rename_i c cs
    split at h
    · cases h
    · change leadingInt 0 (c :: cs) = _ at hli
      rw [hli] at h
      split at h
      · cases h
      · rename_i v' s1' hm
        split at hm
        · have hs1 : s1' = s1 := by cases hm; rfl
          subst hs1
          -- the point
          have key : ∃ (frac : Option Bytes) (s2 : Bytes), s1' = (match frac with | none => [] | some ds => 46 :: ds) ++ s2 ∧ (∀ d ∈ frac.getD [], IsDigit d) ∧
              (afterPoint s1').2.2.1 = s2 ∧ ((afterPoint s1').2.2.2 = true → frac.getD [] ≠ []) := by
            cases s1' with
            | nil => exact ⟨none, [], rfl, (by simp), rfl, fun h => by cases h⟩
            | cons d s1 =>
              by_cases hd : d = 46
              · subst hd
                obtain ⟨fs, s2, e2, hf, hn2⟩ := digits_split s1
                obtain ⟨k, -, -, -, k4⟩ := leadingFraction_eq fs 0 0 hf (by norm_num)
                have k5 := k4 s2 hn2
                rw [← e2] at k5
                change leadingFraction 0 (F64.ofInt 1) false s1 = _ at k5
                refine ⟨some fs, s2, by rw [e2]; rfl, hf, ?_, ?_⟩
                · unfold afterPoint; simp only; rw [if_pos trivial, k5]
                · intro hp
                  unfold afterPoint at hp
                  simp only at hp
                  rw [if_pos trivial, k5, e2] at hp
                  rintro hfe
                  have : fs = [] := hfe
                  subst this
                  simp at hp
              · refine ⟨none, d :: s1, rfl, (by simp), ?_, ?_⟩
                · unfold afterPoint; simp only; rw [if_neg hd]
                · intro hp
                  unfold afterPoint at hp
                  simp only at hp
                  rw [if_neg hd] at hp
                  cases hp
          obtain ⟨frac, s2, e1, hf, e2, hpost⟩ := key
          generalize hap : afterPoint s1' = ap at h e2 hpost
          obtain ⟨f, sc, s2', post⟩ := ap
          change s2' = s2 at e2
          subst e2
          simp only at h hpost
          split at h
          · cases h
          · rename_i hpp
            split at h
            · cases h
            · split at h
              · cases h
              · rename_i n hu
                obtain ⟨m, -, hmem⟩ := unitMap_mem hu
                obtain ⟨v'', -, hv2⟩ := Option.map_eq_some_iff.1 h
                have hrest : s2'.dropWhile unitByte = rest := by cases hv2; rfl
                refine ⟨⟨whole, frac, s2'.takeWhile unitByte, m⟩, ⟨?_, ?_, hmem⟩, ?_, ?_⟩
                · intro d hd
                  rcases List.mem_append.1 hd with hd | hd
                  · exact hw d hd
                  · exact hf d hd
                · intro hnil
                  obtain ⟨hnil1, hnil2⟩ := List.append_eq_nil_iff.1 hnil
                  change whole = [] at hnil1
                  change frac.getD [] = [] at hnil2
                  apply hpp
                  have hl : (c :: cs).length = s1'.length := by rw [e, hnil1]; rfl
                  have hpf : post = false := by
                    cases post with
                    | true => exact absurd hnil2 (hpost rfl)
                    | false => rfl
                  rw [hpf, hl]; simp
                · rw [e, e1, ← hrest]
                  unfold DurPart.text
                  simp only [List.append_assoc, List.takeWhile_append_dropWhile]
                  cases frac <;> rfl
                · intro d hd
                  rw [← hrest] at hd
                  have := List.head?_dropWhile_not unitByte s2'
                  rw [hd] at this
                  simpa using this
        · cases hm

/-! ## All parts -/

/-- The texts of some parts end where another text may begin. -/
theorem part_head (p : DurPart) (hp : p.Ok) (rest : Bytes) : ∃ c s, p.text ++ rest = c :: s ∧ (c = 46 ∨ IsDigit c) := by
  obtain ⟨whole, frac, unit, ns⟩ := p
  obtain ⟨hd, hsome, -⟩ := hp
  cases whole with
  | cons c cs => exact ⟨c, _, rfl, Or.inr (hd c (by simp))⟩
  | nil =>
    cases frac with
    | none => exact absurd rfl hsome
    | some fs => exact ⟨46, fs ++ unit ++ rest, by simp [DurPart.text], Or.inl rfl⟩

theorem stop_parts (ps : List DurPart) (hp : ∀ p ∈ ps, p.Ok) : Stop (ps.flatMap (·.text)) := by
  cases ps with
  | nil => intro c hc; cases hc
  | cons p ps =>
    intro c hc
    rw [List.flatMap_cons] at hc
    obtain ⟨d, s, e, hd⟩ := part_head p (hp p (by simp)) (ps.flatMap (·.text))
    rw [e] at hc
    have : d = c := by simpa using hc
    subst this
    cases hu : unitByte d with
    | false => rfl
    | true =>
      have := (unitByte_iff d).1 hu
      rcases hd with hd | hd
      · exact absurd hd this.1
      · exact absurd hd this.2

theorem parts_ok (ps : List DurPart) (hp : ∀ p ∈ ps, p.Ok) : ∃ N : Int, 0 ≤ N ∧ durValue ps - 11 / 10 * fracCount ps ≤ N ∧
    (N : Rat) ≤ durValue ps + 1 / 10 * fracCount ps ∧ ((∀ p ∈ ps, 10 ^ p.decimals.length ∣ p.ns) → (N : Rat) = durValue ps) ∧
    ∀ (d : Int) (fuel : Nat), 0 ≤ d → d ≤ maxI64 → (ps.flatMap (·.text)).length ≤ fuel →
      parseParts fuel d (ps.flatMap (·.text)) = if d + N ≤ maxI64 then some (d + N) else none := by
  induction ps with
  | nil =>
    refine ⟨0, Int.le_refl _, by simp [durValue, fracCount], by simp [durValue, fracCount], fun _ => by simp [durValue], ?_⟩
    intro d fuel h0 h1 _
    rw [Int.add_zero, if_pos h1]
    unfold parseParts
    simp
  | cons p ps ih =>
    obtain ⟨M, m0, m1, m2, m3, m4⟩ := ih fun q hq => hp q (by simp [hq])
    obtain ⟨N, n0, n1, n2, n3, n4⟩ := part_ok p (hp p (by simp))
    have hv : durValue (p :: ps) = p.value + durValue ps := by simp [durValue]
    have hc : (fracCount (p :: ps) : Rat) = (if p.decimals ≠ [] then 1 else 0) + fracCount ps := by
      unfold fracCount
      rw [List.countP_cons]
      by_cases hz : p.decimals = []
      · simp [hz]
      · simp [hz]; ring
    refine ⟨N + M, by omega, ?_, ?_, ?_, ?_⟩
    · rw [hv, hc]
      split at n1
      · rename_i hz; rw [if_pos hz]; push_cast; linarith
      · rename_i hz; rw [if_neg hz]; push_cast; linarith
    · rw [hv, hc]
      split at n2
      · rename_i hz; rw [if_pos hz]; push_cast; linarith
      · rename_i hz; rw [if_neg hz]; push_cast; linarith
    · intro he
      rw [hv, Int.cast_add, n3 (he p (by simp)), m3 fun q hq => he q (by simp [hq])]
    · intro d fuel h0 h1 hf
      obtain ⟨c, s, e, -⟩ := part_head p (hp p (by simp)) (ps.flatMap (·.text))
      rw [List.flatMap_cons] at hf ⊢
      have hne : p.text ++ ps.flatMap (·.text) ≠ [] := by rw [e]; simp
      have htl : 0 < p.text.length := by
        obtain ⟨c, s, e, -⟩ := part_head p (hp p (by simp)) []
        rw [List.append_nil] at e
        rw [e]; simp
      have hn := n4 (ps.flatMap (·.text)) (stop_parts ps fun q hq => hp q (by simp [hq]))
      cases fuel with
      | zero => exfalso; rw [List.length_append] at hf; omega
      | succ fuel =>
        conv => lhs; unfold parseParts
        rw [if_neg hne]
        simp only
        rw [hn]
        by_cases hN : N ≤ maxI64
        · rw [if_pos hN]
          simp only
          by_cases hs : d + N ≤ maxI64
          · have ew : wrap64 (d + N) = d + N := wrap64_of_inInt64 (by unfold InInt64; unfold maxI64 at hs; omega)
            rw [ew, if_neg (by omega), m4 (d + N) fuel (by omega) hs (by rw [List.length_append] at hf; omega), Int.add_assoc]
          · have ew : wrap64 (d + N) < 0 := by unfold maxI64 at *; unfold wrap64; omega
            rw [if_pos ew, if_neg (by omega)]
        · rw [if_neg hN, if_neg (by omega)]

theorem parts_syntax {fuel : Nat} {d v : Int} {s : Bytes} (h : parseParts fuel d s = some v) : ∃ ps : List DurPart, (∀ p ∈ ps, p.Ok) ∧ s = ps.flatMap (·.text) := by
  induction fuel generalizing d s with
  | zero =>
    unfold parseParts at h
    split at h
    · rename_i e; exact ⟨[], by simp, e⟩
    · cases h
  | succ fuel ih =>
    unfold parseParts at h
    split at h
    · rename_i e; exact ⟨[], by simp, e⟩
    · simp only at h
      split at h
      · cases h
      · rename_i v' rest hp
        split at h
        · cases h
        · obtain ⟨p, p1, p2, -⟩ := part_syntax hp
          obtain ⟨ps, q1, q2⟩ := ih h
          refine ⟨p :: ps, ?_, by rw [p2, q2, List.flatMap_cons]⟩
          intro q hq
          rcases List.mem_cons.1 hq with rfl | hq
          · exact p1
          · exact q1 q hq

theorem maxI64_nonneg : (0 : Int) ≤ maxI64 := by decide

theorem wrap_neg {N : Int} (n0 : 0 ≤ N) (h : N ≤ maxI64) : wrap64 (-N) = -N := by
  apply wrap64_of_inInt64
  unfold InInt64
  unfold maxI64 at h
  omega

/-- What a duration is read as. -/
theorem duration_ok {s : Bytes} {neg : Bool} {ps : List DurPart} (h : DurationText s neg ps) : ∃ N : Int, 0 ≤ N ∧ durValue ps - 11 / 10 * fracCount ps ≤ N ∧
    (N : Rat) ≤ durValue ps + 1 / 10 * fracCount ps ∧ ((∀ p ∈ ps, 10 ^ p.decimals.length ∣ p.ns) → (N : Rat) = durValue ps) ∧
    parseDuration s = if N ≤ maxI64 then some (if neg then -N else N) else none := by
  obtain ⟨sign, hs, hne, hok, rfl⟩ := h
  obtain ⟨N, n0, n1, n2, n3, n4⟩ := parts_ok ps hok
  refine ⟨N, n0, n1, n2, n3, ?_⟩
  obtain ⟨p, ps', rfl⟩ := List.exists_cons_of_ne_nil hne
  obtain ⟨c, t, e, hc⟩ := part_head p (hok p (by simp)) (ps'.flatMap (·.text))
  have e' : (p :: ps').flatMap (·.text) = c :: t := by rw [List.flatMap_cons]; exact e
  have hsp : splitSign (sign ++ (p :: ps').flatMap (·.text)) = (neg, (p :: ps').flatMap (·.text)) := by
    apply text_splitSign hs
    · rw [e']; simp only [List.head?_cons, ne_eq, Option.some.injEq]
      rintro rfl
      rcases hc with hc | hc
      · revert hc; decide
      · exact (digit_not_sign hc).1 rfl
    · rw [e']; simp only [List.head?_cons, ne_eq, Option.some.injEq]
      rintro rfl
      rcases hc with hc | hc
      · revert hc; decide
      · exact (digit_not_sign hc).2.1 rfl
  have h0 : (p :: ps').flatMap (·.text) ≠ b!"0" := by
    intro h0
    have hp := hok p (by simp)
    obtain ⟨u1, u2, -, -, -⟩ := unit_facts hp.unit
    obtain ⟨c, hcu⟩ := List.exists_mem_of_ne_nil _ u1
    have hm : c ∈ (p :: ps').flatMap (·.text) := by
      rw [List.flatMap_cons]
      apply List.mem_append_left
      unfold DurPart.text
      exact List.mem_append_right _ hcu
    rw [h0] at hm
    have hc0 : c = 48 := by simpa using hm
    have := (unitByte_iff c).1 (u2 c hcu)
    subst hc0
    exact this.2 (by decide)
  have hn : (p :: ps').flatMap (·.text) ≠ [] := by rw [e']; simp
  have := n4 0 _ (Int.le_refl 0) maxI64_nonneg (Nat.le_refl _)
  rw [Int.zero_add] at this
  unfold parseDuration
  rw [hsp]
  simp only
  rw [if_neg h0, if_neg hn, this]
  by_cases hN : N ≤ maxI64
  · rw [if_pos hN, if_pos hN]
    simp only [Option.map_some]
    cases neg with
    | false => simp
    | true => simp [wrap_neg n0 hN]
  · rw [if_neg hN, if_neg hN, Option.map_none]

/-- What can be read as a duration is one. -/
theorem duration_syntax {s : Bytes} {d : Int} (h : parseDuration s = some d) :
    (∃ (sign : Bytes) (neg : Bool), SignText sign neg ∧ s = sign ++ b!"0" ∧ d = 0) ∨ ∃ neg ps, DurationText s neg ps := by
  obtain ⟨sign, hs, e⟩ := splitSign_text s
  unfold parseDuration at h
  generalize splitSign s = r at h hs e
  obtain ⟨neg, t⟩ := r
  simp only at h hs e
  split at h
  · rename_i e0
    refine Or.inl ⟨sign, neg, hs, by rw [e, e0], ?_⟩
    cases h; rfl
  · split at h
    · cases h
    · rename_i hne
      obtain ⟨v, hv, -⟩ := Option.map_eq_some_iff.1 h
      obtain ⟨ps, p1, p2⟩ := parts_syntax hv
      refine Or.inr ⟨neg, ps, sign, hs, ?_, p1, by rw [e, p2]⟩
      rintro rfl
      exact hne p2

end Conf
end Spout
