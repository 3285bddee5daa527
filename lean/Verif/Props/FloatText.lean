import Verif.Lemmas.FloatRead
import Verif.Props.FloatAverage

/-! # C105: how floats are read and written -/

namespace Spout
open Spec

set_option exponentiation.threshold 3000

/-! ## The numerals -/

theorem splitDigits_cat (s : Bytes) : (splitDigits s).1 ++ (splitDigits s).2 = s := by
  unfold splitDigits
  exact List.takeWhile_append_dropWhile

theorem splitDigits_digits (s : Bytes) : ∀ d ∈ (splitDigits s).1, IsDigit d := by
  intro d hd
  unfold splitDigits at hd
  have := List.all_takeWhile (p := fun c => decide (IsDigit c)) (l := s)
  rw [List.all_eq_true] at this
  simpa using this d hd

theorem splitSign_text (s : Bytes) : ∃ sign, SignText sign (splitSign s).1 ∧ s = sign ++ (splitSign s).2 := by
  unfold splitSign
  split
  · exact ⟨[45], Or.inr (Or.inr ⟨rfl, rfl⟩), rfl⟩
  · exact ⟨[43], Or.inr (Or.inl ⟨rfl, rfl⟩), rfl⟩
  · exact ⟨[], Or.inl ⟨rfl, rfl⟩, rfl⟩

theorem text_splitSign {sign rest : Bytes} {neg : Bool} (h : SignText sign neg) (h1 : rest.head? ≠ some 43) (h2 : rest.head? ≠ some 45) :
    splitSign (sign ++ rest) = (neg, rest) := by
  rcases h with ⟨rfl, rfl⟩ | ⟨rfl, rfl⟩ | ⟨rfl, rfl⟩
  · unfold splitSign
    split
    · rename_i e; simp only [List.nil_append] at e; rw [e] at h2; exact absurd rfl h2
    · rename_i e; simp only [List.nil_append] at e; rw [e] at h1; exact absurd rfl h1
    · rfl
  · rfl
  · rfl

theorem digit_not_sign {c : Byte} (h : IsDigit c) : c ≠ 43 ∧ c ≠ 45 ∧ c ≠ 46 ∧ c ≠ 101 ∧ c ≠ 69 := by
  refine ⟨?_, ?_, ?_, ?_, ?_⟩ <;> (rintro rfl; revert h; decide)

theorem expText_parse {s : Bytes} {e : Int} (h : ExpText s e) : parseExponent s = some e ∧ NoDigit s ∧ s.head? ≠ some 46 := by
  rcases h with ⟨rfl, rfl⟩ | ⟨c, sign, ds, neg, hc, hs, hne, hd, rfl, rfl⟩
  · exact ⟨rfl, (by intro c hc; cases hc), by decide⟩
  · obtain ⟨d, ds', rfl⟩ := List.exists_cons_of_ne_nil hne
    have hd1 := digit_not_sign (hd d (by simp))
    have e1 : splitSign (sign ++ d :: ds') = (neg, d :: ds') :=
      text_splitSign hs (by simpa using hd1.1) (by simpa using hd1.2.1)
    have e2 : splitDigits (d :: ds') = (d :: ds', []) := by
      have := splitDigits_append (d :: ds') [] hd (by intro c hc; cases hc)
      simpa using this
    refine ⟨?_, ?_, ?_⟩
    · simp only [parseExponent]
      rw [if_pos hc, e1]
      simp only [e2]
      rw [if_neg (by simp)]
    · intro c' hc'
      simp only [List.head?_cons, Option.some.injEq] at hc'
      subst hc'
      intro hdig
      have := digit_not_sign hdig
      rcases hc with h | h
      · exact this.2.2.2.1 h
      · exact this.2.2.2.2 h
    · simp only [List.head?_cons, ne_eq, Option.some.injEq]
      rintro rfl
      rcases hc with h | h <;> exact absurd h (by decide)

theorem parse_expText {s : Bytes} {e : Int} (h : parseExponent s = some e) : ExpText s e := by
  cases s with
  | nil =>
    simp only [parseExponent, Option.some.injEq] at h
    exact Or.inl ⟨rfl, h.symm⟩
  | cons c s =>
    right
    simp only [parseExponent] at h
    split at h
    · rename_i hc
      split at h
      · cases h
      · rename_i hn
        obtain ⟨sign, h1, h2⟩ := splitSign_text s
        have h3 := splitDigits_cat (splitSign s).2
        have hrest : (splitDigits (splitSign s).2).2 = [] := Classical.byContradiction fun h0 => hn (Or.inr h0)
        have hds : (splitDigits (splitSign s).2).1 ≠ [] := fun h0 => hn (Or.inl h0)
        rw [hrest, List.append_nil] at h3
        refine ⟨c, sign, (splitDigits (splitSign s).2).1, (splitSign s).1, hc, h1, hds, splitDigits_digits _, ?_, ?_⟩
        · rw [h3, ← h2]
        · simpa using h.symm
    · cases h

/-- The texts of the specification are read. -/
theorem numText_parse {s : Bytes} {q : Rat} (h : NumText s q) :
    ∃ neg n e, parseDecimal s = some (neg, n, e) ∧ q = (if neg then -1 else 1) * (n : Rat) * 10 ^ e := by
  obtain ⟨sign, whole, frac, ds, ex, neg, e, rfl, hs, hf, hd, hne, he, hq⟩ := h
  obtain ⟨p1, p2, p3⟩ := expText_parse he
  have hw : ∀ d ∈ whole, IsDigit d := fun d h => hd d (by simp [h])
  have hds : ∀ d ∈ ds, IsDigit d := fun d h => hd d (by simp [h])
  refine ⟨neg, digitsVal (whole ++ ds), e - ds.length, ?_, hq⟩
  have hsplit : splitSign (sign ++ whole ++ frac ++ ex) = (neg, whole ++ frac ++ ex) := by
    rw [List.append_assoc, List.append_assoc]
    have hhead : ∀ c : Byte, (whole ++ (frac ++ ex)).head? = some c → IsDigit c ∨ c = 46 := by
      intro c hc
      cases whole with
      | cons d whole' =>
        simp only [List.cons_append, List.head?_cons, Option.some.injEq] at hc
        subst hc
        exact Or.inl (hw _ (by simp))
      | nil =>
        rcases hf with ⟨rfl, rfl⟩ | rfl
        · exact absurd rfl hne
        · simp only [List.nil_append, List.cons_append, List.head?_cons, Option.some.injEq] at hc
          exact Or.inr hc.symm
    rw [List.append_assoc]
    refine text_splitSign hs ?_ ?_
    · intro h0
      rcases hhead _ h0 with h | h
      · exact (digit_not_sign h).1 rfl
      · revert h; decide
    · intro h0
      rcases hhead _ h0 with h | h
      · exact (digit_not_sign h).2.1 rfl
      · revert h; decide
  unfold parseDecimal
  rw [hsplit]
  have hu : parseUnsigned (whole ++ frac ++ ex) = some (digitsVal (whole ++ ds), e - ds.length) := by
    rcases hf with ⟨rfl, rfl⟩ | rfl
    · have := parseUnsigned_whole whole ex e hw (by simpa using hne) p2 p3 p1
      simpa using this
    · have := parseUnsigned_point whole ds ex e hw hds hne p2 p1
      rw [List.append_assoc, List.cons_append]
      exact this
  rw [hu]
  rfl

/-- Only the texts of the specification are read. -/
theorem parse_numText {s : Bytes} {neg : Bool} {n : Nat} {e : Int} (h : parseDecimal s = some (neg, n, e)) :
    NumText s ((if neg then -1 else 1) * (n : Rat) * 10 ^ e) := by
  unfold parseDecimal at h
  obtain ⟨sign, h1, h2⟩ := splitSign_text s
  generalize (splitSign s).1 = neg' at *
  generalize (splitSign s).2 = t at *
  rw [Option.map_eq_some_iff] at h
  obtain ⟨⟨n', e'⟩, h3, h4⟩ := h
  obtain ⟨rfl, rfl, rfl⟩ : neg' = neg ∧ n' = n ∧ e' = e := by
    injection h4 with a b; injection b with b c; exact ⟨a, b, c⟩
  unfold parseUnsigned at h3
  simp only [] at h3
  split at h3
  · cases h3
  · rename_i hne
    rw [Option.map_eq_some_iff] at h3
    obtain ⟨e0, h5, h6⟩ := h3
    obtain ⟨h7, h8⟩ := Prod.mk.inj h6
    have hcat := splitDigits_cat t
    have hdig := splitDigits_digits t
    generalize (splitDigits t).1 = whole at *
    generalize (splitDigits t).2 = t2 at *
    have hp : ∃ frac, FracText frac (splitPoint t2).1 ∧ t2 = frac ++ (splitPoint t2).2 ∧ ∀ d ∈ (splitPoint t2).1, IsDigit d := by
      by_cases hpt : t2.head? = some 46
      · have e1 : splitPoint t2 = splitDigits t2.tail := if_pos hpt
        rw [e1]
        refine ⟨46 :: (splitDigits t2.tail).1, Or.inr rfl, ?_, splitDigits_digits _⟩
        rw [List.cons_append, splitDigits_cat]
        cases t2 with
        | nil => cases hpt
        | cons c t3 =>
          simp only [List.head?_cons, Option.some.injEq] at hpt
          rw [hpt]; rfl
      · have e1 : splitPoint t2 = ([], t2) := if_neg hpt
        rw [e1]
        exact ⟨[], Or.inl ⟨rfl, rfl⟩, rfl, (by intro d hd; cases hd)⟩
    obtain ⟨frac, f1, f2, f3⟩ := hp
    refine ⟨sign, whole, frac, (splitPoint t2).1, (splitPoint t2).2, neg', e0, ?_, h1, f1, ?_, hne, parse_expText h5, ?_⟩
    · rw [List.append_assoc, ← f2, List.append_assoc, hcat]; exact h2
    · intro d hd
      rcases List.mem_append.1 hd with h | h
      · exact hdig d h
      · exact f3 d h
    · rw [← h7, ← h8]

/-! ## Values -/

theorem oneN_zpow : (oneN : Rat) = 2 ^ (1074 : Int) := by
  unfold oneN
  rw [Nat.cast_pow]
  exact (zpow_natCast (2 : Rat) 1074).symm

theorem infBits_eq : infBits = 2047 * 2 ^ 52 := rfl

attribute [local irreducible] oneN infBits maxU tenN

/-- The decimal number as a fraction of units. -/
theorem ofDecimal_round (neg : Bool) (n : Nat) (e : Int) : ∃ a b, 0 < b ∧ F64.ofDecimal neg n e = F64.round neg a b ∧
    (n : Rat) * 10 ^ e * oneN = (a : Rat) / b := by
  unfold F64.ofDecimal
  by_cases h : 0 ≤ e
  · rw [if_pos h]
    refine ⟨_, _, by decide, rfl, ?_⟩
    obtain ⟨m, rfl⟩ := Int.eq_ofNat_of_zero_le h
    rw [Int.toNat_natCast]
    push_cast
    rw [zpow_natCast]
    ring
  · rw [if_neg h]
    refine ⟨_, _, by positivity, rfl, ?_⟩
    obtain ⟨m, hm⟩ := Int.eq_ofNat_of_zero_le (a := -e) (by omega)
    have he : e = -(m : Int) := by omega
    subst he
    rw [neg_neg, Int.toNat_natCast]
    push_cast
    rw [zpow_neg, zpow_natCast]
    field_simp

/-- Infinities are errors. -/
def noInf : F64 → Option F64
  | .fin s k => some (.fin s k)
  | _ => none

theorem parseFloat_decimal (other : Bytes → Option F64) {s : Bytes} {neg : Bool} {n : Nat} {e : Int} (h : parseDecimal s = some (neg, n, e)) :
    parseFloat other s = noInf (F64.ofDecimal neg n e) := by
  unfold parseFloat
  rw [h]
  rfl

theorem noInf_some {x y : F64} (h : noInf x = some y) : x = y ∧ y.IsFinite := by
  cases x with
  | nan => cases h
  | inf s => cases h
  | fin s k => cases h; exact ⟨rfl, trivial⟩

theorem noInf_round (neg : Bool) (a b : Nat) : noInf (F64.round neg a b) = none ↔ infBits ≤ nearest a b := by
  unfold F64.round
  by_cases hn : nearest a b < infBits
  · rw [dif_pos hn]
    constructor
    · intro h0; cases h0
    · intro h0; exact absurd hn (Nat.not_lt.2 h0)
  · rw [dif_neg hn]
    exact ⟨fun _ => Nat.not_lt.1 hn, fun _ => rfl⟩

theorem parseFloat_numText (other : Bytes → Option F64) {s : Bytes} {q : Rat} (h : NumText s q) :
    ∃ (neg : Bool) (a b : Nat), 0 < b ∧ q * oneN = (if neg then -1 else 1) * ((a : Rat) / b) ∧
      parseFloat other s = noInf (F64.round neg a b) := by
  obtain ⟨neg, n, e, h1, h2⟩ := numText_parse h
  obtain ⟨a, b, hb, h3, h4⟩ := ofDecimal_round neg n e
  refine ⟨neg, a, b, hb, ?_, ?_⟩
  · rw [h2, ← h4]; ring
  · rw [parseFloat_decimal other h1, h3]

theorem mag_exists (t : Nat) : ∀ m, m < 2 ^ 53 → t ≤ 2045 → ∃ k, magN k = m * 2 ^ t ∧ k < 2047 * 2 ^ 52 := by
  induction t with
  | zero =>
    intro m hm _
    have hp : Parts m 0 m := ⟨by omega, Or.inl rfl⟩
    exact ⟨m, hp.mag (by omega), by omega⟩
  | succ t ih =>
    intro m hm ht
    by_cases h : m < 2 ^ 52
    · obtain ⟨k, h1, h2⟩ := ih (2 * m) (by omega) (by omega)
      refine ⟨k, ?_, h2⟩
      rw [h1, pow_succ 2 t]; ring
    · have hp : Parts ((t + 1) * 2 ^ 52 + m) (t + 1) m := ⟨rfl, Or.inr (by omega)⟩
      exact ⟨_, hp.mag (by omega), by omega⟩

/-- **C105.** The finite float64 are the numbers `m * 2^e` with |m| < 2^53 and -1074 ≤ e ≤ 971. -/
theorem C105_float64_values (q : Rat) :
    (∃ x : F64, x.IsFinite ∧ x.val = q) ↔ ∃ m e : Int, |m| < 2 ^ 53 ∧ -1074 ≤ e ∧ e ≤ 971 ∧ q = m * 2 ^ e := by
  have hone := oneN_rat
  have h2 : (2 : Rat) ≠ 0 := by norm_num
  have conv : ∀ m t : Nat, ((m * 2 ^ t : Nat) : Rat) / oneN = m * 2 ^ ((t : Int) - 1074) := by
    intro m t
    rw [oneN_zpow, zpow_sub₀ h2, zpow_natCast]
    push_cast
    ring
  constructor
  · rintro ⟨x, hf, rfl⟩
    have key : ∀ k : Fin infBits, ∃ m e : Int, |m| < 2 ^ 53 ∧ -1074 ≤ e ∧ e ≤ 971 ∧ (F64.fin false k).val = m * 2 ^ e := by
      intro k
      obtain ⟨t, m, p, hm⟩ := parts_exist k.val
      have hk : k.val < 2047 * 2 ^ 52 := by rw [← infBits_eq]; exact k.isLt
      have ht : t ≤ 2045 := by
        have := p.eq
        have := p.full
        omega
      refine ⟨m, (t : Int) - 1074, ?_, by omega, by omega, ?_⟩
      · rw [abs_of_nonneg (by omega)]; omega
      · unfold F64.val
        rw [units_finPos, p.mag (by omega), Int.cast_natCast, conv, Int.cast_natCast]
    cases x with
    | nan => exact absurd hf id
    | inf s => exact absurd hf id
    | fin s k =>
      obtain ⟨m, e, h3, h4, h5, h6⟩ := key k
      cases s
      · exact ⟨m, e, h3, h4, h5, h6⟩
      · refine ⟨-m, e, by rw [abs_neg]; exact h3, h4, h5, ?_⟩
        rw [val_neg, h6]; push_cast; ring
  · rintro ⟨m, e, h3, h4, h5, rfl⟩
    obtain ⟨t, ht⟩ := Int.eq_ofNat_of_zero_le (a := e + 1074) (by omega)
    obtain ⟨k, k1, k2⟩ := mag_exists t m.natAbs (by rw [Int.abs_eq_natAbs] at h3; omega) (by omega)
    rw [← infBits_eq] at k2
    have he : e = (t : Int) - 1074 := by omega
    have hv : (F64.fin false ⟨k, k2⟩).val = (m.natAbs : Rat) * 2 ^ e := by
      unfold F64.val
      rw [units_finPos, Int.cast_natCast]
      show ((magN k : Nat) : Rat) / oneN = _
      rw [k1, conv, he]
    rcases Int.le_total 0 m with h | h
    · refine ⟨.fin false ⟨k, k2⟩, trivial, ?_⟩
      rw [hv]
      have : ((m.natAbs : Int) : Rat) = (m : Rat) := by rw [Int.natAbs_of_nonneg h]
      rw [← this, Int.cast_natCast]
    · refine ⟨.fin true ⟨k, k2⟩, trivial, ?_⟩
      rw [val_neg, hv]
      have : ((m.natAbs : Int) : Rat) = -(m : Rat) := by rw [Int.ofNat_natAbs_of_nonpos h]; push_cast; ring
      rw [Int.cast_natCast] at this
      rw [this]; ring

/-- **C105.** A numeral is read as the float64 nearest to it; of two that are equally near, as the one whose last bit is zero. -/
theorem C105_read_nearest (other : Bytes → Option F64) (s : Bytes) (q : Rat) (h : NumText s q) (x : F64) (hx : parseFloat other s = some x) :
    x.IsFinite ∧ ∀ y : F64, y.IsFinite →
      |x.val - q| ≤ |y.val - q| ∧ (|x.val - q| = |y.val - q| → y.val = x.val ∨ x.LastBitZero) := by
  obtain ⟨neg, a, b, hb, h1, h2⟩ := parseFloat_numText other h
  rw [h2] at hx
  obtain ⟨h3, h4⟩ := noInf_some hx
  exact ⟨h4, fun y _ => round_error neg a b hb x h3 h4 q h1 y⟩

/-- **C105.** A numeral is rejected exactly if it is at least half a step larger than the largest float64 (in magnitude). -/
theorem C105_rejected_iff_too_large (other : Bytes → Option F64) (s : Bytes) (q : Rat) (h : NumText s q) :
    parseFloat other s = none ↔ (2 ^ 54 - 1) * 2 ^ 970 ≤ |q| := by
  obtain ⟨neg, a, b, hb, h1, h2⟩ := parseFloat_numText other h
  have hone := oneN_rat
  have hb' : (0 : Rat) < b := by exact_mod_cast hb
  have hr : (0 : Rat) ≤ (a : Rat) / b := div_nonneg (Nat.cast_nonneg _) (Nat.cast_nonneg _)
  have habs : |q| * oneN = (a : Rat) / b := by
    rw [← abs_of_pos hone, ← abs_mul, h1]
    cases neg
    · simp only [Bool.false_eq_true, if_false, one_mul]; exact abs_of_nonneg hr
    · simp only [if_true, neg_one_mul, abs_neg]; exact abs_of_nonneg hr
  have hT : ((2 ^ 54 - 1) * 2 ^ 970 * oneN : Nat) = (2 ^ 54 - 1) * 2 ^ 2044 := by decide +kernel
  have hTq : ((2 ^ 54 - 1) * 2 ^ 970 : Rat) * oneN = (((2 ^ 54 - 1) * 2 ^ 2044 : Nat) : Rat) := by
    rw [← hT, Nat.cast_mul]
    congr 1
    norm_num
  have e1 : ((2 ^ 54 - 1) * 2 ^ 970 : Rat) ≤ |q| ↔ (2 ^ 54 - 1) * 2 ^ 2044 * b ≤ a := by
    rw [← mul_le_mul_iff_left₀ hone, habs, hTq, le_div_iff₀ hb', ← Nat.cast_mul, Nat.cast_le]
  rw [e1, ← too_large a b hb, h2]
  exact noInf_round neg a b

/-- **C105.** What is read as a finite float64 is a numeral (or one of the literals in hexadecimal or with underscores of newer versions of Go). -/
theorem C105_only_numerals (other : Bytes → Option F64) (s : Bytes) (x : F64) (hf : x.IsFinite) (h : parseFloat other s = some x) :
    (∃ q, NumText s q) ∨ other s = some x := by
  unfold parseFloat at h
  cases hp : parseDecimal s with
  | some v =>
    obtain ⟨neg, n, e⟩ := v
    exact Or.inl ⟨_, parse_numText hp⟩
  | none =>
    rw [hp] at h
    simp only [] at h
    right
    cases hs : parseSpecial s with
    | none => rw [hs] at h; exact h
    | some y =>
      rw [hs] at h
      injection h with h
      subst h
      exfalso
      unfold parseSpecial at hs
      split at hs
      · injection hs with hs; subst hs; exact hf
      · simp only [] at hs
        split at hs
        · injection hs with hs; subst hs; exact hf
        · cases hs

/-- **C105.** A finite float64 is written as a numeral that is read as the same float64. -/
theorem C105_written_reads_back (other : Bytes → Option F64) (x : F64) (hf : x.IsFinite) :
    parseFloat other (printFloat x) = some x ∧ ∃ q, NumText (printFloat x) q := by
  cases x with
  | nan => exact absurd hf id
  | inf s => exact absurd hf id
  | fin s k =>
    refine ⟨print_parse other s k, ?_⟩
    rcases C105_only_numerals (fun _ => none) _ _ hf (print_parse (fun _ => none) s k) with h | h
    · exact h
    · cases h

/-- **C105.** A float field seen once in a period is emitted as a numeral that is read as the same float64 as the sample. -/
theorem C105_single_sample (other : Bytes → Option F64) (k n : Bytes) (s : Sample) (v : F64) (hw : WFSamples k n [s])
    (hq : s.quoted = false) (hi : intLit s.content = none) (hv : parseFloat other s.content = some v) (hf : v.IsFinite) :
    ∃ t, Emits (binary64 other) k n [s] t ∧ parseFloat other t = some v :=
  ⟨_, emits_float other k n s [] v hw hq hi hv, (C105_written_reads_back other v hf).1⟩

/-! ## Examples -/

/-- `-12.50E-1` is -1.25, which is read exactly. -/
theorem numExample : NumText b!"-12.50E-1" (-5 / 4) := by
  refine ⟨b!"-", b!"12", b!".50", b!"50", b!"E-1", true, -1, rfl, Or.inr (Or.inr ⟨rfl, rfl⟩), Or.inr rfl, by decide, by decide,
    Or.inr ⟨69, b!"-", b!"1", true, Or.inr rfl, Or.inr (Or.inr ⟨rfl, rfl⟩), by decide, by decide, rfl, by decide⟩, ?_⟩
  have : digitsVal (b!"12" ++ b!"50") = 1250 := by decide
  rw [this]
  norm_num

example : ∃ x, parseFloat noOther b!"-12.50E-1" = some x ∧ |x.val - -5 / 4| ≤ 0 := by
  obtain ⟨x, hx⟩ : ∃ x, parseFloat noOther b!"-12.50E-1" = some x := by
    cases h : parseFloat noOther b!"-12.50E-1" with
    | some x => exact ⟨x, rfl⟩
    | none =>
      have := (C105_rejected_iff_too_large noOther _ _ numExample).1 h
      norm_num at this
  obtain ⟨y, hy, hv⟩ := (C105_float64_values (-5 / 4)).2 ⟨-5, -2, by norm_num, by norm_num, by norm_num, by norm_num⟩
  refine ⟨x, hx, ?_⟩
  have := ((C105_read_nearest noOther _ _ numExample x hx).2 y hy).1
  rw [hv] at this
  simpa using this

/-- 2^53 + 1 lies between two float64 and is read as the even one, 2^53. -/
example : parseFloat noOther b!"9007199254740993" = parseFloat noOther b!"9007199254740992" ∧
    parseFloat noOther b!"9007199254740993" ≠ parseFloat noOther b!"9007199254740994" := by decide +kernel

/-- A single sample of 0.1 is emitted as 0.1, 1e6 as 1e+06, and 1e400 is not a float. -/
example : (parseFloat noOther b!"0.1").map printFloat = some b!"0.1" ∧ (parseFloat noOther b!"1e6").map printFloat = some b!"1e+06" ∧
    (parseFloat noOther b!"1e400") = none := by decide +kernel

example : ∃ t, Emits (binary64 noOther) b!"m" b!"f" [⟨false, b!"1.5"⟩] t ∧ parseFloat noOther t = some (.fin false bits15) :=
  C105_single_sample noOther b!"m" b!"f" ⟨false, b!"1.5"⟩ _ (wfSamples_ints [b!"1.5"] (by decide)) rfl (by decide) read15 trivial

end Spout
