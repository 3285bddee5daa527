import Verif.Lemmas.FloatStep
import Verif.Lemmas.Convert

/-! # Lemmas about reading and printing float64 -/

namespace Spout
open Spec

attribute [local irreducible] oneN infBits maxU tenN

/-! ## Digits -/

theorem tenN_pos : 0 < tenN := by decide +kernel


theorem natDigits_bounds (n : Nat) (hn : 0 < n) : 10 ^ ((natDigits n).length - 1) ≤ n ∧ n < 10 ^ (natDigits n).length := by
  fun_induction natDigits n with
  | case1 n h => simp; omega
  | case2 n h ih =>
    obtain ⟨h1, h2⟩ := ih (by omega)
    have h3 : 0 < (natDigits (n / 10)).length := List.length_pos_iff.2 (natDigits_ne_nil _)
    obtain ⟨l, hl⟩ : ∃ l, (natDigits (n / 10)).length = l + 1 := ⟨_, (Nat.succ_pred_eq_of_pos h3).symm⟩
    rw [hl] at h1 h2
    simp only [List.length_append, List.length_singleton, hl, Nat.add_sub_cancel] at h1 h2 ⊢
    rw [pow_succ 10 (l + 1)]
    rw [pow_succ 10 l] at h2 ⊢
    omega

/-- Bounds on the place of the point. -/
theorem pointPlace_bounds {k : Nat} (hk : 0 < k) :
    76 ≤ pointPlace k ∧ oneN * 10 ^ (pointPlace k - 1) ≤ magN k * tenN ∧ magN k * tenN < oneN * 10 ^ pointPlace k := by
  have hm := magN_pos hk
  have ho := oneN_pos
  have h0 : oneN * 10 ^ 76 ≤ tenN := by decide +kernel
  have h1 : 10 ^ 76 ≤ magN k * tenN / oneN := by
    rw [Nat.le_div_iff_mul_le ho]
    calc 10 ^ 76 * oneN ≤ tenN := by rw [Nat.mul_comm]; exact h0
      _ ≤ magN k * tenN := Nat.le_mul_of_pos_left _ hm
  obtain ⟨h2, h3⟩ := natDigits_bounds (magN k * tenN / oneN) (Nat.lt_of_lt_of_le (by positivity) h1)
  have e : (natDigits (magN k * tenN / oneN)).length = pointPlace k := rfl
  rw [e] at h2 h3
  refine ⟨?_, ?_, ?_⟩
  · have : 10 ^ 76 < 10 ^ pointPlace k := Nat.lt_of_le_of_lt h1 h3
    exact Nat.le_of_lt ((Nat.pow_lt_pow_iff_right (by decide)).1 this)
  · have := (Nat.le_div_iff_mul_le ho).1 h2
    rwa [Nat.mul_comm oneN]
  · have := (Nat.div_lt_iff_lt_mul ho).1 h3
    rwa [Nat.mul_comm oneN]

theorem digitsOf_reads {k n d j : Nat} (h : digitsOf k n = some (d, j)) : nearest (d * 10 ^ j * oneN) tenN = k ∧ j = pointPlace k - n := by
  unfold digitsOf at h
  simp only [] at h
  split at h
  · rename_i hc
    simp only [Option.some.injEq, Prod.mk.injEq] at h
    obtain ⟨rfl, rfl⟩ := h
    exact ⟨by simpa [readsAs] using hc.1, rfl⟩
  · split at h
    · rename_i hc
      simp only [Option.some.injEq, Prod.mk.injEq] at h
      obtain ⟨rfl, rfl⟩ := h
      exact ⟨by simpa [readsAs] using hc, rfl⟩
    · cases h

/-- 17 digits are enough. -/
theorem digitsOf_17 {k : Nat} (hk : 0 < k) : ∃ x, digitsOf k 17 = some x := by
  obtain ⟨h1, h2, h3⟩ := pointPlace_bounds hk
  have ho := oneN_pos
  obtain ⟨j, hj⟩ : ∃ j, pointPlace k = j + 17 := ⟨pointPlace k - 17, by omega⟩
  have hj' : pointPlace k - 17 = j := by omega
  have hj1 : pointPlace k - 1 = j + 16 := by omega
  rw [hj1, Nat.pow_add] at h2
  obtain ⟨U, hU⟩ : ∃ U, U = oneN * 10 ^ j := ⟨_, rfl⟩
  obtain ⟨V, hV⟩ : ∃ V, V = magN k * tenN := ⟨_, rfl⟩
  have hU0 : 0 < U := by rw [hU]; exact Nat.mul_pos ho (by positivity)
  have h4 : U * 10 ^ 16 ≤ V := by rw [hU, hV]; rw [Nat.mul_assoc]; exact h2
  have hdm := Nat.div_add_mod V U
  have hlt := Nat.mod_lt V hU0
  have hb : tenN * magN k = V := by rw [hV]; ring
  have hread : ∀ d, 2 ^ 54 * (d * U) < 2 ^ 54 * V + V → 2 ^ 54 * V < 2 ^ 54 * (d * U) + V → readsAs k d j = true := by
    intro d a1 a2
    unfold readsAs
    have e : d * 10 ^ j * oneN = d * U := by rw [hU]; ring
    rw [e, beq_iff_eq]
    exact nearest_close _ _ _ tenN_pos (by rw [hb]; exact a1) (by rw [hb]; exact a2)
  have e1 : V / U * U = U * (V / U) := Nat.mul_comm _ _
  have e2 : (V / U + 1) * U = U * (V / U) + U := by ring
  have hor : readsAs k (V / U) j = true ∨ readsAs k (V / U + 1) j = true := by
    by_cases h5 : 2 * (V % U) ≤ U
    · left
      apply hread
      · rw [e1]; omega
      · rw [e1]; omega
    · right
      apply hread
      · rw [e2]; omega
      · rw [e2]; omega
  unfold digitsOf
  simp only [hj', ← hU, ← hV]
  split
  · exact ⟨_, rfl⟩
  · rename_i hc
    split
    · exact ⟨_, rfl⟩
    · rename_i hc2
      exfalso
      rcases hor with h | h
      · exact hc ⟨h, Or.inl hc2⟩
      · exact hc2 h

theorem shortest_found {k : Nat} (hk : 0 < k) : ∃ n d j, n ≤ 17 ∧ digitsOf k n = some (d, j) ∧ shortestDigits k = (d, j) := by
  unfold shortestDigits
  cases h : ((List.range 17).map (· + 1)).findSome? (digitsOf k) with
  | some x =>
    obtain ⟨n, hn, hx⟩ := List.exists_of_findSome?_eq_some h
    obtain ⟨d, j⟩ := x
    refine ⟨n, d, j, ?_, hx, rfl⟩
    simp only [List.mem_map, List.mem_range] at hn
    omega
  | none =>
    exfalso
    obtain ⟨x, hx⟩ := digitsOf_17 hk
    have := List.findSome?_eq_none_iff.1 h 17 (by simp)
    rw [hx] at this
    cases this

/-! ## Reading -/

theorem isDigit_iff (c : Byte) : decide (IsDigit c) = true ↔ IsDigit c := by simp

/-- The rest of a text does not begin with a digit. -/
def NoDigit (s : Bytes) : Prop := ∀ c, s.head? = some c → ¬ IsDigit c

theorem splitDigits_append (ds rest : Bytes) (h : ∀ d ∈ ds, IsDigit d) (hr : NoDigit rest) : splitDigits (ds ++ rest) = (ds, rest) := by
  unfold splitDigits
  have h1 : ∀ d ∈ ds, decide (IsDigit d) = true := by simpa using h
  rw [List.takeWhile_append_of_pos h1, List.dropWhile_append_of_pos h1]
  cases rest with
  | nil => simp
  | cons c cs =>
    have : ¬ IsDigit c := hr c rfl
    simp [this]

theorem parseUnsigned_whole (ds rest : Bytes) (e : Int) (h : ∀ d ∈ ds, IsDigit d) (hne : ds ≠ []) (hr : NoDigit rest) (hp : rest.head? ≠ some 46)
    (he : parseExponent rest = some e) : parseUnsigned (ds ++ rest) = some (digitsVal ds, e) := by
  unfold parseUnsigned
  simp only [splitDigits_append ds rest h hr]
  have : splitPoint rest = ([], rest) := if_neg hp
  rw [this]
  simp [hne, he]

theorem parseUnsigned_point (ds fs rest : Bytes) (e : Int) (h : ∀ d ∈ ds, IsDigit d) (hf : ∀ d ∈ fs, IsDigit d) (hne : ds ++ fs ≠ []) (hr : NoDigit rest)
    (he : parseExponent rest = some e) : parseUnsigned (ds ++ 46 :: (fs ++ rest)) = some (digitsVal (ds ++ fs), e - fs.length) := by
  unfold parseUnsigned
  have hr2 : NoDigit (46 :: (fs ++ rest)) := by
    intro c hc
    simp only [List.head?_cons, Option.some.injEq] at hc
    subst hc
    decide
  have hp : splitPoint (46 :: (fs ++ rest)) = (fs, rest) := (if_pos rfl).trans (splitDigits_append fs rest hf hr)
  simp only [splitDigits_append ds _ h hr2, hp]
  rw [if_neg hne, he]
  rfl

theorem formatExp_parses (e : Int) : parseExponent (formatExp e) = some e ∧ NoDigit (formatExp e) ∧ (formatExp e).head? ≠ some 46 := by
  have hd := natDigits_digits e.natAbs
  have hz : ∀ d ∈ (if e.natAbs < 10 then b!"0" else []) ++ natDigits e.natAbs, IsDigit d := by
    intro d hd'
    rcases List.mem_append.1 hd' with h | h
    · split at h
      · simp only [List.mem_singleton] at h; subst h; decide
      · cases h
    · exact hd d h
  have hv : digitsVal ((if e.natAbs < 10 then b!"0" else []) ++ natDigits e.natAbs) = e.natAbs := by
    split
    · have : digitsVal (b!"0" ++ natDigits e.natAbs) = digitsVal (natDigits e.natAbs) := by simp [digitsVal]
      rw [this, digitsVal_natDigits]
    · rw [List.nil_append, digitsVal_natDigits]
  have hne : (if e.natAbs < 10 then b!"0" else []) ++ natDigits e.natAbs ≠ [] := by simp [natDigits_ne_nil]
  have hs := splitDigits_append _ [] hz (by intro c hc; simp at hc)
  rw [List.append_nil] at hs
  unfold formatExp
  rw [List.append_assoc]
  generalize (if e.natAbs < 10 then b!"0" else []) ++ natDigits e.natAbs = ds at *
  by_cases h : e < 0
  · rw [if_pos h]
    refine ⟨?_, ?_, ?_⟩
    · show parseExponent (101 :: 45 :: ds) = some e
      simp only [parseExponent, splitSign, hs, hv]
      rw [if_pos (Or.inl trivial), if_neg (by simpa using hne)]
      simp only [if_true, Option.some.injEq]
      omega
    · intro c hc
      have : c = 101 := by simpa using hc.symm
      subst this; decide
    · simp
  · rw [if_neg h]
    refine ⟨?_, ?_, ?_⟩
    · show parseExponent (101 :: 43 :: ds) = some e
      simp only [parseExponent, splitSign, hs, hv]
      rw [if_pos (Or.inl trivial), if_neg (by simpa using hne), if_neg (by simp)]
      simp only [Option.some.injEq]
      omega
    · intro c hc
      have : c = 101 := by simpa using hc.symm
      subst this; decide
    · simp

theorem digitsVal_append (a b : Bytes) : digitsVal (a ++ b) = digitsVal a * 10 ^ b.length + digitsVal b := by
  induction b using List.reverseRecOn with
  | nil => simp [digitsVal]
  | append_singleton b c ih =>
    have e : ∀ l : Bytes, digitsVal (l ++ [c]) = digitsVal l * 10 + (c.toNat - 48) := by intro l; simp [digitsVal]
    rw [← List.append_assoc, e, ih, e, List.length_append, List.length_singleton, pow_succ 10 b.length]
    ring

theorem digitsVal_zeros (n : Nat) : digitsVal (List.replicate n (48 : Byte)) = 0 := by
  induction n with
  | zero => rfl
  | succ n ih => rw [List.replicate_succ]; simpa [digitsVal] using ih

theorem strip_spec (ds : Bytes) : ∃ z, ds = stripZeros ds ++ List.replicate z 48 := by
  refine ⟨(ds.reverse.takeWhile (· = 48)).length, ?_⟩
  have h := List.takeWhile_append_dropWhile (p := fun x : Byte => decide (x = 48)) (l := ds.reverse)
  have h2 : ds.reverse.takeWhile (· = 48) = List.replicate (ds.reverse.takeWhile (· = 48)).length 48 := by
    refine List.eq_replicate_iff.2 ⟨rfl, ?_⟩
    intro b hb
    have := List.all_eq_true.1 (List.all_takeWhile (p := fun x : Byte => decide (x = 48)) (l := ds.reverse)) b hb
    simpa using this
  conv => lhs; rw [← List.reverse_reverse (as := ds), ← h, List.reverse_append]
  unfold stripZeros
  rw [h2]
  simp

/-! ## Printing -/

/-- A decimal exponent as two natural numbers: `n * 10^e = d * 10^(j-400)`. -/
structure SameDecimal (n : Nat) (e : Int) (d j : Nat) : Prop where
  pos : 0 ≤ e → n * 10 ^ e.toNat * tenN = d * 10 ^ j
  neg : e < 0 → n * tenN = d * 10 ^ j * 10 ^ (-e).toNat

theorem ofDecimal_same {n d j : Nat} {e : Int} (s : Bool) (h : SameDecimal n e d j) :
    F64.ofDecimal s n e = F64.round s (d * 10 ^ j * oneN) tenN := by
  have hn : ∀ a b : Nat, nearest a b = nearest (d * 10 ^ j * oneN) tenN → F64.round s a b = F64.round s (d * 10 ^ j * oneN) tenN := by
    intro a b hab
    unfold F64.round
    rw [hab]
  unfold F64.ofDecimal
  by_cases he : 0 ≤ e
  · rw [if_pos he]
    apply hn
    apply nearest_eq (by decide) tenN_pos
    have := h.pos he
    calc n * 10 ^ e.toNat * oneN * tenN = (n * 10 ^ e.toNat * tenN) * oneN := by ring
      _ = _ := by rw [this]; ring
  · rw [if_neg he]
    apply hn
    apply nearest_eq (by positivity) tenN_pos
    have := h.neg (by omega)
    calc n * oneN * tenN = (n * tenN) * oneN := by ring
      _ = _ := by rw [this]; ring

set_option exponentiation.threshold 2000 in
theorem tenN_pow (a b : Nat) (h : a = b + 400) : (10 : Nat) ^ a = 10 ^ b * tenN := by
  unfold tenN
  rw [← Nat.pow_add, h]

theorem tenN_pow_zero (a : Nat) (h : a = 400) : (10 : Nat) ^ a = tenN := by
  have := tenN_pow a 0 h
  simpa using this


/-- What the printed digits are read as. -/
theorem formatDigits_parses (ds : Bytes) (hd : ∀ c ∈ ds, IsDigit c) (hne : ds ≠ []) (dp : Int) :
    ∃ n e, parseUnsigned (formatDigits ds dp) = some (n, e) ∧
      ((n = digitsVal ds ∧ e = dp - ds.length) ∨ (e = 0 ∧ (ds.length : Int) ≤ dp ∧ n = digitsVal ds * 10 ^ (dp - ds.length).toNat)) := by
  unfold formatDigits
  split
  · -- with exponent
    obtain ⟨e1, e2, e3⟩ := formatExp_parses (dp - 1)
    obtain ⟨c, cs, rfl⟩ := List.exists_cons_of_ne_nil hne
    have hc : ∀ d ∈ [c], IsDigit d := by intro d h; simp only [List.mem_singleton] at h; subst h; exact hd _ (by simp)
    by_cases hl : cs = []
    · subst hl
      refine ⟨digitsVal [c], dp - 1, ?_, Or.inl ⟨rfl, by simp⟩⟩
      have := parseUnsigned_whole [c] (formatExp (dp - 1)) (dp - 1) hc (by simp) e2 e3 e1
      simpa using this
    · refine ⟨digitsVal (c :: cs), dp - 1 - cs.length, ?_, Or.inl ⟨rfl, by simp only [List.length_cons]; push_cast; omega⟩⟩
      have := parseUnsigned_point [c] cs (formatExp (dp - 1)) (dp - 1) hc (fun d h => hd d (by simp [h])) (by simp) e2 e1
      have hlen : 0 < cs.length := List.length_pos_iff.2 hl
      simpa [hlen] using this
  · split
    · -- 0.000ds
      have hz : ∀ d ∈ List.replicate (-dp).toNat (48 : Byte) ++ ds, IsDigit d := by
        intro d h
        rcases List.mem_append.1 h with h | h
        · rw [List.eq_of_mem_replicate h]; decide
        · exact hd d h
      have := parseUnsigned_point b!"0" (List.replicate (-dp).toNat 48 ++ ds) [] 0 (by intro d h; simp only [List.mem_singleton] at h; subst h; decide) hz
        (by simp) (by intro c hc; simp at hc) rfl
      refine ⟨_, _, by simpa using this, Or.inl ⟨?_, ?_⟩⟩
      · rw [show (48 : Byte) :: (List.replicate (-dp).toNat 48 ++ ds) = List.replicate ((-dp).toNat + 1) 48 ++ ds by rfl, digitsVal_append, digitsVal_zeros]
        simp
      · omega
    · split
      · -- an integer
        rename_i h1 h2 h3
        have hz : ∀ d ∈ ds ++ List.replicate (dp.toNat - ds.length) (48 : Byte), IsDigit d := by
          intro d h
          rcases List.mem_append.1 h with h | h
          · exact hd d h
          · rw [List.eq_of_mem_replicate h]; decide
        have := parseUnsigned_whole (ds ++ List.replicate (dp.toNat - ds.length) 48) [] 0 hz (by simp [hne]) (by intro c hc; simp at hc) (by simp) rfl
        rw [List.append_nil] at this
        refine ⟨_, _, this, Or.inr ⟨rfl, by omega, ?_⟩⟩
        rw [digitsVal_append, digitsVal_zeros, List.length_replicate, Nat.add_zero]
        congr 2; omega
      · -- with a point
        rename_i h1 h2 h3
        have := parseUnsigned_point (ds.take dp.toNat) (ds.drop dp.toNat) [] 0 (fun d h => hd d (List.mem_of_mem_take h))
          (fun d h => hd d (List.mem_of_mem_drop h)) (by rw [List.take_append_drop]; exact hne) (by intro c hc; simp at hc) rfl
        rw [List.append_nil, List.take_append_drop] at this
        refine ⟨_, _, this, Or.inl ⟨rfl, ?_⟩⟩
        rw [List.length_drop]
        omega

theorem formatDigits_head (ds : Bytes) (hd : ∀ c ∈ ds, IsDigit c) (hne : ds ≠ []) (dp : Int) : ∃ c rest, formatDigits ds dp = c :: rest ∧ IsDigit c := by
  obtain ⟨c, cs, rfl⟩ := List.exists_cons_of_ne_nil hne
  have hc := hd c (by simp)
  unfold formatDigits
  split
  · exact ⟨c, _, rfl, hc⟩
  · split
    · exact ⟨48, _, rfl, by decide⟩
    · split
      · exact ⟨c, _, rfl, hc⟩
      · rename_i h1 h2 h3
        obtain ⟨t, ht⟩ : ∃ t, dp.toNat = t + 1 := ⟨dp.toNat - 1, by omega⟩
        rw [ht]
        exact ⟨c, _, rfl, hc⟩

theorem splitSign_digit {c : Byte} {rest : Bytes} (h : IsDigit c) : splitSign (c :: rest) = (false, c :: rest) := by
  unfold splitSign
  split
  · rename_i e
    injection e with e1 _
    subst e1; exact absurd h (by decide)
  · rename_i e
    injection e with e1 _
    subst e1; exact absurd h (by decide)
  · rfl

theorem parseDecimal_signed (s : Bool) (t : Bytes) (n : Nat) (e : Int) (c : Byte) (rest : Bytes) (ht : t = c :: rest) (hc : IsDigit c)
    (h : parseUnsigned t = some (n, e)) : parseDecimal ((if s then b!"-" else []) ++ t) = some (s, n, e) := by
  unfold parseDecimal
  cases s
  · have : splitSign ((if false = true then b!"-" else []) ++ t) = (false, t) := by
      rw [ht]; exact splitSign_digit hc
    rw [this]
    simp only [h]; rfl
  · have : splitSign ((if true = true then b!"-" else []) ++ t) = (true, t) := rfl
    rw [this]
    simp only [h]; rfl

/-- The digits printed, without trailing zeros, and the place of the point. -/
theorem printed (k : Nat) (hk : 0 < k) :
    ∃ d j z, shortestDigits k = (d, j) ∧ nearest (d * 10 ^ j * oneN) tenN = k ∧
      natDigits d = stripZeros (natDigits d) ++ List.replicate z 48 ∧ stripZeros (natDigits d) ≠ [] ∧
      (∀ c ∈ stripZeros (natDigits d), IsDigit c) ∧ d = digitsVal (stripZeros (natDigits d)) * 10 ^ z ∧
      (natDigits d).length = (stripZeros (natDigits d)).length + z := by
  obtain ⟨n, d, j, _, h2, h3⟩ := shortest_found hk
  obtain ⟨h4, _⟩ := digitsOf_reads h2
  obtain ⟨z, hz⟩ := strip_spec (natDigits d)
  have hd : 0 < d := by
    rcases Nat.eq_zero_or_pos d with h | h
    · subst h
      rw [Nat.zero_mul, Nat.zero_mul, nearest_zero _ tenN_pos] at h4
      omega
    · exact h
  have hval : d = digitsVal (stripZeros (natDigits d)) * 10 ^ z := by
    conv => lhs; rw [← digitsVal_natDigits d, hz]
    rw [digitsVal_append, digitsVal_zeros, List.length_replicate, Nat.add_zero]
  refine ⟨d, j, z, h3, h4, hz, ?_, ?_, hval, ?_⟩
  · intro h
    rw [h] at hval
    simp [digitsVal] at hval
    omega
  · intro c hc
    refine natDigits_digits d c ?_
    rw [hz]
    exact List.mem_append_left _ hc
  · conv => lhs; rw [hz]
    simp

theorem round_eq (s : Bool) (a b : Nat) (k : Fin infBits) (h : nearest a b = k.val) : F64.round s a b = .fin s k := by
  unfold F64.round
  have h2 : nearest a b < infBits := h ▸ k.isLt
  rw [dif_pos h2]
  exact congrArg (F64.fin s) (Fin.ext h)

theorem ofDecimal_zero (s : Bool) (k : Fin infBits) (hk : k.val = 0) : F64.ofDecimal s 0 0 = .fin s k := by
  unfold F64.ofDecimal
  rw [if_pos (by decide)]
  refine round_eq s _ _ k ?_
  rw [Nat.zero_mul, Nat.zero_mul, nearest_zero 1 (by decide), hk]

/-- Reading what is printed gives the same number. -/
theorem print_parse (other : Bytes → Option F64) (s : Bool) (k : Fin infBits) :
    parseFloat other (printFloat (.fin s k)) = some (.fin s k) := by
  have key : ∃ n e, parseDecimal (printFloat (.fin s k)) = some (s, n, e) ∧ F64.ofDecimal s n e = .fin s k := by
    by_cases hk : k.val = 0
    · refine ⟨0, 0, ?_, ?_⟩
      · have hp : printMag k.val = b!"0" := if_pos hk
        show parseDecimal ((if s then b!"-" else []) ++ printMag k.val) = _
        rw [hp]
        refine parseDecimal_signed s b!"0" 0 0 48 [] rfl (by decide) ?_
        exact parseUnsigned_whole b!"0" [] 0 (by intro d h; simp only [List.mem_singleton] at h; subst h; decide) (by simp) (by intro c hc; simp at hc) (by simp) rfl
      · exact ofDecimal_zero s k hk
    · obtain ⟨d, j, z, h1, h2, h3, h4, h5, h6, h7⟩ := printed k (by omega)
      obtain ⟨n, e, p1, p2⟩ := formatDigits_parses (stripZeros (natDigits d)) h5 h4 ((natDigits d).length + j - 400)
      obtain ⟨c, rest, q1, q2⟩ := formatDigits_head (stripZeros (natDigits d)) h5 h4 ((natDigits d).length + j - 400)
      refine ⟨n, e, ?_, ?_⟩
      · have hp : printMag k.val = _ := if_neg hk
        show parseDecimal ((if s then b!"-" else []) ++ printMag k.val) = _
        rw [hp, h1]
        exact parseDecimal_signed s _ n e c rest q1 q2 p1
      · have hsame : SameDecimal n e d j := by
          rcases p2 with ⟨r1, r2⟩ | ⟨r1, r2, r3⟩
          · constructor
            · intro he
              have hj : (j : Int) + z = e + 400 := by rw [r2]; omega
              have hj2 : 10 ^ z * 10 ^ j = 10 ^ e.toNat * tenN := by rw [← Nat.pow_add]; exact tenN_pow _ _ (by omega)
              rw [h6, r1, Nat.mul_assoc, Nat.mul_assoc, hj2]
            · intro he
              have hj : (j : Int) + z = e + 400 := by rw [r2]; omega
              have hj2 : 10 ^ z * 10 ^ j * 10 ^ (-e).toNat = tenN := by rw [← Nat.pow_add, ← Nat.pow_add]; exact tenN_pow_zero _ (by omega)
              rw [h6, r1, Nat.mul_assoc, Nat.mul_assoc, ← Nat.mul_assoc (10 ^ z), hj2]
          · constructor
            · intro he
              subst r1
              have hj2 : 10 ^ z * 10 ^ j = 10 ^ ((natDigits d).length + (j : Int) - 400 - (stripZeros (natDigits d)).length).toNat * tenN := by
                rw [← Nat.pow_add]; exact tenN_pow _ _ (by omega)
              rw [r3]
              conv => rhs; rw [h6]
              simp only [Int.toNat_zero, Nat.pow_zero, Nat.mul_one]
              rw [Nat.mul_assoc, Nat.mul_assoc, hj2]
            · intro he; omega
        rw [ofDecimal_same s hsame]
        exact round_eq s _ _ k h2
  obtain ⟨n, e, h1, h2⟩ := key
  unfold parseFloat
  rw [h1]
  simp only [h2]

end Spout
