import Verif.Model.Influx
import Verif.Props.Convert
import Verif.Spec.Line

namespace Spout
open Spec

theorem dropTrailingNL_eq (line : Bytes) (h : line ≠ []) : dropTrailingNL line = .ok (stripNL line) := by
  have hl : 0 < line.length := List.length_pos_iff.2 h
  unfold dropTrailingNL stripNL
  rw [idx_ok (by omega), Go.ok_bind, List.getLast?_eq_some_getLast h]
  have : line[line.length - 1] = line.getLast h := by rw [List.getLast_eq_getElem]
  rw [this]
  by_cases hc : line.getLast h = NL
  · simp only [hc, if_true]
    rw [sliceTo_ok (by omega), List.dropLast_eq_take]
  · simp [hc]

theorem stripNL_length (line : Bytes) : line.length - 1 ≤ (stripNL line).length := by
  unfold stripNL; split <;> simp

theorem decimal_no_space {ts : Bytes} {v : Int} (h : Decimal ts v) : SP ∉ ts := by
  obtain ⟨ds, h0, hd, ⟨rfl, -⟩ | ⟨rfl, -⟩⟩ := h
  · intro hm; exact absurd (hd _ hm) (by decide)
  · intro hm
    rw [List.mem_cons] at hm
    rcases hm with hm | hm
    · exact absurd hm (by decide)
    · exact absurd (hd _ hm) (by decide)

theorem decimal_unique {s : Bytes} {v w : Int} (h : Decimal s v) (h2 : Decimal s w) : v = w := by
  obtain ⟨ds, h0, hd, ⟨rfl, rfl⟩ | ⟨rfl, rfl⟩⟩ := h
  · obtain ⟨es, e0, he, ⟨rfl, rfl⟩ | ⟨rfl, rfl⟩⟩ := h2
    · rfl
    · exact absurd (hd MINUS (by simp)) (by decide)
  · obtain ⟨es, e0, he, ⟨rfl, rfl⟩ | ⟨h3, rfl⟩⟩ := h2
    · exact absurd (he MINUS (by simp)) (by decide)
    · injection h3 with _ h3; rw [h3]

theorem tsAt_eq (pre ts : Bytes) :
    tsAt (pre ++ SP :: ts) pre.length =
      match toInt ts with
      | .error _ => .ok (-1, -1)
      | .ok out => .ok (out, (pre.length : Int) + 1) := by
  unfold tsAt
  rw [sliceFrom_ok (by simp), List.drop_append, List.drop_eq_nil_of_le (by omega)]
  have : pre.length + 1 - pre.length = 1 := by omega
  simp only [this, Go.ok_bind, List.nil_append, List.drop_succ_cons, List.drop_zero]
  cases toInt ts <;> rfl

theorem extractBack_found (l : Bytes) (to : Nat) (pre ts : Bytes) (hl : l = pre ++ SP :: ts)
    (hns : SP ∉ ts) (hto : to ≤ pre.length) (k : Nat) (hk : pre.length < k) (hk2 : k ≤ l.length) :
    extractBack l to k = tsAt l pre.length := by
  induction k with
  | zero => omega
  | succ i ih =>
    rw [extractBack, if_pos (by omega), idx_ok (by omega), Go.ok_bind]
    by_cases hi : i = pre.length
    · subst hi
      rw [if_pos]
      simp [hl]
    · rw [if_neg, ih (by omega) (by omega)]
      intro he
      apply hns
      have h2 : l[i]? = some SP := by rw [List.getElem?_eq_getElem (by omega), he]
      rw [hl, List.getElem?_append_right (by omega)] at h2
      obtain ⟨j, hj⟩ : ∃ j, i - pre.length = j + 1 := ⟨i - pre.length - 1, by omega⟩
      rw [hj, List.getElem?_cons_succ] at h2
      exact List.mem_of_getElem? h2

theorem extractBack_none (l : Bytes) (to k : Nat) (hk2 : k ≤ l.length)
    (h : ∀ i, to ≤ i → i < k → l[i]? ≠ some SP) : extractBack l to k = .ok (-1, -1) := by
  induction k with
  | zero => rfl
  | succ i ih =>
    rw [extractBack]
    split
    · rename_i hi
      rw [idx_ok (by omega), Go.ok_bind, if_neg]
      · exact ih (by omega) fun j h1 h2 => h j h1 (by omega)
      · intro he
        exact h i hi (by omega) (by rw [List.getElem?_eq_getElem (by omega), he])
    · rfl

/-- Last occurrence of a byte. -/
theorem last_split (b : Byte) (l : Bytes) (h : b ∈ l) : ∃ pre post, l = pre ++ b :: post ∧ b ∉ post := by
  induction l with
  | nil => simp at h
  | cons c cs ih =>
    by_cases hc : b ∈ cs
    · obtain ⟨pre, post, rfl, h2⟩ := ih hc
      exact ⟨c :: pre, post, rfl, h2⟩
    · simp only [List.mem_cons, hc, or_false] at h
      subst h
      exact ⟨[], cs, rfl, hc⟩

theorem extractTimestamp_some {line : Bytes} {v off : Int} (h : HasTs line v off) :
    extractTimestamp line = .ok (v, off) := by
  obtain ⟨h6, pre, ts, hb, hlen, hd, hv, rfl⟩ := h
  unfold extractTimestamp
  rw [if_neg (by omega), dropTrailingNL_eq _ (by intro h; simp [h] at h6), Go.ok_bind]
  have hL : (stripNL line).length = pre.length + 1 + ts.length := by rw [hb]; simp; omega
  rw [extractBack_found (stripNL line) _ pre ts hb (decimal_no_space hd)
    (by rw [hL]; unfold maxTsLen; omega) _ (by omega) (Nat.le_refl _), hb, tsAt_eq]
  rw [(C04_toInt_exact_partial ts v (Or.inl hlen)).2 ⟨hd, hv⟩]

theorem extractTimestamp_none {line : Bytes} (h : ∀ v off, ¬ HasTs line v off) :
    extractTimestamp line = .ok (-1, -1) := by
  unfold extractTimestamp
  split
  · rfl
  · rename_i h6
    rw [dropTrailingNL_eq _ (by intro h; simp [h] at h6), Go.ok_bind]
    by_cases hs : SP ∈ stripNL line
    · obtain ⟨pre, ts, hb, hns⟩ := last_split _ _ hs
      have hL : (stripNL line).length = pre.length + 1 + ts.length := by rw [hb]; simp; omega
      by_cases hlen : ts.length ≤ 19
      · rw [extractBack_found (stripNL line) _ pre ts hb hns
          (by rw [hL]; unfold maxTsLen; omega) _ (by omega) (Nat.le_refl _), hb, tsAt_eq]
        cases ht : toInt ts with
        | error e => rfl
        | ok v =>
          obtain ⟨h1, h2⟩ := (C04_toInt_exact_partial ts v (Or.inl hlen)).1 ht
          exact absurd ⟨by omega, pre, ts, hb, hlen, h1, h2, rfl⟩ (h v (pre.length + 1))
      · apply extractBack_none _ _ _ (Nat.le_refl _)
        intro i hi hi2 he
        apply hns
        rw [hL] at hi; unfold maxTsLen at hi
        rw [hb, List.getElem?_append_right (by omega)] at he
        obtain ⟨j, hj⟩ : ∃ j, i - pre.length = j + 1 := ⟨i - pre.length - 1, by omega⟩
        rw [hj, List.getElem?_cons_succ] at he
        exact List.mem_of_getElem? he
    · apply extractBack_none _ _ _ (Nat.le_refl _)
      intro i _ _ he
      exact hs (List.mem_of_getElem? he)

/-! ## ExtractNanos -/

theorem extractFwd_found (l pre ts : Bytes) (hl : l = pre ++ SP :: ts) (fuel i : Nat)
    (hf : l.length - i < fuel) (hi : i ≤ pre.length) (hns : SP ∉ pre.drop i) :
    extractFwd l fuel i = tsAt l pre.length := by
  induction fuel generalizing i with
  | zero => omega
  | succ f ih =>
    have hL : l.length = pre.length + 1 + ts.length := by rw [hl]; simp; omega
    rw [extractFwd, if_pos (by omega), idx_ok (by omega), Go.ok_bind]
    by_cases he : i = pre.length
    · subst he; rw [if_pos]; simp [hl]
    · have hlt : i < pre.length := by omega
      have hli : l[i]'(by omega) = pre[i] := by
        simp only [hl]; rw [List.getElem_append_left hlt]
      rw [List.drop_eq_getElem_cons hlt, List.mem_cons, not_or] at hns
      rw [if_neg, ih (i + 1) (by omega) (by omega) hns.2]
      rw [hli]; exact fun h => hns.1 h.symm

theorem extractFwd_none (l : Bytes) (fuel i : Nat) (hf : l.length - i < fuel)
    (hns : SP ∉ l.drop i) : extractFwd l fuel i = .ok (-1, -1) := by
  induction fuel generalizing i with
  | zero => omega
  | succ f ih =>
    rw [extractFwd]
    split
    · rename_i hi
      rw [List.drop_eq_getElem_cons hi, List.mem_cons, not_or] at hns
      rw [idx_ok hi, Go.ok_bind, if_neg (fun h => hns.1 h.symm)]
      exact ih (i + 1) (by omega) hns.2
    · rfl

theorem first_split (b : Byte) (l : Bytes) (h : b ∈ l) : ∃ pre post, l = pre ++ b :: post ∧ b ∉ pre := by
  induction l with
  | nil => simp at h
  | cons c cs ih =>
    by_cases hc : b = c
    · subst hc; exact ⟨[], cs, rfl, by simp⟩
    · simp only [List.mem_cons, hc, false_or] at h
      obtain ⟨pre, post, rfl, h2⟩ := ih h
      exact ⟨c :: pre, post, rfl, by simp [hc, h2]⟩

/-- `HasTs` and the only space among the last 20 bytes is the one before the timestamp. -/
theorem extractNanos_some {line pre ts : Bytes} {v : Int} (h6 : 6 ≤ line.length)
    (hb : stripNL line = pre ++ SP :: ts) (hlen : ts.length ≤ 19) (hd : Decimal ts v)
    (hv : InInt64 v) (hns : SP ∉ pre.drop (pre.length + ts.length - 19)) :
    extractNanos line = .ok (v, (pre.length : Int) + 1) := by
  unfold extractNanos
  rw [if_neg (by omega), dropTrailingNL_eq _ (by intro h; simp [h] at h6), Go.ok_bind]
  have hL : (stripNL line).length = pre.length + 1 + ts.length := by rw [hb]; simp; omega
  have hfrom : (stripNL line).length - maxTsLen - 1 = pre.length + ts.length - 19 := by
    rw [hL]; unfold maxTsLen; omega
  rw [hfrom, extractFwd_found (stripNL line) pre ts hb _ _ (by omega) (by omega) hns, hb, tsAt_eq]
  rw [(C04_toInt_exact_partial ts v (Or.inl hlen)).2 ⟨hd, hv⟩]

theorem extractNanos_none {line : Bytes} (h : ¬ ∃ pre ts v, 6 ≤ line.length ∧
      stripNL line = pre ++ SP :: ts ∧ ts.length ≤ 19 ∧ Decimal ts v ∧ InInt64 v ∧
      SP ∉ pre.drop (pre.length + ts.length - 19)) :
    extractNanos line = .ok (-1, -1) := by
  unfold extractNanos
  split
  · rfl
  · rename_i h6
    rw [dropTrailingNL_eq _ (by intro h; simp [h] at h6), Go.ok_bind]
    generalize hfr : (stripNL line).length - maxTsLen - 1 = fr
    by_cases hs : SP ∈ (stripNL line).drop fr
    · obtain ⟨p, ts, hsp, hnp⟩ := first_split _ _ hs
      have hle : fr ≤ (stripNL line).length := by omega
      have hb : stripNL line = ((stripNL line).take fr ++ p) ++ SP :: ts := by
        rw [List.append_assoc, ← hsp, List.take_append_drop]
      have htl : ((stripNL line).take fr).length = fr := by rw [List.length_take]; omega
      have hL := congrArg List.length hb
      simp only [List.length_append, List.length_cons, htl] at hL
      have hpd : (((stripNL line).take fr) ++ p).drop fr = p := by
        rw [List.drop_append, htl, List.drop_eq_nil_of_le (by omega), Nat.sub_self]; simp
      have hts : ts.length ≤ 19 := by unfold maxTsLen at hfr; omega
      rw [extractFwd_found (stripNL line) _ ts hb _ fr (by omega) (by simp [htl]) (by rw [hpd]; exact hnp)]
      have htsAt := tsAt_eq ((stripNL line).take fr ++ p) ts
      rw [← hb] at htsAt
      rw [htsAt]
      cases ht : toInt ts with
      | error e => rfl
      | ok v =>
        obtain ⟨h1, h2⟩ := (C04_toInt_exact_partial ts v (Or.inl hts)).1 ht
        refine absurd ⟨_, ts, v, by omega, hb, hts, h1, h2, ?_⟩ h
        have : (((stripNL line).take fr) ++ p).length + ts.length - 19 = fr ∨
            ((((stripNL line).take fr) ++ p).length + ts.length - 19 = 0 ∧ fr = 0) := by
          simp only [List.length_append, htl]; unfold maxTsLen at hfr; omega
        have he : (((stripNL line).take fr) ++ p).length + ts.length - 19 = fr := by omega
        rw [he, hpd]; exact hnp
    · exact extractFwd_none _ _ _ (by omega) hs

/-! ## SafeCalcTime -/

theorem tdiv_mul_ne (a b c : Int) (hb : 1 < b) (hb2 : b < 18446744073709551616)
    (hc : c = wrap64 (a * b)) (hne : c ≠ a * b) : c.tdiv b ≠ a := by
  intro h
  have hd : ∃ k : Int, c - a * b = k * 18446744073709551616 := by
    refine ⟨-((a * b + 9223372036854775808) / 18446744073709551616), ?_⟩
    rw [hc]; unfold wrap64
    have := Int.mul_ediv_add_emod (a * b + 9223372036854775808) 18446744073709551616
    omega
  obtain ⟨k, hk⟩ := hd
  have hk0 : k ≠ 0 := by intro h0; subst h0; simp at hk; omega
  have hm := Int.mul_tdiv_add_tmod c b
  rw [h] at hm
  have hr : c.tmod b < b := Int.tmod_lt_of_pos c (by omega)
  have hr2 : -b < c.tmod b := by
    have := Int.tmod_lt_of_pos (-c) (show (0:Int) < b by omega)
    rw [Int.neg_tmod] at this; omega
  rw [Int.mul_comm a b] at hk
  omega

theorem precisionMultiplier_range (p : Bytes) :
    precisionMultiplier p = 1 ∨ (1000 ≤ precisionMultiplier p ∧ precisionMultiplier p ≤ 3600000000000) := by
  unfold precisionMultiplier
  repeat' split
  all_goals omega

theorem safeCalcTime_eq (ts : Int) (p : Bytes) (hts : InInt64 ts) :
    safeCalcTime ts p =
      if minNanoTime ≤ ts * precisionMultiplier p ∧ ts * precisionMultiplier p ≤ maxNanoTime
      then some (ts * precisionMultiplier p) else none := by
  have hb := precisionMultiplier_range p
  unfold safeCalcTime safeSignedMult
  generalize precisionMultiplier p = b at hb
  unfold InInt64 at hts
  unfold minNanoTime maxNanoTime
  by_cases h1 : ts = 0 ∨ b = 0 ∨ ts = 1 ∨ b = 1
  · have hw : wrap64 (ts * b) = ts * b := by
      apply wrap64_of_inInt64
      unfold InInt64
      rcases h1 with h | h | h | h
      · subst h; simp
      · omega
      · subst h; simp; omega
      · subst h; simp; omega
    simp only [if_pos h1, hw, if_true]
    by_cases h : -9223372036854775806 ≤ ts * b ∧ ts * b ≤ 9223372036854775806
    · rw [if_pos h, if_neg (by omega)]
    · rw [if_neg h, if_pos (by omega)]
  · have hb' : 1000 ≤ b := by omega
    simp only [if_neg h1]
    by_cases h2 : ts = -9223372036854775806 ∨ b = 9223372036854775806
    · rw [if_pos h2]
      have : ts = -9223372036854775806 := by omega
      subst this
      simp only [Bool.false_eq_true, if_false]
      rw [if_neg]
      omega
    · rw [if_neg h2]
      simp only [beq_iff_eq]
      by_cases h3 : wrap64 (ts * b) = ts * b
      · rw [h3]
        have : (ts * b).tdiv b = ts := Int.mul_tdiv_cancel _ (by omega)
        rw [if_pos this]
        by_cases h : -9223372036854775806 ≤ ts * b ∧ ts * b ≤ 9223372036854775806
        · rw [if_pos h, if_neg (by omega)]
        · rw [if_neg h, if_pos (by omega)]
      · rw [if_neg (tdiv_mul_ne ts b _ (by omega) (by omega) rfl h3), if_neg]
        intro h
        apply h3
        apply wrap64_of_inInt64
        unfold InInt64; omega

end Spout
