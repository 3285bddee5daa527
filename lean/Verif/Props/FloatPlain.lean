import Verif.Props.ArchiveChain
import Verif.Model.Float64

/-! # Float64s are printed without commas, backslashes, newlines and quotes (for C117) -/

namespace Spout.Delivery
open Spout Spout.Spec

attribute [local irreducible] oneN infBits tenN

/-- The characters of floats. -/
def FloatChar (b : Byte) : Prop := b ≠ COMMA ∧ b ≠ BS ∧ b ≠ NL ∧ b ≠ DQ ∧ b ≠ 105

theorem floatChar_digits {ds : Bytes} (h : ∀ b ∈ ds, IsDigit b) : ∀ b ∈ ds, FloatChar b := by
  intro b hb
  have := h b hb
  refine ⟨?_, ?_, ?_, ?_, ?_⟩ <;> (rintro rfl; revert this; decide)

theorem floatChar_append {a b : Bytes} (ha : ∀ c ∈ a, FloatChar c) (hb : ∀ c ∈ b, FloatChar c) : ∀ c ∈ a ++ b, FloatChar c := by
  intro c hc
  rcases List.mem_append.1 hc with h | h
  · exact ha c h
  · exact hb c h

theorem floatChar_const (l : Bytes) (h : COMMA ∉ l ∧ BS ∉ l ∧ NL ∉ l ∧ DQ ∉ l ∧ (105 : Byte) ∉ l) : ∀ c ∈ l, FloatChar c := by
  intro c hc
  refine ⟨?_, ?_, ?_, ?_, ?_⟩ <;> rintro rfl
  · exact h.1 hc
  · exact h.2.1 hc
  · exact h.2.2.1 hc
  · exact h.2.2.2.1 hc
  · exact h.2.2.2.2 hc

theorem formatDigits_plain {ds : Bytes} (h : ∀ b ∈ ds, FloatChar b) (dp : Int) : formatDigits ds dp ≠ [] ∧ ∀ b ∈ formatDigits ds dp, FloatChar b := by
  have ht : ∀ n, ∀ b ∈ ds.take n, FloatChar b := fun n b hb => h b (List.mem_of_mem_take hb)
  have hd : ∀ n, ∀ b ∈ ds.drop n, FloatChar b := fun n b hb => h b (List.mem_of_mem_drop hb)
  have hz : ∀ n : Nat, ∀ b ∈ List.replicate n (48 : Byte), FloatChar b := by
    intro n b hb
    rw [(List.mem_replicate.1 hb).2]
    exact ⟨by decide, by decide, by decide, by decide, by decide⟩
  have hp : FloatChar 46 := ⟨by decide, by decide, by decide, by decide, by decide⟩
  have hc : ∀ n, ∀ b ∈ (46 : Byte) :: ds.drop n, FloatChar b := by
    intro n b hb
    rcases List.mem_cons.1 hb with rfl | hb
    · exact hp
    · exact hd n b hb
  unfold formatDigits
  split
  · constructor
    · unfold formatExp
      intro hn
      have := List.append_eq_nil_iff.1 hn
      have := (List.append_eq_nil_iff.1 this.2).2
      exact natDigits_ne_nil _ this
    · refine floatChar_append (floatChar_append (ht 1) ?_) ?_
      · split
        · exact hc 1
        · exact fun c hc => by cases hc
      · unfold formatExp
        refine floatChar_append (floatChar_append ?_ ?_) (floatChar_digits (natDigits_digits _))
        · split <;> exact floatChar_const _ (by decide)
        · split <;> exact floatChar_const _ (by decide)
  · split
    · exact ⟨by simp, floatChar_append (floatChar_append (floatChar_const _ (by decide)) (hz _)) h⟩
    · split
      · refine ⟨?_, floatChar_append h (hz _)⟩
        intro hn
        obtain ⟨h1, h2⟩ := List.append_eq_nil_iff.1 hn
        have h2 := List.replicate_eq_nil_iff (n := dp.toNat - ds.length) (48 : Byte) |>.1 h2
        rw [h1] at h2
        simp only [List.length_nil] at h2
        omega
      · exact ⟨by simp, floatChar_append (ht _) (hc _)⟩

theorem printMag_plain (k : Nat) : printMag k ≠ [] ∧ ∀ b ∈ printMag k, FloatChar b := by
  unfold printMag
  split
  · exact ⟨by decide, floatChar_const _ (by decide)⟩
  · refine formatDigits_plain ?_ _
    intro b hb
    refine floatChar_digits (natDigits_digits (shortestDigits k).1) b ?_
    unfold stripZeros at hb
    exact List.mem_reverse.1 ((List.dropWhile_sublist _).subset (List.mem_reverse.1 hb))

theorem printFloat_chars (x : F64) : printFloat x ≠ [] ∧ ∀ b ∈ printFloat x, FloatChar b := by
  cases x with
  | nan => exact ⟨by decide, floatChar_const _ (by decide)⟩
  | inf neg => cases neg <;> exact ⟨by decide, floatChar_const _ (by decide)⟩
  | fin neg k =>
    unfold printFloat
    refine ⟨fun h => (printMag_plain _).1 (List.append_eq_nil_iff.1 h).2, floatChar_append ?_ (printMag_plain _).2⟩
    cases neg <;> exact floatChar_const _ (by decide)

/-- **C117 (floats can be read again).** The floats of the code are printed without commas, backslashes, newlines and quotes. -/
theorem C117_binary64_plain (other : Bytes → Option F64) : PlainFloats (binary64 other) := by
  intro x
  obtain ⟨h1, h2⟩ := printFloat_chars x
  refine ⟨h1, fun h => (h2 _ h).1 rfl, fun h => (h2 _ h).2.1 rfl, fun h => (h2 _ h).2.2.1 rfl, fun h => (h2 DQ (List.mem_of_head? h)).2.2.2.1 rfl⟩

/-- So are those of the examples. -/
theorem wholeFloats_plain : PlainFloats wholeFloats := by
  intro x
  have hne : ∀ x : Int, itoa x ≠ [] := by
    intro x
    unfold itoa
    split
    · simp
    · exact natDigits_ne_nil _
  exact ⟨hne _, itoa_no' _ _ (by decide) (by decide), itoa_no' _ _ (by decide) (by decide), itoa_no' _ _ (by decide) (by decide),
    fun h => itoa_no' _ DQ (by decide) (by decide) (List.mem_of_head? h)⟩

end Spout.Delivery
