import Verif.Model.Benchcheck
import Verif.Lemmas.Convert

/-! # Properties of the performance check (C94) -/

namespace Spout.Bench
open Spout.Spec

/-- A comparison as benchstat reports it: no significant change, or a change by `n` hundredths of a
percent. -/
inductive Shows : Bytes → Option Int → Prop where
  | same : Shows b!"~" none
  | change {s : Bytes} {n : Int} (h : Hundredths s n) (hn : n.natAbs ≤ 10 ^ 13) : Shows (s ++ b!"%") (some n)

theorem trimPercent_two {s : Bytes} {n : Int} (h : Hundredths s n) : trimPercent (s ++ b!"%") = s := by
  have key : ∀ (t : Bytes) (b : Byte), IsDigit b → trimPercent (t ++ [b] ++ b!"%") = t ++ [b] := by
    intro t b hb
    have hb' : (b == 37) = false := by
      rw [beq_eq_false_iff_ne]; rintro rfl; revert hb; decide
    unfold trimPercent
    rw [show (b!"%" : Bytes) = [37] from rfl]
    simp only [List.reverse_append, List.reverse_singleton, List.singleton_append]
    rw [List.dropWhile_cons]
    simp only [beq_self_eq_true, if_true]
    rw [List.dropWhile_cons, hb']
    simp
  obtain ⟨w, a, b, -, hd, ⟨rfl, -⟩ | ⟨rfl, -⟩⟩ := h
  · have := key (b!"+" ++ w ++ b!"." ++ [a]) b (hd b (by simp))
    simpa [List.append_assoc] using this
  · have := key (b!"-" ++ w ++ b!"." ++ [a]) b (hd b (by simp))
    simpa [List.append_assoc] using this

theorem hundredths_ne_tilde {s : Bytes} {n : Int} (h : Hundredths s n) : s ++ b!"%" ≠ b!"~" := by
  obtain ⟨w, a, b, -, -, ⟨rfl, -⟩ | ⟨rfl, -⟩⟩ := h <;> intro e <;>
    · have := congrArg List.length e
      simp at this

theorem rowsProblem_shows (fl : Floats) (max : Int) (hm : max.natAbs ≤ 10 ^ 13) (rows : List Bytes)
    (h : ∀ r ∈ rows, ∃ d, Shows r d) :
    rowsProblem fl (fl.val max) rows = none ∧ (∀ r ∈ rows, ∀ n, Shows r (some n) → n ≤ max) ∨
    rowsProblem fl (fl.val max) rows = some (.ok true) ∧ (∃ r ∈ rows, ∃ n, Shows r (some n) ∧ max < n) := by
  induction rows with
  | nil => left; exact ⟨rfl, by simp⟩
  | cons r rest ih =>
    obtain ⟨d, hd⟩ := h r (by simp)
    have ih := ih fun x hx => h x (by simp [hx])
    cases hd with
    | same =>
      have e : rowsProblem fl (fl.val max) (b!"~" :: rest) = rowsProblem fl (fl.val max) rest := by
        rw [rowsProblem, if_pos rfl]
      rw [e]
      rcases ih with ⟨h1, h2⟩ | ⟨h1, x, hx, hn⟩
      · refine Or.inl ⟨h1, fun x hx n hs => ?_⟩
        rcases List.mem_cons.1 hx with rfl | hx
        · generalize hy : (b!"~" : Bytes) = y at hs
          cases hs with
          | change hh _ => exact absurd hy.symm (hundredths_ne_tilde hh)
        · exact h2 x hx n hs
      · exact Or.inr ⟨h1, x, by simp [hx], hn⟩
    | @change s n hh hn =>
      have e : rowsProblem fl (fl.val max) ((s ++ b!"%") :: rest) =
          if fl.gt (fl.val n) (fl.val max) then some (.ok true) else rowsProblem fl (fl.val max) rest := by
        rw [rowsProblem, if_neg (hundredths_ne_tilde hh), trimPercent_two hh, fl.parse_val s n hh hn]
      rw [e]
      by_cases hg : fl.gt (fl.val n) (fl.val max) = true
      · rw [if_pos hg]
        exact Or.inr ⟨rfl, _, by simp, n, .change hh hn, (fl.gt_val n max hn hm).1 hg⟩
      · rw [if_neg hg]
        have hle : n ≤ max := by
          rw [fl.gt_val n max hn hm] at hg; omega
        rcases ih with ⟨h1, h2⟩ | ⟨h1, x, hx, hn'⟩
        · refine Or.inl ⟨h1, fun x hx m hs => ?_⟩
          rcases List.mem_cons.1 hx with rfl | hx
          · generalize hy : s ++ b!"%" = y at hs
            cases hs with
            | @change s' m hh' hm' =>
              have hs : s = s' := by
                have := congrArg trimPercent hy
                rwa [trimPercent_two hh, trimPercent_two hh'] at this
              subst hs
              -- the same text shows the same number
              have hgt := fl.gt_val m max hm' hm
              have e1 := fl.parse_val s n hh hn
              rw [fl.parse_val s m hh' hm'] at e1
              injection e1 with e1
              rw [e1] at hgt
              by_cases hlt : max < m
              · exact absurd (hgt.2 hlt) hg
              · omega
          · exact h2 x hx m hs
        · exact Or.inr ⟨h1, x, by simp [hx], hn'⟩

/-- **C94 (the part that holds).** With a limit of `max` hundredths of a percent, benchcheck fails exactly if
the comparison shows a benchmark that got slower by more than the limit (rounded to hundredths of a percent, as shown). -/
theorem C94_regressions_found_partial (fl : Floats) (max : Int) (hm : max.natAbs ≤ 10 ^ 13) (tables : List (List Bytes))
    (h : ∀ t ∈ tables, ∀ r ∈ t, ∃ d, Shows r d) :
    (exitStatus fl (fl.val max) tables = 1 ↔ ∃ t ∈ tables, ∃ r ∈ t, ∃ n, Shows r (some n) ∧ max < n) ∧
    (exitStatus fl (fl.val max) tables = 0 ↔ ∀ t ∈ tables, ∀ r ∈ t, ∀ n, Shows r (some n) → n ≤ max) := by
  have key : findProblems fl (fl.val max) tables = .ok false ∧
        (∀ t ∈ tables, ∀ r ∈ t, ∀ n, Shows r (some n) → n ≤ max) ∨
      findProblems fl (fl.val max) tables = .ok true ∧
        (∃ t ∈ tables, ∃ r ∈ t, ∃ n, Shows r (some n) ∧ max < n) := by
    induction tables with
    | nil => left; exact ⟨rfl, by simp⟩
    | cons t ts ih =>
      rw [findProblems]
      rcases rowsProblem_shows fl max hm t (h t (by simp)) with ⟨h1, h2⟩ | ⟨h1, h2⟩
      · rw [h1]
        rcases ih (fun x hx => h x (by simp [hx])) with ⟨h3, h4⟩ | ⟨h3, x, hx, h4⟩
        · refine Or.inl ⟨h3, fun x hx => ?_⟩
          rcases List.mem_cons.1 hx with rfl | hx
          · exact h2
          · exact h4 x hx
        · exact Or.inr ⟨h3, x, by simp [hx], h4⟩
      · rw [h1]
        exact Or.inr ⟨rfl, t, by simp, h2⟩
  unfold exitStatus
  rcases key with ⟨k1, k2⟩ | ⟨k1, t, ht, r, hr, n, hs, hn⟩
  · rw [k1]
    refine ⟨⟨fun e => by simp at e, ?_⟩, fun _ => k2, fun _ => rfl⟩
    rintro ⟨t, ht, r, hr, n, hs, hn⟩
    have := k2 t ht r hr n hs
    omega
  · rw [k1]
    refine ⟨⟨fun _ => ⟨t, ht, r, hr, n, hs, hn⟩, fun _ => rfl⟩, fun e => by simp at e, fun hall => ?_⟩
    have := hall t ht r hr n hs
    omega

/-- **C94 (refuted).** The README promises that a regression by 10% or more is reported.  With the default limit
of 10% one of exactly 10% (as shown, that is from 9.995% to just under 10.005%) is not. -/
theorem C94_ten_percent_not_reported (fl : Floats) : exitStatus fl (fl.val 1000) [[b!"+10.00%"]] = 0 := by
  have hh : Hundredths b!"+10.00" 1000 := ⟨b!"10", 48, 48, by decide, by decide, Or.inl ⟨rfl, rfl⟩⟩
  refine (C94_regressions_found_partial fl 1000 (by decide) _ ?_).2.2 ?_
  · intro t ht r hr
    simp only [List.mem_singleton] at ht; subst ht
    simp only [List.mem_singleton] at hr; subst hr
    exact ⟨_, .change hh (by decide)⟩
  · intro t ht r hr n hs
    simp only [List.mem_singleton] at ht; subst ht
    simp only [List.mem_singleton] at hr; subst hr
    generalize hy : (b!"+10.00%" : Bytes) = y at hs
    cases hs with
    | @change s _ hh' hm' =>
      have es : b!"+10.00" = s := by
        have := congrArg trimPercent hy
        rwa [show (b!"+10.00%" : Bytes) = b!"+10.00" ++ b!"%" from rfl, trimPercent_two hh, trimPercent_two hh'] at this
      subst es
      have e1 := fl.parse_val _ _ hh (by decide)
      rw [fl.parse_val _ _ hh' hm'] at e1
      injection e1 with e1
      have hgt := fl.gt_val n 1000 hm' (by decide)
      have hgt' := fl.gt_val 1000 1000 (by decide) (by decide)
      rw [e1] at hgt
      by_cases hlt : (1000 : Int) < n
      · have := hgt'.1 (hgt.2 hlt); omega
      · omega

/-- **C94 (bad input).** A difference that is not a number makes benchcheck fail, unless a regression was found before. -/
theorem C94_unreadable_fails (fl : Floats) (max : Int) (hm : max.natAbs ≤ 10 ^ 13) (tables later : List (List Bytes))
    (before after : List Bytes) (bad : Bytes) (h : ∀ t ∈ tables, ∀ r ∈ t, ∃ d, Shows r d)
    (hb : ∀ r ∈ before, ∃ d, Shows r d) (hn : bad ≠ b!"~") (hbad : fl.parse (trimPercent bad) = none) :
    exitStatus fl (fl.val max) (tables ++ [before ++ bad :: after] ++ later) = 1 := by
  have hrow : rowsProblem fl (fl.val max) (before ++ bad :: after) = some (.error ()) ∨
      rowsProblem fl (fl.val max) (before ++ bad :: after) = some (.ok true) := by
    induction before with
    | nil => left; rw [List.nil_append, rowsProblem, if_neg hn, hbad]
    | cons r rest ih =>
      have ih := ih fun x hx => hb x (by simp [hx])
      obtain ⟨d, hd⟩ := hb r (by simp)
      rw [List.cons_append]
      cases hd with
      | same => rw [rowsProblem, if_pos rfl]; exact ih
      | @change s n hh hn' =>
        rw [rowsProblem, if_neg (hundredths_ne_tilde hh), trimPercent_two hh, fl.parse_val s n hh hn']
        by_cases hg : fl.gt (fl.val n) (fl.val max) = true
        · right; simp only [hg, if_true]
        · simp only [hg]; exact ih
  have hall : findProblems fl (fl.val max) (tables ++ [before ++ bad :: after] ++ later) = .error () ∨
      findProblems fl (fl.val max) (tables ++ [before ++ bad :: after] ++ later) = .ok true := by
    induction tables with
    | nil =>
      rw [List.nil_append, List.singleton_append, findProblems]
      rcases hrow with e | e <;> rw [e] <;> simp
    | cons t ts ih =>
      rw [List.cons_append, List.cons_append, findProblems]
      rcases rowsProblem_shows fl max hm t (h t (by simp)) with ⟨h1, -⟩ | ⟨h1, -⟩
      · rw [h1]; exact ih fun x hx => h x (by simp [hx])
      · rw [h1]; right; rfl
  unfold exitStatus
  rcases hall with e | e <;> rw [e]

/-! A concrete instance: exact arithmetic in hundredths. -/

/-- Reads a sign, digits and a point. -/
def readHundredths : Bytes → Option Int
  | 43 :: r => some (digitsVal (r.filter (· != 46)))
  | 45 :: r => some (-(digitsVal (r.filter (· != 46)) : Int))
  | _ => none

theorem filter_point (w : Bytes) (a b : Byte) (hd : ∀ d ∈ w ++ [a, b], IsDigit d) :
    (w ++ b!"." ++ [a, b]).filter (· != 46) = w ++ [a, b] := by
  have hk : ∀ l : Bytes, (∀ d ∈ l, IsDigit d) → l.filter (· != 46) = l := by
    intro l hl
    rw [List.filter_eq_self]
    intro d hd
    have := hl d hd
    rw [bne_iff_ne]; rintro rfl; revert this; decide
  rw [List.filter_append, List.filter_append, hk w (fun d h => hd d (by simp [h])),
    hk [a, b] (fun d h => hd d (List.mem_append_right _ h))]
  have : (b!"." : Bytes).filter (· != 46) = [] := by decide
  rw [this, List.append_nil]

def exact : Floats where
  F := Int
  parse := readHundredths
  gt := fun a b => decide (b < a)
  val := id
  parse_val := by
    rintro s n ⟨w, a, b, -, hd, ⟨rfl, rfl⟩ | ⟨rfl, rfl⟩⟩ -
    · show some ((digitsVal ((w ++ b!"." ++ [a, b]).filter (· != 46)) : Nat) : Int) = _
      rw [filter_point w a b hd]; rfl
    · show some (-((digitsVal ((w ++ b!"." ++ [a, b]).filter (· != 46)) : Nat) : Int)) = _
      rw [filter_point w a b hd]; rfl
  gt_val := by intro n m _ _; simp

example : exitStatus exact (1000 : Int) [[b!"~", b!"-3.20%"], [b!"+9.99%", b!"+17.09%"]] = 1 := by decide
example : exitStatus exact (1000 : Int) [[b!"~", b!"-30.20%"], [b!"+9.99%", b!"+10.00%"]] = 0 := by decide
example : exitStatus exact (1000 : Int) [[b!"~", b!"NaN%"]] = 1 := by decide
example : Shows b!"+17.09%" (some 1709) :=
  .change (s := b!"+17.09") ⟨b!"17", 48, 57, by decide, by decide, Or.inl ⟨rfl, rfl⟩⟩ (by decide)

end Spout.Bench
