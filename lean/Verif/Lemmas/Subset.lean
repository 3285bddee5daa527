import Verif.Model.Influx

/-! # Lemmas: `SubsetOf` -/

set_option linter.unusedSimpArgs false

namespace Spout

theorem subsetInner_fst (o : Tag) (st : List (Tag × Bool)) :
    (subsetInner o st).1 = st.map fun p => (p.1, p.2 || p.1 == o) := by
  induction st with
  | nil => rfl
  | cons p ps ih =>
    obtain ⟨tag, found⟩ := p
    have he : (tag == o) = (tag.key == o.key && tag.value == o.value) := by
      rw [Bool.eq_iff_iff]; simp; cases tag; cases o; simp
    simp only [subsetInner, List.map_cons, he, ih]
    cases found <;> cases (tag.key == o.key) <;> cases (tag.value == o.value) <;> simp

theorem subsetInner_count (o : Tag) (st : List (Tag × Bool)) :
    (st.countP (fun p => p.2)) + (subsetInner o st).2 = (subsetInner o st).1.countP (fun p => p.2) := by
  induction st with
  | nil => rfl
  | cons p ps ih =>
    obtain ⟨tag, found⟩ := p
    simp only [subsetInner]
    cases found <;> cases h : (tag.key == o.key && tag.value == o.value) <;>
      simp [h] <;> omega

theorem subsetOuter_spec (t : List Tag) (other done : List Tag) (n : Nat)
    (hn : n = (t.map fun x => (x, decide (x ∈ done))).countP (fun p => p.2))
    (hlt : n < t.length) :
    subsetOuter t.length other (t.map fun x => (x, decide (x ∈ done))) n = true ↔
      ∀ x ∈ t, x ∈ done ∨ x ∈ other := by
  induction other generalizing done n with
  | nil =>
    simp only [subsetOuter, Bool.false_eq_true, false_iff]
    intro h
    have : ∀ x ∈ t, x ∈ done := fun x hx => by simpa using h x hx
    rw [List.countP_map, List.countP_eq_length.2 (by intro a ha; simpa using this a ha)] at hn
    omega
  | cons o os ih =>
    have h1 : (subsetInner o (t.map fun x => (x, decide (x ∈ done)))).1 =
        t.map fun x => (x, decide (x ∈ o :: done)) := by
      rw [subsetInner_fst, List.map_map]
      apply List.map_congr_left
      intro x _
      by_cases hxo : x = o <;> simp [hxo]
    have h2 := subsetInner_count o (t.map fun x => (x, decide (x ∈ done)))
    rw [h1, ← hn] at h2
    simp only [subsetOuter]
    rw [h1]
    have hmem : (∀ x ∈ t, x ∈ done ∨ x ∈ o :: os) ↔ ∀ x ∈ t, x ∈ o :: done ∨ x ∈ os := by
      constructor <;> intro h x hx <;> have hh := h x hx <;> simp only [List.mem_cons] at hh ⊢ <;>
        grind
    rw [hmem]
    have hle : (t.map fun x => (x, decide (x ∈ o :: done))).countP (fun p => p.2) ≤ t.length := by
      have := List.countP_le_length (p := fun p : Tag × Bool => p.2)
        (l := t.map fun x => (x, decide (x ∈ o :: done)))
      simpa using this
    by_cases hc : n + (subsetInner o (t.map fun x => (x, decide (x ∈ done)))).2 = t.length
    · rw [if_pos ⟨hc, by omega⟩]
      simp only [true_iff]
      intro x hx
      left
      have : (t.map fun x => (x, decide (x ∈ o :: done))).countP (fun p => p.2) =
          (t.map fun x => (x, decide (x ∈ o :: done))).length := by
        rw [List.length_map]; omega
      have := List.countP_eq_length.1 this (x, decide (x ∈ o :: done)) (by simp; exact ⟨x, hx, by simp⟩)
      simpa using this
    · rw [if_neg (by omega)]
      exact ih (o :: done) _ (by rw [h2]) (by omega)

end Spout
