import Verif.Spec.Metrics
import Verif.Lemmas.Convert
import Verif.Lemmas.Downsampler

set_option linter.unusedSimpArgs false

namespace Spout.Prom

open Spout.Spec

/-! ## Index functions -/

theorem indexByte_none {c : Byte} {s : Bytes} : indexByte c s = none ↔ c ∉ s := by
  induction s with
  | nil => simp [indexByte]
  | cons x xs ih =>
    unfold indexByte
    by_cases h : x = c
    · simp [h]
    · have h' : ¬ c = x := fun e => h e.symm
      simp [h, h', ih]

theorem indexByte_append {c : Byte} (a b : Bytes) (h : c ∉ a) : indexByte c (a ++ c :: b) = some a.length := by
  induction a with
  | nil => simp [indexByte]
  | cons x xs ih =>
    have h1 : ¬ x = c := fun e => h (by simp [e])
    have h2 : c ∉ xs := fun e => h (by simp [e])
    simp [indexByte, h1, ih h2]

theorem indexByte_some {c : Byte} {s : Bytes} {j : Nat} (h : indexByte c s = some j) :
    ∃ a b, s = a ++ c :: b ∧ c ∉ a ∧ a.length = j := by
  induction s generalizing j with
  | nil => simp [indexByte] at h
  | cons x xs ih =>
    unfold indexByte at h
    by_cases hx : x = c
    · simp [hx] at h
      exact ⟨[], xs, by simp [hx], by simp, by simp [h]⟩
    · simp only [hx, if_false] at h
      cases hk : indexByte c xs with
      | none => simp [hk] at h
      | some k =>
        simp [hk] at h
        obtain ⟨a, b, rfl, h2, h3⟩ := ih hk
        refine ⟨x :: a, b, rfl, ?_, by simp; omega⟩
        intro hm
        rcases List.mem_cons.1 hm with e | e
        · exact hx e.symm
        · exact h2 e

theorem indexSB_none {s : Bytes} : indexSpaceBrace s = none ↔ SP ∉ s ∧ LBRACE ∉ s := by
  induction s with
  | nil => simp [indexSpaceBrace]
  | cons x xs ih =>
    unfold indexSpaceBrace
    by_cases h : x = SP ∨ x = LBRACE
    · rw [if_pos h]
      rcases h with h | h <;> simp [h]
    · rw [if_neg h]
      have h1 : ¬ SP = x := fun e => h (Or.inl e.symm)
      have h2 : ¬ LBRACE = x := fun e => h (Or.inr e.symm)
      simp [ih, h1, h2]

theorem indexSB_append {c : Byte} (a b : Bytes) (h : NameOK a) (hc : c = SP ∨ c = LBRACE) :
    indexSpaceBrace (a ++ c :: b) = some a.length := by
  induction a with
  | nil => simp [indexSpaceBrace, hc]
  | cons x xs ih =>
    have h1 : ¬ (x = SP ∨ x = LBRACE) := by
      rintro (e | e)
      · exact h.1 (by simp [e])
      · exact h.2 (by simp [e])
    have h2 : NameOK xs := ⟨fun e => h.1 (List.mem_cons_of_mem _ e), fun e => h.2 (List.mem_cons_of_mem _ e)⟩
    rw [List.cons_append]
    unfold indexSpaceBrace
    rw [if_neg h1, ih h2]
    simp

theorem indexSB_some {s : Bytes} {j : Nat} (h : indexSpaceBrace s = some j) :
    ∃ a c b, s = a ++ c :: b ∧ (c = SP ∨ c = LBRACE) ∧ NameOK a ∧ a.length = j := by
  induction s generalizing j with
  | nil => simp [indexSpaceBrace] at h
  | cons x xs ih =>
    unfold indexSpaceBrace at h
    by_cases hx : x = SP ∨ x = LBRACE
    · rw [if_pos hx] at h
      injection h with h
      exact ⟨[], x, xs, rfl, hx, by simp [NameOK], by simp [h]⟩
    · rw [if_neg hx] at h
      cases hk : indexSpaceBrace xs with
      | none => simp [hk] at h
      | some k =>
        simp [hk] at h
        obtain ⟨a, c, b, rfl, h2, h3, h4⟩ := ih hk
        refine ⟨x :: a, c, b, rfl, h2, ?_, by simp; omega⟩
        constructor
        · intro hm
          rcases List.mem_cons.1 hm with e | e
          · exact hx (Or.inl e.symm)
          · exact h3.1 e
        · intro hm
          rcases List.mem_cons.1 hm with e | e
          · exact hx (Or.inr e.symm)
          · exact h3.2 e

theorem eqq_infix_cons {x : Byte} {s : Bytes} :
    [EQ, DQ] <:+: (x :: s) ↔ (x = EQ ∧ s.head? = some DQ) ∨ [EQ, DQ] <:+: s := by
  rw [List.infix_cons_iff]
  constructor
  · rintro (⟨t, ht⟩ | h)
    · left
      simp at ht
      obtain ⟨rfl, rfl⟩ := ht
      simp
    · right; exact h
  · rintro (⟨rfl, h⟩ | h)
    · left
      cases s with
      | nil => simp at h
      | cons y ys => simp at h; subst h; exact ⟨ys, rfl⟩
    · right; exact h

theorem indexEQ_none {s : Bytes} : indexEqQuote s = none ↔ ¬ [EQ, DQ] <:+: s := by
  induction s with
  | nil => simp [indexEqQuote]
  | cons x xs ih =>
    cases xs with
    | nil => simp [indexEqQuote, eqq_infix_cons]
    | cons y ys =>
      unfold indexEqQuote
      rw [eqq_infix_cons]
      by_cases h : x = EQ ∧ y = DQ
      · rw [if_pos h]
        simp [h.1, h.2]
      · rw [if_neg h]
        rw [Option.map_eq_none_iff, ih]
        constructor
        · rintro h1 (⟨h2, h3⟩ | h2)
          · exact h ⟨h2, by simpa using h3⟩
          · exact h1 h2
        · intro h1 h2
          exact h1 (Or.inr h2)

theorem indexEQ_append (a b : Bytes) (h : ¬ [EQ, DQ] <:+: a) :
    indexEqQuote (a ++ EQ :: DQ :: b) = some a.length := by
  induction a with
  | nil => simp [indexEqQuote]
  | cons x xs ih =>
    rw [eqq_infix_cons] at h
    have h2 : ¬ [EQ, DQ] <:+: xs := fun e => h (Or.inr e)
    have ih' := ih h2
    cases xs with
    | nil =>
      simp only [List.nil_append, List.cons_append] at ih' ⊢
      unfold indexEqQuote
      have : ¬ (x = EQ ∧ EQ = DQ) := fun e => absurd e.2 (by decide)
      rw [if_neg this, ih']
      simp
    | cons y ys =>
      simp only [List.cons_append] at ih' ⊢
      unfold indexEqQuote
      have : ¬ (x = EQ ∧ y = DQ) := fun e => h (Or.inl ⟨e.1, by simp [e.2]⟩)
      rw [if_neg this, ih']
      simp

theorem indexEQ_some {s : Bytes} {j : Nat} (h : indexEqQuote s = some j) :
    ∃ a b, s = a ++ EQ :: DQ :: b ∧ ¬ [EQ, DQ] <:+: a ∧ a.length = j := by
  induction s generalizing j with
  | nil => simp [indexEqQuote] at h
  | cons x xs ih =>
    cases xs with
    | nil => simp [indexEqQuote] at h
    | cons y ys =>
      unfold indexEqQuote at h
      by_cases hx : x = EQ ∧ y = DQ
      · rw [if_pos hx] at h
        injection h with h
        exact ⟨[], ys, by simp [hx.1, hx.2], by simp, by simp [h]⟩
      · rw [if_neg hx] at h
        cases hk : indexEqQuote (y :: ys) with
        | none => simp [hk] at h
        | some k =>
          simp [hk] at h
          obtain ⟨a, b, e, h2, h3⟩ := ih hk
          refine ⟨x :: a, b, by simp [e], ?_, by simp; omega⟩
          rw [eqq_infix_cons]
          rintro (⟨e1, e2⟩ | e1)
          · apply hx
            refine ⟨e1, ?_⟩
            cases a with
            | nil => simp at e2
            | cons z zs =>
              simp at e e2
              rw [e.1, e2]
          · exact h2 e1

/-! ## Labels as text -/

theorem labelsLoop_cons2 (l k : Label) (ls : List Label) :
    labelsLoop (l :: k :: ls) = labelText l ++ COMMA :: labelsLoop (k :: ls) := by
  simp [labelsLoop, labelText]

theorem labelsLoop_one (l : Label) : labelsLoop [l] = labelText l := rfl

theorem labelsLoop_eq (ls : List Label) : labelsLoop ls = labelList ls := by
  induction ls with
  | nil => rfl
  | cons l ls ih =>
    cases ls with
    | nil => simp [labelsLoop, labelList, labelText]
    | cons k ls =>
      rw [labelsLoop_cons2, ih]
      simp [labelList]

theorem labelText_length (l : Label) : (labelText l).length = l.name.length + l.value.length + 3 := by
  simp [labelText]; omega

/-- Where the labels of a list lie when its text starts at offset `o`. -/
def layout (o : Nat) : List Label → List RLabel
  | [] => []
  | l :: ls => ⟨o, l.name.length, o + l.name.length + 2, l.value.length⟩ :: layout (o + (labelText l).length + 1) ls

theorem layout_get (ls : List Label) (p q : Bytes) :
    (layout p.length ls).map (·.get (p ++ labelsLoop ls ++ q)) = ls := by
  induction ls generalizing p with
  | nil => rfl
  | cons l ls ih =>
    have hhead : ∀ r : Bytes, RLabel.get (p ++ (labelText l ++ r))
        ⟨p.length, l.name.length, p.length + l.name.length + 2, l.value.length⟩ = l := by
      intro r
      unfold RLabel.get labelText
      have h1 : (p ++ (l.name ++ b!"=\"" ++ l.value ++ b!"\"" ++ r)).drop p.length
          = l.name ++ b!"=\"" ++ l.value ++ b!"\"" ++ r := by simp
      have h2 : (p ++ (l.name ++ b!"=\"" ++ l.value ++ b!"\"" ++ r)).drop (p.length + l.name.length + 2)
          = l.value ++ b!"\"" ++ r := by
        have : p ++ (l.name ++ b!"=\"" ++ l.value ++ b!"\"" ++ r)
            = (p ++ l.name ++ b!"=\"") ++ (l.value ++ b!"\"" ++ r) := by simp
        rw [this]
        have hl : p.length + l.name.length + 2 = (p ++ l.name ++ b!"=\"").length := by simp; omega
        rw [hl, List.drop_left]
      rw [h1, h2]
      simp
    cases ls with
    | nil =>
      have h := hhead q
      simp only [layout, List.map_cons, List.map_nil, labelsLoop_one]
      rw [List.append_assoc, h]
    | cons k ls =>
      rw [labelsLoop_cons2]
      have h := hhead (COMMA :: labelsLoop (k :: ls) ++ q)
      have e1 : p ++ (labelText l ++ COMMA :: labelsLoop (k :: ls)) ++ q
          = p ++ (labelText l ++ (COMMA :: labelsLoop (k :: ls) ++ q)) := by simp
      have e2 : p ++ (labelText l ++ COMMA :: labelsLoop (k :: ls)) ++ q
          = (p ++ labelText l ++ [COMMA]) ++ labelsLoop (k :: ls) ++ q := by simp
      have ih' := ih (p ++ labelText l ++ [COMMA])
      have e3 : (p ++ labelText l ++ [COMMA]).length = p.length + (labelText l).length + 1 := by simp; omega
      rw [e3, ← e2] at ih'
      rw [layout, List.map_cons, ih', e1, h]

/-! ## The label parser -/

theorem sliceFrom_drop {s : Bytes} {i : Nat} {t : Bytes} (hi : i ≤ s.length) (h : s.drop i = t) :
    sliceFrom s i = .ok t := by rw [sliceFrom_ok hi, h]

theorem drop_add_of {s a b : Bytes} {i : Nat} (h : s.drop i = a ++ b) : s.drop (i + a.length) = b := by
  rw [← List.drop_drop, h, List.drop_left]

theorem length_of_drop {s t : Bytes} {i : Nat} (hi : i ≤ s.length) (h : s.drop i = t) :
    s.length = i + t.length := by
  rw [← h]; simp; omega

/-- One iteration of the label loop on a label followed by a byte. -/
theorem loop_step {s : Bytes} {off fuel i : Nat} {out : List RLabel} {l : Label} {t : Bytes}
    (hi : i ≤ s.length) (hl : LabelOK l) (h : s.drop i = labelText l ++ t) :
    parseLabelsLoop s off (fuel + 1) i out =
      match t with
      | [] => .panic
      | c :: _ =>
        let out' := out ++ [⟨off + i, l.name.length, off + i + l.name.length + 2, l.value.length⟩]
        if c = RBRACE then .ok (.ok (out', i + (labelText l).length + 1))
        else if c = COMMA then parseLabelsLoop s off fuel (i + (labelText l).length + 1) out'
        else .ok (.error .invalidSeparator) := by
  have hlen := length_of_drop hi h
  have hlt := labelText_length l
  have e0 : labelText l ++ t = l.name ++ EQ :: DQ :: (l.value ++ DQ :: t) := by simp [labelText]
  rw [e0] at h
  have hj : indexEqQuote (s.drop i) = some l.name.length := by rw [h]; exact indexEQ_append _ _ hl.1
  have h2 : s.drop (i + l.name.length + 2) = l.value ++ DQ :: t := by
    have : s.drop i = (l.name ++ [EQ, DQ]) ++ (l.value ++ DQ :: t) := by rw [h]; simp
    have := drop_add_of this
    simpa [Nat.add_assoc] using this
  have hj2 : indexByte DQ (s.drop (i + l.name.length + 2)) = some l.value.length := by
    rw [h2]; exact indexByte_append _ _ hl.2
  simp only [List.length_append, hlt] at hlen
  have hsl1 : slice s i (i + l.name.length) = .ok ((s.take (i + l.name.length)).drop i) :=
    slice_ok (by omega) (by omega)
  have hsl2 : slice s (i + l.name.length + 2) (i + l.name.length + 2 + l.value.length)
      = .ok ((s.take (i + l.name.length + 2 + l.value.length)).drop (i + l.name.length + 2)) :=
    slice_ok (by omega) (by omega)
  have hidx : s[i + l.name.length + 2 + l.value.length + 1]? = t.head? := by
    have : s.drop (i + l.name.length + 2) = (l.value ++ [DQ]) ++ t := by rw [h2]; simp
    have := drop_add_of this
    have e : i + l.name.length + 2 + (l.value ++ [DQ]).length = i + l.name.length + 2 + l.value.length + 1 := by
      simp; omega
    rw [e] at this
    rw [← this]
    simp
  conv => lhs; unfold parseLabelsLoop
  rw [sliceFrom_ok hi]
  simp only [Go.ok_bind, hj, hsl1]
  rw [sliceFrom_ok (show i + l.name.length + 2 ≤ s.length by omega)]
  simp only [Go.ok_bind, hj2, hsl2]
  cases t with
  | nil =>
    simp only [List.head?_nil] at hidx
    simp [idx, hidx]
  | cons c r =>
    simp only [List.head?_cons] at hidx
    have hidx' : idx s (i + l.name.length + 2 + l.value.length + 1) = .ok c := by simp [idx, hidx]
    have e : i + l.name.length + 2 + l.value.length + 1 = i + (labelText l).length := by omega
    have e4 : off + (i + l.name.length + 2) = off + i + l.name.length + 2 := by omega
    simp only [hidx', Go.ok_bind, e4, Go.pure_eq]
    rw [e]

/-- The other outcomes of one iteration. -/
theorem loop_cases {s : Bytes} {off fuel i : Nat} {out : List RLabel} (hi : i ≤ s.length) :
    (∃ l t, LabelOK l ∧ s.drop i = labelText l ++ t) ∨
    ((¬ ∃ l t, LabelOK l ∧ s.drop i = labelText l ++ t) ∧
      ∃ e, parseLabelsLoop s off (fuel + 1) i out = .ok (.error e)) := by
  cases hj : indexEqQuote (s.drop i) with
  | none =>
    right
    have hn := indexEQ_none.1 hj
    constructor
    · rintro ⟨l, t, -, ht⟩
      apply hn
      rw [ht]
      exact ⟨l.name, l.value ++ b!"\"" ++ t, by simp [labelText]⟩
    · refine ⟨.invalidLabel, ?_⟩
      unfold parseLabelsLoop
      rw [sliceFrom_ok hi]
      simp [hj]
  | some j =>
    obtain ⟨a, b, hab, ha, rfl⟩ := indexEQ_some hj
    have hlen := length_of_drop hi hab
    have h2 : s.drop (i + a.length + 2) = b := by
      have : s.drop i = (a ++ [EQ, DQ]) ++ b := by rw [hab]; simp
      have := drop_add_of this
      simpa [Nat.add_assoc] using this
    cases hk : indexByte DQ b with
    | some k =>
      obtain ⟨v, r, rfl, hv, -⟩ := indexByte_some hk
      left
      exact ⟨⟨a, v⟩, r, ⟨ha, hv⟩, by rw [hab]; simp [labelText]⟩
    | none =>
      right
      have hn := indexByte_none.1 hk
      constructor
      · rintro ⟨l, t, hl, ht⟩
        have e0 : labelText l ++ t = l.name ++ EQ :: DQ :: (l.value ++ DQ :: t) := by simp [labelText]
        have h1 : indexEqQuote (s.drop i) = some l.name.length := by
          rw [ht, e0]; exact indexEQ_append _ _ hl.1
        rw [hj] at h1
        injection h1 with h1
        have h3 : s.drop (i + l.name.length + 2) = l.value ++ DQ :: t := by
          have : s.drop i = (l.name ++ [EQ, DQ]) ++ (l.value ++ DQ :: t) := by rw [ht, e0]; simp
          have := drop_add_of this
          simpa [Nat.add_assoc] using this
        rw [← h1, h2] at h3
        exact hn (by simp [h3])
      · refine ⟨.missingQuote, ?_⟩
        unfold parseLabelsLoop
        rw [sliceFrom_ok hi]
        simp only [List.length_append, List.length_cons] at hlen
        have hsl1 : slice s i (i + a.length) = .ok ((s.take (i + a.length)).drop i) :=
          slice_ok (by omega) (by omega)
        simp only [Go.ok_bind, hj, hsl1]
        rw [sliceFrom_ok (show i + a.length + 2 ≤ s.length by omega), h2]
        simp [hk]

theorem loop_ok_of {s : Bytes} {off : Nat} (ls : List Label) (hne : ls ≠ []) (hok : ∀ l ∈ ls, LabelOK l)
    (rest : Bytes) (fuel i : Nat) (out : List RLabel) (hf : ls.length ≤ fuel) (hi : i ≤ s.length)
    (h : s.drop i = labelsLoop ls ++ RBRACE :: rest) :
    parseLabelsLoop s off fuel i out =
      .ok (.ok (out ++ layout (off + i) ls, i + (labelsLoop ls).length + 1)) := by
  induction ls generalizing fuel i out with
  | nil => exact absurd rfl hne
  | cons l ls ih =>
    have hl := hok l (by simp)
    obtain ⟨f, rfl⟩ : ∃ f, fuel = f + 1 := ⟨fuel - 1, by simp at hf; omega⟩
    cases ls with
    | nil =>
      rw [labelsLoop_one] at h
      rw [loop_step hi hl h]
      simp [labelsLoop_one, layout]
    | cons k ls =>
      rw [labelsLoop_cons2] at h
      have h1 : s.drop i = labelText l ++ COMMA :: (labelsLoop (k :: ls) ++ RBRACE :: rest) := by rw [h]; simp
      have hlen := length_of_drop hi h1
      rw [loop_step hi hl h1]
      have hc : ¬ COMMA = RBRACE := by decide
      simp only [hc, if_false, if_true]
      have h2 : s.drop (i + (labelText l).length + 1) = labelsLoop (k :: ls) ++ RBRACE :: rest := by
        have : s.drop i = (labelText l ++ [COMMA]) ++ (labelsLoop (k :: ls) ++ RBRACE :: rest) := by rw [h1]; simp
        have := drop_add_of this
        simpa [Nat.add_assoc] using this
      rw [ih (by simp) (fun x hx => hok x (List.mem_cons_of_mem _ hx)) _ _ _ (by simp at hf ⊢; omega)
        (by simp at hlen; omega) h2]
      rw [labelsLoop_cons2]
      have e1 : off + (i + (labelText l).length + 1) = off + i + (labelText l).length + 1 := by omega
      rw [show layout (off + i) (l :: k :: ls) = ⟨off + i, l.name.length, off + i + l.name.length + 2, l.value.length⟩
        :: layout (off + i + (labelText l).length + 1) (k :: ls) from rfl, e1]
      simp
      omega

theorem loop_panic_of {s : Bytes} {off : Nat} (ls : List Label) (hne : ls ≠ []) (hok : ∀ l ∈ ls, LabelOK l)
    (fuel i : Nat) (out : List RLabel) (hi : i ≤ s.length) (h : s.drop i = labelsLoop ls) :
    parseLabelsLoop s off fuel i out = .panic := by
  induction ls generalizing fuel i out with
  | nil => exact absurd rfl hne
  | cons l ls ih =>
    cases fuel with
    | zero => rfl
    | succ f =>
      have hl := hok l (by simp)
      cases ls with
      | nil =>
        rw [labelsLoop_one] at h
        rw [loop_step (t := []) hi hl (by simpa using h)]
      | cons k ls =>
        rw [labelsLoop_cons2] at h
        have hlen := length_of_drop hi h
        rw [loop_step hi hl h]
        have hc : ¬ COMMA = RBRACE := by decide
        simp only [hc, if_false, if_true]
        have h2 : s.drop (i + (labelText l).length + 1) = labelsLoop (k :: ls) := by
          have : s.drop i = (labelText l ++ [COMMA]) ++ labelsLoop (k :: ls) := by rw [h]; simp
          have := drop_add_of this
          simpa [Nat.add_assoc] using this
        exact ih (by simp) (fun x hx => hok x (List.mem_cons_of_mem _ hx)) _ _ _ (by simp at hlen; omega) h2

theorem loop_ok {s : Bytes} {off : Nat} (fuel i : Nat) (out r : List RLabel) (n : Nat) (hi : i ≤ s.length)
    (h : parseLabelsLoop s off fuel i out = .ok (.ok (r, n))) :
    ∃ ls rest, ls ≠ [] ∧ (∀ l ∈ ls, LabelOK l) ∧ s.drop i = labelsLoop ls ++ RBRACE :: rest ∧
      r = out ++ layout (off + i) ls ∧ n = i + (labelsLoop ls).length + 1 := by
  induction fuel generalizing i out with
  | zero => cases h
  | succ f ih =>
    rcases loop_cases (off := off) (fuel := f) (out := out) hi with ⟨l, t, hl, ht⟩ | ⟨-, e, he⟩
    · rw [loop_step hi hl ht] at h
      have hlen := length_of_drop hi ht
      cases t with
      | nil => cases h
      | cons c t =>
        dsimp only at h
        by_cases hc : c = RBRACE
        · rw [if_pos hc] at h
          injection h with h; injection h with h; injection h with h1 h2
          refine ⟨[l], t, by simp, ?_, by rw [ht, hc, labelsLoop_one], ?_, ?_⟩
          · intro x hx; simp at hx; rw [hx]; exact hl
          · rw [← h1]; rfl
          · rw [← h2, labelsLoop_one]
        · rw [if_neg hc] at h
          by_cases hc2 : c = COMMA
          · rw [if_pos hc2] at h
            obtain ⟨ls, rest, h1, h2, h3, h4, h5⟩ := ih _ _ (by simp at hlen; omega) h
            have h3' : s.drop (i + (labelText l).length + 1) = t := by
              have : s.drop i = (labelText l ++ [c]) ++ t := by rw [ht]; simp
              have := drop_add_of this
              simpa [Nat.add_assoc] using this
            rw [h3'] at h3
            cases ls with
            | nil => exact absurd rfl h1
            | cons k ls =>
              refine ⟨l :: k :: ls, rest, by simp, ?_, ?_, ?_, ?_⟩
              · intro x hx
                rcases List.mem_cons.1 hx with rfl | hx
                · exact hl
                · exact h2 x hx
              · rw [ht, h3, hc2, labelsLoop_cons2]; simp
              · rw [h4]
                have e1 : off + (i + (labelText l).length + 1) = off + i + (labelText l).length + 1 := by omega
                rw [e1]
                simp [layout]
              · rw [h5, labelsLoop_cons2]
                simp
                omega
          · rw [if_neg hc2] at h
            injection h with h; cases h
    · rw [he] at h; injection h with h; cases h

theorem loop_panic {s : Bytes} {off : Nat} (fuel i : Nat) (out : List RLabel) (hi : i ≤ s.length)
    (hf : s.length - i < fuel)
    (h : parseLabelsLoop s off fuel i out = .panic) :
    ∃ ls, ls ≠ [] ∧ (∀ l ∈ ls, LabelOK l) ∧ s.drop i = labelsLoop ls := by
  induction fuel generalizing i out with
  | zero => omega
  | succ f ih =>
    rcases loop_cases (off := off) (fuel := f) (out := out) hi with ⟨l, t, hl, ht⟩ | ⟨-, e, he⟩
    · rw [loop_step hi hl ht] at h
      have hlen := length_of_drop hi ht
      cases t with
      | nil =>
        refine ⟨[l], by simp, ?_, by rw [ht, labelsLoop_one]; simp⟩
        intro x hx; simp at hx; rw [hx]; exact hl
      | cons c t =>
        dsimp only at h
        by_cases hc : c = RBRACE
        · rw [if_pos hc] at h
          cases h
        · rw [if_neg hc] at h
          by_cases hc2 : c = COMMA
          · rw [if_pos hc2] at h
            simp at hlen
            obtain ⟨ls, h1, h2, h3⟩ := ih _ _ (by omega) (by omega) h
            have h3' : s.drop (i + (labelText l).length + 1) = t := by
              have : s.drop i = (labelText l ++ [c]) ++ t := by rw [ht]; simp
              have := drop_add_of this
              simpa [Nat.add_assoc] using this
            rw [h3'] at h3
            cases ls with
            | nil => exact absurd rfl h1
            | cons k ls =>
              refine ⟨l :: k :: ls, by simp, ?_, ?_⟩
              · intro x hx
                rcases List.mem_cons.1 hx with rfl | hx
                · exact hl
                · exact h2 x hx
              · rw [ht, h3, hc2, labelsLoop_cons2]
          · rw [if_neg hc2] at h
            cases h
    · rw [he] at h; cases h

/-! ## The line parser -/

/-- The contents of a parsed metric. -/
def view (m : Metric) : VMetric := ⟨m.mem.take m.nameLen, m.labels.map (·.get m.mem), m.value, m.millis⟩

theorem split_space (s : Bytes) : ∃ val rest, s = val ++ rest ∧ SP ∉ val ∧ (rest = [] ∨ ∃ t, rest = SP :: t) := by
  cases h : indexByte SP s with
  | none => exact ⟨s, [], by simp, indexByte_none.1 h, Or.inl rfl⟩
  | some j =>
    obtain ⟨a, b, h1, h2, -⟩ := indexByte_some h
    exact ⟨a, SP :: b, h1, h2, Or.inr ⟨b, rfl⟩⟩

/-- What follows the value. -/
def afterValue (s : Bytes) (nl : Nat) (lb : List RLabel) (v : Int) : Bytes → Go (Except PErr Metric)
  | [] => .ok (.ok ⟨s, nl, lb, v, 0⟩)
  | _ :: t =>
    match toInt t with
    | .error _ => .ok (.error .invalidTimestamp)
    | .ok ms => .ok (.ok ⟨s, nl, lb, v, ms⟩)

theorem parseValue_of {s : Bytes} {nl i : Nat} {lb : List RLabel} {val rest : Bytes} (hi : i + 1 ≤ s.length)
    (h : s.drop (i + 1) = val ++ rest) (hv : SP ∉ val) (hr : rest = [] ∨ ∃ t, rest = SP :: t) :
    parseValue s nl lb i =
      match toInt val with
      | .error _ => .ok (.error .invalidValue)
      | .ok v => afterValue s nl lb v rest := by
  have hlen := length_of_drop hi h
  simp only [List.length_append] at hlen
  have hj : valueEnd (s.drop (i + 1)) = val.length := by
    unfold valueEnd
    rcases hr with rfl | ⟨t, rfl⟩
    · have : indexByte SP (s.drop (i + 1)) = none := by rw [h, List.append_nil]; exact indexByte_none.2 hv
      rw [this, h]; simp
    · have : indexByte SP (s.drop (i + 1)) = some val.length := by rw [h]; exact indexByte_append _ _ hv
      rw [this]
  have hsl : slice s (i + 1) (i + 1 + val.length) = .ok val := by
    rw [slice_ok (by omega) (by omega)]
    congr 1
    rw [List.drop_take, h]
    simp
  unfold parseValue
  dsimp only
  rw [sliceFrom_ok hi]
  simp only [Go.ok_bind]
  rw [hj, hsl]
  simp only [Go.ok_bind]
  cases toInt val with
  | error e => rfl
  | ok v =>
    dsimp only
    rcases hr with rfl | ⟨t, rfl⟩
    · simp at hlen
      rw [if_neg (by omega)]
      rfl
    · simp at hlen
      rw [if_pos (by omega)]
      have hd : s.drop (i + 1 + val.length + 1) = t := by
        have : s.drop (i + 1) = (val ++ [SP]) ++ t := by rw [h]; simp
        have := drop_add_of this
        simpa [Nat.add_assoc] using this
      rw [sliceFrom_drop (by omega) hd]
      simp only [Go.ok_bind, afterValue]
      cases toInt t <;> rfl

theorem parseValue_panic {s : Bytes} {nl i : Nat} {lb : List RLabel} :
    parseValue s nl lb i = .panic ↔ s.length < i + 1 := by
  constructor
  · intro h
    apply Classical.byContradiction
    intro hn
    have hi : i + 1 ≤ s.length := by omega
    obtain ⟨val, rest, h1, h2, h3⟩ := split_space (s.drop (i + 1))
    rw [parseValue_of hi h1 h2 h3] at h
    cases hv : toInt val with
    | error e => rw [hv] at h; cases h
    | ok v =>
      rw [hv] at h
      dsimp only at h
      rcases h3 with rfl | ⟨t, rfl⟩
      · cases h
      · unfold afterValue at h
        dsimp only at h
        cases ht : toInt t with
        | error e => rw [ht] at h; cases h
        | ok ms => rw [ht] at h; cases h
  · intro h
    unfold parseValue
    dsimp only
    have : sliceFrom s (i + 1) = .panic := by unfold sliceFrom; rw [if_neg (by omega)]
    rw [this]; rfl

theorem parseValue_ok {s : Bytes} {nl i : Nat} {lb : List RLabel} {m : Metric} :
    parseValue s nl lb i = .ok (.ok m) ↔
      i + 1 ≤ s.length ∧ m.mem = s ∧ m.nameLen = nl ∧ m.labels = lb ∧
      ∃ val rest, s.drop (i + 1) = val ++ rest ∧ SP ∉ val ∧ toInt val = .ok m.value ∧
        ((rest = [] ∧ m.millis = 0) ∨ ∃ t, rest = SP :: t ∧ toInt t = .ok m.millis) := by
  constructor
  · intro h
    have hi : i + 1 ≤ s.length := by
      apply Classical.byContradiction
      intro hn
      rw [parseValue_panic.2 (by omega)] at h
      cases h
    obtain ⟨val, rest, h1, h2, h3⟩ := split_space (s.drop (i + 1))
    rw [parseValue_of hi h1 h2 h3] at h
    cases hv : toInt val with
    | error e => rw [hv] at h; injection h with h; cases h
    | ok v =>
      rw [hv] at h
      dsimp only at h
      rcases h3 with rfl | ⟨t, rfl⟩
      · injection h with h; injection h with h
        subst h
        exact ⟨hi, rfl, rfl, rfl, val, [], h1, h2, hv, Or.inl ⟨rfl, rfl⟩⟩
      · unfold afterValue at h
        dsimp only at h
        cases ht : toInt t with
        | error e => rw [ht] at h; injection h with h; cases h
        | ok ms =>
          rw [ht] at h
          injection h with h; injection h with h
          subst h
          exact ⟨hi, rfl, rfl, rfl, val, _, h1, h2, hv, Or.inr ⟨t, rfl, ht⟩⟩
  · rintro ⟨hi, h1, h2, h3, val, rest, h4, h5, h6, h7⟩
    cases m with
    | mk mem nameLen labels value millis =>
    dsimp only at *
    subst h1 h2 h3
    rcases h7 with ⟨rfl, rfl⟩ | ⟨t, rfl, ht⟩
    · rw [parseValue_of hi h4 h5 (Or.inl rfl), h6]
      rfl
    · rw [parseValue_of hi h4 h5 (Or.inr ⟨t, rfl⟩), h6]
      unfold afterValue
      dsimp only
      rw [ht]

theorem idx_append_cons (a : Bytes) (c : Byte) (b : Bytes) : idx (a ++ c :: b) a.length = .ok c := by
  simp [idx]

/-- `ParseMetric` on `a ++ ' ' :: b`. -/
theorem parseMetric_space (a b : Bytes) (ha : NameOK a) (hl : 3 ≤ (a ++ SP :: b).length) :
    parseMetric (a ++ SP :: b) = parseValue (a ++ SP :: b) a.length [] a.length := by
  unfold parseMetric
  rw [if_neg (by omega), indexSB_append a b ha (Or.inl rfl)]
  dsimp only
  rw [sliceTo_ok (by simp)]
  simp only [Go.ok_bind, idx_append_cons]
  rw [if_neg (by decide)]

/-- `ParseMetric` on `a ++ '{' :: b`. -/
theorem parseMetric_brace (a b : Bytes) (ha : NameOK a) (hl : 3 ≤ (a ++ LBRACE :: b).length) :
    parseMetric (a ++ LBRACE :: b) =
      match parseLabels b (a.length + 1) with
      | .panic => .panic
      | .ok (.error e) => .ok (.error e)
      | .ok (.ok (labels, n)) => parseValue (a ++ LBRACE :: b) a.length labels (a.length + 1 + n) := by
  unfold parseMetric
  rw [if_neg (by omega), indexSB_append a b ha (Or.inr rfl)]
  dsimp only
  rw [sliceTo_ok (by simp)]
  simp only [Go.ok_bind, idx_append_cons]
  rw [if_pos trivial]
  have hd : (a ++ LBRACE :: b).drop (a.length + 1) = b := by
    have : a ++ LBRACE :: b = (a ++ [LBRACE]) ++ b := by simp
    rw [this]
    have e : a.length + 1 = (a ++ [LBRACE]).length := by simp
    rw [e, List.drop_left]
  rw [sliceFrom_drop (by simp) hd]
  simp only [Go.ok_bind]
  cases parseLabels b (a.length + 1) with
  | panic => rfl
  | ok x =>
    cases x with
    | error e => rfl
    | ok p => rfl

theorem parseMetric_other (s : Bytes) (h : s.length < 3 ∨ (SP ∉ s ∧ LBRACE ∉ s)) :
    ∃ e, parseMetric s = .ok (.error e) := by
  by_cases hl : s.length < 3
  · exact ⟨.invalidMetric, by unfold parseMetric; rw [if_pos hl]; rfl⟩
  · rcases h with h | h
    · exact absurd h hl
    · refine ⟨.noValue, ?_⟩
      unfold parseMetric
      rw [if_neg hl, indexSB_none.2 h]
      rfl

theorem line_cases (s : Bytes) :
    (s.length < 3 ∨ (SP ∉ s ∧ LBRACE ∉ s)) ∨
    (3 ≤ s.length ∧ ∃ a b, s = a ++ SP :: b ∧ NameOK a) ∨
    (3 ≤ s.length ∧ ∃ a b, s = a ++ LBRACE :: b ∧ NameOK a) := by
  by_cases hl : s.length < 3
  · exact Or.inl (Or.inl hl)
  · cases h : indexSpaceBrace s with
    | none => exact Or.inl (Or.inr (indexSB_none.1 h))
    | some j =>
      obtain ⟨a, c, b, h1, h2, h3, -⟩ := indexSB_some h
      rcases h2 with rfl | rfl
      · exact Or.inr (Or.inl ⟨by omega, a, b, h1, h3⟩)
      · exact Or.inr (Or.inr ⟨by omega, a, b, h1, h3⟩)

theorem parseLabels_nil (off : Nat) : parseLabels [] off = .panic := rfl
theorem parseLabels_empty (b : Bytes) (off : Nat) : parseLabels (RBRACE :: b) off = .ok (.ok ([], 1)) := rfl
theorem parseLabels_cons (c : Byte) (b : Bytes) (off : Nat) (hc : c ≠ RBRACE) :
    parseLabels (c :: b) off = parseLabelsLoop (c :: b) off ((c :: b).length + 1) 0 [] := by
  unfold parseLabels
  simp only [idx, List.getElem?_cons_zero, Go.ok_bind]
  rw [if_neg hc]

theorem length_le_labelsLoop (ls : List Label) : ls.length ≤ (labelsLoop ls).length := by
  induction ls with
  | nil => simp
  | cons l ls ih =>
    cases ls with
    | nil => rw [labelsLoop_one, labelText_length]; simp
    | cons k ls => rw [labelsLoop_cons2]; simp at ih ⊢; omega

theorem labelsLoop_ne_nil {ls : List Label} (h : ls ≠ []) : labelsLoop ls ≠ [] := by
  intro e
  have := length_le_labelsLoop ls
  rw [e] at this
  cases ls with
  | nil => exact h rfl
  | cons l ls => simp at this

theorem parseLabels_ok {b : Bytes} {off : Nat} {lb : List RLabel} {n : Nat} :
    parseLabels b off = .ok (.ok (lb, n)) ↔
      ∃ ls rest, (∀ l ∈ ls, LabelOK l) ∧ b = labelsLoop ls ++ RBRACE :: rest ∧
        (labelsLoop ls).head? ≠ some RBRACE ∧ lb = layout off ls ∧ n = (labelsLoop ls).length + 1 := by
  constructor
  · intro h
    cases b with
    | nil => rw [parseLabels_nil] at h; cases h
    | cons c b =>
      by_cases hc : c = RBRACE
      · subst hc
        rw [parseLabels_empty] at h
        injection h with h; injection h with h; injection h with h1 h2
        refine ⟨[], b, ?_, rfl, ?_, h1.symm, h2.symm⟩
        · intro l hl; cases hl
        · intro h; cases h
      · rw [parseLabels_cons c b off hc] at h
        obtain ⟨ls, rest, h1, h2, h3, h4, h5⟩ := loop_ok _ _ _ _ _ (by simp) h
        refine ⟨ls, rest, h2, by simpa using h3, ?_, by simpa using h4, by omega⟩
        intro hh
        cases hL : labelsLoop ls with
        | nil => rw [hL] at hh; cases hh
        | cons x xs =>
          rw [hL] at hh h3
          simp at hh h3
          exact hc (by rw [h3.1, hh])
  · rintro ⟨ls, rest, h1, h2, h3, h4, h5⟩
    by_cases hne : ls = []
    · subst hne
      rw [h2]
      rw [h4, h5]
      rfl
    · cases hL : labelsLoop ls with
      | nil => exact absurd hL (labelsLoop_ne_nil hne)
      | cons x xs =>
        have hx : x ≠ RBRACE := by
          intro e; apply h3; rw [hL, e]; rfl
        have hb : b = x :: (xs ++ RBRACE :: rest) := by rw [h2, hL]; rfl
        rw [hb, parseLabels_cons _ _ _ hx, ← hb]
        have hle := length_le_labelsLoop ls
        rw [loop_ok_of ls hne h1 rest (b.length + 1) 0 [] (by rw [h2]; simp; omega) (by simp) (by simpa using h2)]
        rw [h4, h5]
        simp

theorem parseLabels_panic {b : Bytes} {off : Nat} :
    parseLabels b off = .panic ↔
      b = [] ∨ ∃ ls, ls ≠ [] ∧ (∀ l ∈ ls, LabelOK l) ∧ b.head? ≠ some RBRACE ∧ b = labelsLoop ls := by
  constructor
  · intro h
    cases b with
    | nil => exact Or.inl rfl
    | cons c b =>
      by_cases hc : c = RBRACE
      · subst hc
        rw [parseLabels_empty] at h
        cases h
      · rw [parseLabels_cons c b off hc] at h
        obtain ⟨ls, h1, h2, h3⟩ := loop_panic _ _ _ (by simp) (by simp) h
        exact Or.inr ⟨ls, h1, h2, by simpa using hc, by simpa using h3⟩
  · rintro (rfl | ⟨ls, h1, h2, h3, h4⟩)
    · rfl
    · cases b with
      | nil => rfl
      | cons c b =>
        have hc : c ≠ RBRACE := by simpa using h3
        rw [parseLabels_cons c b off hc]
        exact loop_panic_of ls h1 h2 _ _ _ (by simp) (by simpa using h4)


/-- How a parsed metric lies in its line: the name in front, then either no
labels or the labels, in braces, right after it. -/
structure Shape (m : Metric) (a : Bytes) (ls : List Label) : Prop where
  nameLen : m.nameLen = a.length
  nameOK : NameOK a
  labelsOK : ∀ l ∈ ls, LabelOK l
  front : ∃ t, m.mem = a ++ t
  labels : (ls = [] ∧ m.labels = []) ∨
    (ls ≠ [] ∧ ∃ t, m.mem = a ++ LBRACE :: (labelsLoop ls ++ RBRACE :: t) ∧ m.labels = layout (a.length + 1) ls)

theorem Shape.view_name {m : Metric} {a : Bytes} {ls : List Label} (h : Shape m a ls) : (view m).name = a := by
  obtain ⟨t, ht⟩ := h.front
  simp [view, h.nameLen, ht]

theorem layout_get_brace (a : Bytes) (ls : List Label) (q : Bytes) :
    (layout (a.length + 1) ls).map (·.get (a ++ LBRACE :: (labelsLoop ls ++ q))) = ls := by
  have := layout_get ls (a ++ [LBRACE]) q
  have e1 : (a ++ [LBRACE]).length = a.length + 1 := by simp
  have e2 : (a ++ [LBRACE]) ++ labelsLoop ls ++ q = a ++ LBRACE :: (labelsLoop ls ++ q) := by simp
  rw [e1, e2] at this
  exact this

theorem Shape.view_labels {m : Metric} {a : Bytes} {ls : List Label} (h : Shape m a ls) : (view m).labels = ls := by
  rcases h.labels with ⟨h1, h2⟩ | ⟨h1, t, h2, h3⟩
  · simp [view, h2, h1]
  · unfold view
    rw [h2, h3]
    exact layout_get_brace a ls _

theorem parse_shape {line : Bytes} {m : Metric} (h : parseMetric line = .ok (.ok m)) :
    m.mem = line ∧ 3 ≤ line.length ∧ ∃ a ls, Shape m a ls ∧
      ∃ sep val rest, line = a ++ sep ++ val ++ rest ∧
        ((sep = [SP] ∧ ls = []) ∨
          ∃ c : Byte, sep = LBRACE :: (labelsLoop ls ++ [RBRACE, c]) ∧ (labelsLoop ls).head? ≠ some RBRACE) ∧
        SP ∉ val ∧ toInt val = .ok m.value ∧
        ((rest = [] ∧ m.millis = 0) ∨ ∃ t, rest = SP :: t ∧ toInt t = .ok m.millis) := by
  rcases line_cases line with h1 | ⟨h1, a, b, rfl, ha⟩ | ⟨h1, a, b, rfl, ha⟩
  · obtain ⟨e, he⟩ := parseMetric_other line h1
    rw [he] at h; injection h with h; cases h
  · rw [parseMetric_space a b ha h1] at h
    obtain ⟨h2, h3, h4, h5, val, rest, h6, h7, h8, h9⟩ := parseValue_ok.1 h
    refine ⟨h3, h1, a, [], ⟨h4, ha, (by intro l hl; cases hl), ⟨_, h3⟩, Or.inl ⟨rfl, h5⟩⟩, [SP], val, rest, ?_,
      Or.inl ⟨rfl, rfl⟩, h7, h8, h9⟩
    have : (a ++ SP :: b).drop (a.length + 1) = b := by
      have e : a ++ SP :: b = (a ++ [SP]) ++ b := by simp
      have e2 : a.length + 1 = (a ++ [SP]).length := by simp
      rw [e, e2, List.drop_left]
    rw [this] at h6
    rw [h6]; simp
  · rw [parseMetric_brace a b ha h1] at h
    cases hp : parseLabels b (a.length + 1) with
    | panic => rw [hp] at h; cases h
    | ok x =>
      cases x with
      | error e => rw [hp] at h; injection h with h; cases h
      | ok p =>
        obtain ⟨lb, n⟩ := p
        rw [hp] at h
        dsimp only at h
        obtain ⟨ls, r, k1, k2, k3, k4, k5⟩ := parseLabels_ok.1 hp
        obtain ⟨h2, h3, h4, h5, val, rest, h6, h7, h8, h9⟩ := parseValue_ok.1 h
        subst k2
        cases r with
        | nil => exfalso; simp at h2; omega
        | cons c r =>
          refine ⟨h3, h1, a, ls, ⟨h4, ha, k1, ⟨_, h3⟩, ?_⟩, LBRACE :: (labelsLoop ls ++ [RBRACE, c]), val, rest, ?_,
            Or.inr ⟨c, rfl, k3⟩, h7, h8, h9⟩
          · by_cases hne : ls = []
            · left
              subst hne
              exact ⟨rfl, by rw [h5, k4]; rfl⟩
            · right
              exact ⟨hne, c :: r, h3, by rw [h5, k4]⟩
          · have e : a ++ LBRACE :: (labelsLoop ls ++ RBRACE :: c :: r)
                = (a ++ LBRACE :: (labelsLoop ls ++ [RBRACE, c])) ++ r := by simp
            have e2 : a.length + 1 + n + 1 = (a ++ LBRACE :: (labelsLoop ls ++ [RBRACE, c])).length := by
              simp [k5]; omega
            rw [e, e2, List.drop_left] at h6
            rw [h6]; simp

theorem parse_lineOf {line : Bytes} {m : Metric} (h : parseMetric line = .ok (.ok m)) : LineOf line (view m) := by
  obtain ⟨h1, h2, a, ls, hs, sep, val, rest, h3, h4, h5, h6, h7⟩ := parse_shape h
  have hn := hs.view_name
  have hl := hs.view_labels
  refine ⟨h2, by rw [hn]; exact hs.nameOK, sep, val, rest, by rw [hn]; exact h3, ?_, h5, h6, h7⟩
  rw [hl, ← labelsLoop_eq]
  rcases h4 with ⟨h4, h8⟩ | ⟨c, h4, h8⟩
  · exact Or.inl ⟨h4, h8⟩
  · exact Or.inr ⟨c, by rw [h4]; simp, h8, hs.labelsOK⟩

theorem parse_of_lineOf {line : Bytes} {v : VMetric} (h : LineOf line v) :
    ∃ m, parseMetric line = .ok (.ok m) ∧ view m = v := by
  obtain ⟨h1, h2, sep, val, rest, h3, h4, h5, h6, h7⟩ := h
  rw [← labelsLoop_eq] at h4
  rcases h4 with ⟨h4, h8⟩ | ⟨c, h4, h8, h9⟩
  · have e : line = v.name ++ SP :: (val ++ rest) := by rw [h3, h4]; simp
    have hd : (v.name ++ SP :: (val ++ rest)).drop (v.name.length + 1) = val ++ rest := by
      have e : v.name ++ SP :: (val ++ rest) = (v.name ++ [SP]) ++ (val ++ rest) := by simp
      have e2 : v.name.length + 1 = (v.name ++ [SP]).length := by simp
      rw [e, e2, List.drop_left]
    refine ⟨⟨line, v.name.length, [], v.value, v.millis⟩, ?_, ?_⟩
    · rw [e] at h1 ⊢
      rw [parseMetric_space _ _ h2 h1]
      exact parseValue_ok.2 ⟨by simp, rfl, rfl, rfl, val, rest, hd, h5, h6, h7⟩
    · unfold view
      rw [e]
      cases v
      simp_all
  · have e : line = v.name ++ LBRACE :: (labelsLoop v.labels ++ RBRACE :: c :: (val ++ rest)) := by rw [h3, h4]; simp
    have hpl : parseLabels (labelsLoop v.labels ++ RBRACE :: c :: (val ++ rest)) (v.name.length + 1)
        = .ok (.ok (layout (v.name.length + 1) v.labels, (labelsLoop v.labels).length + 1)) :=
      parseLabels_ok.2 ⟨v.labels, _, h9, rfl, h8, rfl, rfl⟩
    have hd : line.drop (v.name.length + 1 + ((labelsLoop v.labels).length + 1) + 1) = val ++ rest := by
      have e1 : line = (v.name ++ LBRACE :: (labelsLoop v.labels ++ [RBRACE, c])) ++ (val ++ rest) := by rw [e]; simp
      have e2 : v.name.length + 1 + ((labelsLoop v.labels).length + 1) + 1
          = (v.name ++ LBRACE :: (labelsLoop v.labels ++ [RBRACE, c])).length := by
        simp; omega
      rw [e1, e2, List.drop_left]
    have hlen : v.name.length + 1 + ((labelsLoop v.labels).length + 1) + 1 ≤ line.length := by rw [e]; simp; omega
    refine ⟨⟨line, v.name.length, layout (v.name.length + 1) v.labels, v.value, v.millis⟩, ?_, ?_⟩
    · have hb := parseMetric_brace v.name (labelsLoop v.labels ++ RBRACE :: c :: (val ++ rest)) h2 (by rw [← e]; exact h1)
      rw [← e, hpl] at hb
      rw [hb]
      exact parseValue_ok.2 ⟨hlen, rfl, rfl, rfl, val, rest, hd, h5, h6, h7⟩
    · have hg := layout_get_brace v.name v.labels (RBRACE :: c :: (val ++ rest))
      rw [← e] at hg
      unfold view
      dsimp only
      rw [hg, e]
      simp

/-- The lines on which the parser panics. -/
theorem parse_panic_iff (line : Bytes) :
    parseMetric line = .panic ↔
      3 ≤ line.length ∧ ∃ a b, line = a ++ LBRACE :: b ∧ NameOK a ∧
        (b = [] ∨ ∃ ls, (∀ l ∈ ls, LabelOK l) ∧ (labelsLoop ls).head? ≠ some RBRACE ∧
          ((ls ≠ [] ∧ b = labelsLoop ls) ∨ b = labelsLoop ls ++ [RBRACE])) := by
  constructor
  · intro h
    rcases line_cases line with h1 | ⟨h1, a, b, rfl, ha⟩ | ⟨h1, a, b, rfl, ha⟩
    · obtain ⟨e, he⟩ := parseMetric_other line h1
      rw [he] at h; cases h
    · rw [parseMetric_space a b ha h1, parseValue_panic] at h
      simp at h
    · refine ⟨h1, a, b, rfl, ha, ?_⟩
      rw [parseMetric_brace a b ha h1] at h
      cases hp : parseLabels b (a.length + 1) with
      | panic =>
        rcases parseLabels_panic.1 hp with hb | ⟨ls, k1, k2, k3, k4⟩
        · exact Or.inl hb
        · exact Or.inr ⟨ls, k2, by rw [← k4]; exact k3, Or.inl ⟨k1, k4⟩⟩
      | ok x =>
        cases x with
        | error e => rw [hp] at h; cases h
        | ok p =>
          obtain ⟨lb, n⟩ := p
          rw [hp] at h
          dsimp only at h
          rw [parseValue_panic] at h
          obtain ⟨ls, r, k1, k2, k3, k4, k5⟩ := parseLabels_ok.1 hp
          refine Or.inr ⟨ls, k1, k3, Or.inr ?_⟩
          cases r with
          | nil => exact k2
          | cons c r => exfalso; rw [k2, k5] at h; simp at h; omega
  · rintro ⟨h1, a, b, rfl, ha, hb⟩
    rw [parseMetric_brace a b ha h1]
    rcases hb with rfl | ⟨ls, k1, k2, ⟨k3, k4⟩ | k4⟩
    · rfl
    · rw [parseLabels_panic.2 (Or.inr ⟨ls, k3, k1, by rw [k4]; exact k2, k4⟩)]
    · rw [parseLabels_ok.2 ⟨ls, [], k1, k4, k2, rfl, rfl⟩]
      dsimp only
      rw [parseValue_panic, k4]
      simp
      omega

end Spout.Prom
