import Verif.Spec.Lines

namespace Spout

theorem splitAfterNL_flatten (b : Bytes) : (splitAfterNL b).flatten = b := by
  induction b with
  | nil => rfl
  | cons c cs ih =>
    simp only [splitAfterNL]
    split
    · rename_i hc; simp [ih]
    · split
      · rename_i h; rw [h] at ih; simp at ih; simp [← ih]
      · rename_i l ls h; rw [h] at ih; simp at ih; simp [ih]

theorem linesOf_flatten (b : Bytes) : (linesOf b).flatten = b := by
  have h : ∀ l : List Bytes, (l.filter (fun x => x ≠ [])).flatten = l.flatten := by
    intro l
    induction l with
    | nil => rfl
    | cons x xs ih =>
      by_cases hx : x = []
      · rw [List.filter_cons_of_neg (by simp [hx]), ih]; simp [hx]
      · rw [List.filter_cons_of_pos (by simp [hx]), List.flatten_cons, List.flatten_cons, ih]
  unfold linesOf
  rw [h, splitAfterNL_flatten]

theorem linesOf_shape (batch : Bytes) :
    ∀ l ∈ linesOf batch, ∃ body, NL ∉ body ∧ (l = body ++ [NL] ∨ (l = body ∧ ∃ pre, batch = pre ++ l)) := by
  have key : ∀ b : Bytes, ∀ l ∈ splitAfterNL b,
      ∃ body, NL ∉ body ∧ (l = body ++ [NL] ∨ (l = body ∧ ∃ pre, b = pre ++ l)) := by
    intro b
    induction b with
    | nil =>
      intro l hl
      simp only [splitAfterNL, List.mem_singleton] at hl
      subst hl
      exact ⟨[], by simp, Or.inr ⟨rfl, [], rfl⟩⟩
    | cons c cs ih =>
      intro l hl
      simp only [splitAfterNL] at hl
      split at hl
      · rename_i hc
        rw [List.mem_cons] at hl
        rcases hl with rfl | hl
        · exact ⟨[], by simp, Or.inl (by simp [hc])⟩
        · obtain ⟨body, h1, h2 | ⟨h2, pre, h3⟩⟩ := ih l hl
          · exact ⟨body, h1, Or.inl h2⟩
          · exact ⟨body, h1, Or.inr ⟨h2, c :: pre, by rw [List.cons_append, ← h3]⟩⟩
      · rename_i hc
        split at hl
        · rename_i h
          have := congrArg List.flatten h
          rw [splitAfterNL_flatten] at this
          rw [List.mem_singleton] at hl
          subst hl
          exact ⟨[c], by simpa using fun e => hc e.symm, Or.inr ⟨rfl, [], by simpa using this⟩⟩
        · rename_i l' ls h
          rw [List.mem_cons] at hl
          rcases hl with rfl | hl
          · obtain ⟨body, h1, h2 | ⟨h2, pre, h3⟩⟩ := ih l' (by rw [h]; simp)
            · exact ⟨c :: body, by simp only [List.mem_cons, not_or]; exact ⟨fun e => hc e.symm, h1⟩,
                Or.inl (by simp [h2])⟩
            · have hf := splitAfterNL_flatten cs
              rw [h, List.flatten_cons] at hf
              -- the first piece is a prefix of `cs`; being also a suffix without newline it is `cs`
              by_cases hls : ls = []
              · subst hls
                simp only [List.flatten_nil, List.append_nil] at hf
                exact ⟨c :: body, by simp only [List.mem_cons, not_or]; exact ⟨fun e => hc e.symm, h1⟩,
                  Or.inr ⟨by rw [h2], [], by simp [hf]⟩⟩
              · exfalso
                have : ∀ (x : Bytes) (y : Bytes) (zs : List Bytes), splitAfterNL x = y :: zs → zs ≠ [] → NL ∈ y := by
                  intro x
                  induction x with
                  | nil => intro y zs e hz; simp [splitAfterNL] at e; exact absurd e.2.symm (by simpa using hz)
                  | cons d ds ihd =>
                    intro y zs e hz
                    simp only [splitAfterNL] at e
                    split at e
                    · rename_i hd
                      simp only [List.cons.injEq] at e
                      rw [← e.1, hd]; simp
                    · split at e
                      · simp only [List.cons.injEq] at e; exact absurd e.2.symm hz
                      · rename_i y' zs' e'
                        simp only [List.cons.injEq] at e
                        rw [← e.1]
                        have := ihd y' zs' e' (by rw [e.2]; exact hz)
                        simp [this]
                rw [h2] at h
                exact h1 (this cs body ls h hls)
          · obtain ⟨body, h1, h2 | ⟨h2, pre, h3⟩⟩ := ih l (by rw [h]; simp [hl])
            · exact ⟨body, h1, Or.inl h2⟩
            · exact ⟨body, h1, Or.inr ⟨h2, c :: pre, by rw [List.cons_append, ← h3]⟩⟩
  intro l hl
  exact key batch l (List.mem_filter.1 hl).1

theorem splitAfterNL_ne_nil (b : Bytes) : splitAfterNL b ≠ [] := by
  cases b with
  | nil => simp [splitAfterNL]
  | cons c cs =>
    simp only [splitAfterNL]
    split
    · simp
    · split <;> simp

theorem splitAfterNL_line (l b : Bytes) (h : NL ∉ l) : splitAfterNL (l ++ NL :: b) = (l ++ [NL]) :: splitAfterNL b := by
  induction l with
  | nil => simp [splitAfterNL]
  | cons c cs ih =>
    simp only [List.mem_cons, not_or] at h
    simp only [List.cons_append, splitAfterNL]
    rw [if_neg (fun hc => h.1 hc.symm), ih h.2]

theorem splitAfterNL_noNL (l : Bytes) (h : NL ∉ l) : splitAfterNL l = [l] := by
  induction l with
  | nil => simp [splitAfterNL]
  | cons c cs ih =>
    simp only [List.mem_cons, not_or] at h
    simp only [splitAfterNL]
    rw [if_neg (fun hc => h.1 hc.symm), ih h.2]

theorem linesOf_nil : linesOf [] = [] := rfl

theorem linesOf_line (l b : Bytes) (h : NL ∉ l) : linesOf (l ++ NL :: b) = (l ++ [NL]) :: linesOf b := by
  unfold linesOf
  rw [splitAfterNL_line l b h]
  simp

theorem linesOf_single (l : Bytes) (h : NL ∉ l) : linesOf (l ++ [NL]) = [l ++ [NL]] := by
  rw [linesOf_line l [] h, linesOf_nil]

theorem linesOf_rest (l : Bytes) (h : NL ∉ l) (h0 : l ≠ []) : linesOf l = [l] := by
  unfold linesOf
  rw [splitAfterNL_noNL l h]
  simp [h0]

/-- A text that is empty or ends with a newline is a sequence of complete lines. -/
theorem complete_lines (a : Bytes) (h : a = [] ∨ a.getLast? = some NL) :
    ∃ ls : List Bytes, (∀ l ∈ ls, NL ∉ l) ∧ a = (ls.map (· ++ [NL])).flatten := by
  generalize hn : a.length = n
  induction n using Nat.strongRecOn generalizing a with
  | ind n ih =>
    cases a with
    | nil => exact ⟨[], by simp, rfl⟩
    | cons c cs =>
      have hl : (c :: cs).getLast? = some NL := h.resolve_left (by simp)
      have hm : NL ∈ c :: cs := List.mem_of_getLast? hl
      obtain ⟨pre, post, hp, hnp⟩ : ∃ pre post, c :: cs = pre ++ NL :: post ∧ NL ∉ pre := by
        clear ih hn hl h
        generalize c :: cs = l at hm
        induction l with
        | nil => simp at hm
        | cons x xs ih =>
          by_cases hx : x = NL
          · exact ⟨[], xs, by simp [hx], by simp⟩
          · obtain ⟨pre, post, h1, h2⟩ := ih ((List.mem_cons.1 hm).resolve_left (fun h => hx h.symm))
            exact ⟨x :: pre, post, by simp [h1], by simp [h2]; exact fun h => hx h.symm⟩
      rw [hp] at hl hn ⊢
      have hpost : post = [] ∨ post.getLast? = some NL := by
        cases post with
        | nil => exact Or.inl rfl
        | cons y ys =>
          right
          rw [List.getLast?_append] at hl
          rw [List.getLast?_cons_cons] at hl
          cases hg : (y :: ys).getLast? with
          | none => simp at hg
          | some z => rw [hg] at hl; simpa using hl
      obtain ⟨ls, h1, h2⟩ := ih post.length (by rw [← hn]; simp; omega) post hpost rfl
      refine ⟨pre :: ls, ?_, ?_⟩
      · intro l hl
        rcases List.mem_cons.1 hl with rfl | hl
        · exact hnp
        · exact h1 l hl
      · simp [← h2]

/-- Lines are not merged when what comes first is complete. -/
theorem linesOf_append (a b : Bytes) (h : a = [] ∨ a.getLast? = some NL) :
    linesOf (a ++ b) = linesOf a ++ linesOf b := by
  obtain ⟨ls, h1, rfl⟩ := complete_lines a h
  clear h
  have key : ∀ (ls : List Bytes) (b : Bytes), (∀ l ∈ ls, NL ∉ l) →
      linesOf ((ls.map (· ++ [NL])).flatten ++ b) = ls.map (· ++ [NL]) ++ linesOf b := by
    intro ls b
    induction ls with
    | nil => intro _; rfl
    | cons l ls ih =>
      intro h1
      simp only [List.map_cons, List.flatten_cons, List.append_assoc, List.cons_append, List.nil_append]
      rw [linesOf_line _ _ (h1 l (by simp)), ih (fun x hx => h1 x (by simp [hx]))]
  have := key ls [] h1
  rw [List.append_nil, linesOf_nil, List.append_nil] at this
  rw [key ls b h1, this]

theorem linesOf_flatten_complete (cs : List Bytes) (h : ∀ c ∈ cs, c = [] ∨ c.getLast? = some NL) :
    linesOf cs.flatten = cs.flatMap linesOf := by
  induction cs with
  | nil => rfl
  | cons c cs ih =>
    rw [List.flatten_cons, linesOf_append c _ (h c (by simp)), ih (fun x hx => h x (by simp [hx]))]
    rfl

theorem linesOf_mem_ne_nil {b l : Bytes} (h : l ∈ linesOf b) : l ≠ [] := by
  unfold linesOf at h
  simpa using (List.mem_filter.1 h).2

theorem linesOf_complete (a : Bytes) (h : a = [] ∨ a.getLast? = some NL) :
    ∀ l ∈ linesOf a, ∃ body, NL ∉ body ∧ l = body ++ [NL] := by
  obtain ⟨ls, h1, rfl⟩ := complete_lines a h
  clear h
  induction ls with
  | nil => intro l hl; cases hl
  | cons x ls ih =>
    intro l hl
    simp only [List.map_cons, List.flatten_cons, List.append_assoc, List.cons_append, List.nil_append] at hl
    rw [linesOf_line _ _ (h1 x (by simp)), List.mem_cons] at hl
    rcases hl with rfl | hl
    · exact ⟨x, h1 x (by simp), rfl⟩
    · exact ih (fun y hy => h1 y (by simp [hy])) l hl

end Spout
