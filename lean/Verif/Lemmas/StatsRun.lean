import Verif.Lemmas.Stats

set_option linter.unusedSimpArgs false

namespace Spout.Counters

open Spout.Spec

/-! ## One counter in a sequential run -/

/-- Number of increments of counter `i`. -/
def incsIn (L : List (Op × Nat)) (i : Nat) : Nat := L.countP (fun e => decide (e.1 = .inc i))

/-- Values offered to counter `i`. -/
def offersIn (L : List (Op × Nat)) (i : Nat) : List Nat :=
  L.filterMap fun e => match e.1 with
    | .max j v => if j = i then some v else none
    | _ => none

theorem seqRun_append {c c' : List Nat} {L1 L2 : List (Op × Nat)} :
    SeqRun c (L1 ++ L2) c' ↔ ∃ m, SeqRun c L1 m ∧ SeqRun m L2 c' := by
  induction L1 generalizing c with
  | nil =>
    constructor
    · intro h; exact ⟨c, .nil, h⟩
    · rintro ⟨m, h1, h2⟩; cases h1; exact h2
  | cons e L1 ih =>
    obtain ⟨op, r⟩ := e
    rw [List.cons_append]
    constructor
    · intro h
      cases h with
      | cons h1 h2 =>
        obtain ⟨m, h3, h4⟩ := ih.1 h2
        exact ⟨m, .cons h1 h3, h4⟩
    · rintro ⟨m, h1, h2⟩
      cases h1 with
      | cons h3 h4 => exact .cons h3 (ih.2 ⟨m, h4, h2⟩)

theorem get_set_self {c : List Nat} {i v x : Nat} (h : c[i]? = some v) : (c.set i x)[i]? = some x := by
  obtain ⟨hl, -⟩ := List.getElem?_eq_some_iff.1 h
  simp [hl]

theorem get_set_ne {c : List Nat} {i j x : Nat} (h : j ≠ i) : (c.set j x)[i]? = c[i]? := by
  rw [List.getElem?_set]
  simp [h]

theorem seqStep_other {c c' : List Nat} {op : Op} {r i : Nat} (h : SeqStep c op r c') (h1 : op ≠ .inc i)
    (h2 : ∀ v, op ≠ .max i v) : c'[i]? = c[i]? := by
  cases h with
  | get _ => rfl
  | @inc j v hj =>
    apply get_set_ne
    intro e; subst e; exact h1 rfl
  | @max j v x hj =>
    apply get_set_ne
    intro e; subst e; exact h2 x rfl

theorem incsIn_cons (op : Op) (r : Nat) (L : List (Op × Nat)) (i : Nat) :
    incsIn ((op, r) :: L) i = incsIn L i + if op = .inc i then 1 else 0 := by
  unfold incsIn
  rw [List.countP_cons]
  by_cases h : op = .inc i <;> simp [h]

theorem offersIn_max (v r : Nat) (L : List (Op × Nat)) (i : Nat) :
    offersIn ((.max i v, r) :: L) i = v :: offersIn L i := by
  simp [offersIn]

theorem offersIn_other (op : Op) (r : Nat) (L : List (Op × Nat)) (i : Nat) (h : ∀ v, op ≠ .max i v) :
    offersIn ((op, r) :: L) i = offersIn L i := by
  unfold offersIn
  rw [List.filterMap_cons]
  cases op with
  | max j v =>
    have : j ≠ i := by intro e; subst e; exact h v rfl
    simp [this]
  | _ => rfl

/-- Only increments: the counter counts them. -/
theorem seqRun_inc {c c' : List Nat} {L : List (Op × Nat)} {i v : Nat} (h : SeqRun c L c') (hn : offersIn L i = [])
    (hv : c[i]? = some v) (hlt : v < twoTo64) : c'[i]? = some ((v + incsIn L i) % twoTo64) := by
  induction h generalizing v with
  | nil =>
    rw [hv]; simp [incsIn, Nat.mod_eq_of_lt hlt]
  | @cons c c1 c2 op r L hs _ ih =>
    by_cases h1 : op = .inc i
    · subst h1
      rw [offersIn_other _ _ _ _ (by intro v; simp)] at hn
      cases hs with
      | inc hj =>
        rw [hv] at hj; injection hj with hj; subst hj
        rw [ih hn (get_set_self hv) (Nat.mod_lt _ (by decide)), incsIn_cons, if_pos rfl, Nat.mod_add_mod]
        congr 2
        omega
    · have h2 : ∀ x, op ≠ .max i x := by
        intro x e; subst e
        rw [offersIn_max] at hn; cases hn
      rw [offersIn_other _ _ _ _ h2] at hn
      rw [incsIn_cons, if_neg h1]
      exact ih hn (by rw [seqStep_other hs h1 h2]; exact hv) hlt

/-- Result of an increment in such a run. -/
theorem seqRun_inc_result {c c' : List Nat} {L1 L2 : List (Op × Nat)} {i v r : Nat}
    (h : SeqRun c (L1 ++ (.inc i, r) :: L2) c') (hn : offersIn L1 i = []) (hv : c[i]? = some v) (hlt : v < twoTo64) :
    r = (v + incsIn L1 i + 1) % twoTo64 := by
  obtain ⟨m, h1, h2⟩ := seqRun_append.1 h
  have hm := seqRun_inc h1 hn hv hlt
  cases h2 with
  | cons hs _ =>
    cases hs with
    | inc hj =>
      rw [hm] at hj; injection hj with hj
      rw [← hj, Nat.mod_add_mod]

/-- Values are bounded by the largest offer plus the number of increments. -/
theorem seqRun_bound {c c' : List Nat} {L : List (Op × Nat)} {i v M : Nat} (h : SeqRun c L c')
    (hM : ∀ x ∈ offersIn L i, x ≤ M) (hv : c[i]? = some v) (hle : v ≤ M) :
    ∃ v', c'[i]? = some v' ∧ v' ≤ M + incsIn L i := by
  have gen : ∀ {c c' : List Nat} {L : List (Op × Nat)}, SeqRun c L c' → ∀ {v k : Nat}, (∀ x ∈ offersIn L i, x ≤ M) →
      c[i]? = some v → v ≤ M + k → ∃ v', c'[i]? = some v' ∧ v' ≤ M + k + incsIn L i := by
    intro c c' L h
    induction h with
    | nil => intro v k _ hv hle; exact ⟨v, hv, by omega⟩
    | @cons c c1 c2 op r L hs _ ih =>
      intro v k hM hv hle
      by_cases h1 : op = .inc i
      · subst h1
        rw [offersIn_other _ _ _ _ (by intro v; simp)] at hM
        cases hs with
        | inc hj =>
          rw [hv] at hj; injection hj with hj; subst hj
          have hmod : (v + 1) % twoTo64 ≤ M + (k + 1) := by
            have := Nat.mod_le (v + 1) twoTo64
            omega
          obtain ⟨v', g1, g2⟩ := ih (k := k + 1) hM (get_set_self hv) hmod
          refine ⟨v', g1, ?_⟩
          rw [incsIn_cons, if_pos rfl]
          omega
      · rw [incsIn_cons, if_neg h1]
        by_cases h2 : ∃ x, op = .max i x
        · obtain ⟨x, rfl⟩ := h2
          rw [offersIn_max] at hM
          cases hs with
          | max _ hj =>
            rw [hv] at hj; injection hj with hj; subst hj
            have hx := hM x (by simp)
            exact ih (k := k) (fun y hy => hM y (by simp [hy])) (get_set_self hv)
              (by show Max.max v x ≤ M + k; omega)
        · have h2' : ∀ x, op ≠ .max i x := fun x e => h2 ⟨x, e⟩
          rw [offersIn_other _ _ _ _ h2'] at hM
          exact ih (k := k) hM (by rw [seqStep_other hs h1 h2']; exact hv) hle
  obtain ⟨v', g1, g2⟩ := gen h (v := v) (k := 0) hM hv (by omega)
  exact ⟨v', g1, by omega⟩

theorem largest_le {l : List Nat} {x : Nat} (h : x ∈ l) : x ≤ largest l := by
  induction l with
  | nil => cases h
  | cons y l ih =>
    rcases List.mem_cons.1 h with rfl | h
    · show x ≤ Max.max x _; omega
    · have := ih h; show x ≤ Max.max y (largest l); omega

theorem largest_mem {l : List Nat} (h : l ≠ []) : largest l ∈ l := by
  induction l with
  | nil => exact absurd rfl h
  | cons y l ih =>
    by_cases hl : l = []
    · subst hl
      show Max.max y 0 ∈ _
      simp
    · have := ih hl
      by_cases hc : largest l ≤ y
      · have : largest (y :: l) = y := by show Max.max y (largest l) = y; omega
        rw [this]; simp
      · have e : largest (y :: l) = largest l := by show Max.max y (largest l) = _; omega
        rw [e]; exact List.mem_cons_of_mem _ this

/-- Only `Max`: the counter is the largest value offered. -/
theorem seqRun_max {c c' : List Nat} {L : List (Op × Nat)} {i v : Nat} (h : SeqRun c L c') (hn : incsIn L i = 0)
    (hv : c[i]? = some v) : c'[i]? = some (Max.max v (largest (offersIn L i))) := by
  induction h generalizing v with
  | nil => rw [hv]; simp [offersIn, largest]
  | @cons c c1 c2 op r L hs _ ih =>
    rw [incsIn_cons] at hn
    by_cases h1 : op = .inc i
    · rw [if_pos h1] at hn; omega
    · rw [if_neg h1] at hn
      by_cases h2 : ∃ x, op = .max i x
      · obtain ⟨x, rfl⟩ := h2
        rw [offersIn_max]
        cases hs with
        | max _ hj =>
          rw [hv] at hj; injection hj with hj; subst hj
          rw [ih hn (get_set_self hv)]
          congr 1
          show Max.max (Max.max v x) (largest (offersIn L i)) = Max.max v (Max.max x (largest (offersIn L i)))
          omega
      · have h2' : ∀ x, op ≠ .max i x := fun x e => h2 ⟨x, e⟩
        rw [offersIn_other _ _ _ _ h2']
        exact ih hn (by rw [seqStep_other hs h1 h2']; exact hv)

/-! ## Calls of a history -/

/-- The calls of a history. -/
def invIds (H : List Ev) : List Nat :=
  H.filterMap fun e => match e with
    | .inv id _ => some id
    | _ => none

theorem mem_invIds {H : List Ev} {id : Nat} : id ∈ invIds H ↔ ∃ op, .inv id op ∈ H := by
  unfold invIds
  rw [List.mem_filterMap]
  constructor
  · rintro ⟨e, he, h⟩
    cases e with
    | inv j op => simp at h; subst h; exact ⟨op, he⟩
    | act j => simp at h
    | ret j r => simp at h
  · rintro ⟨op, h⟩
    exact ⟨_, h, rfl⟩

theorem exec_invIds_nodup {n : Nat} {H : List Ev} {s : St} (h : Exec (newAnon n) H s) : (invIds H).Nodup := by
  induction h with
  | nil => simp [invIds]
  | @snoc H s s' e hx hs ih =>
    obtain ⟨L, hi⟩ := exec_linv hx
    have he : invIds (H ++ [e]) = invIds H ++ invIds [e] := by simp [invIds, List.filterMap_append]
    rw [he]
    cases hs with
    | @inv id op hnone =>
      rw [show invIds [.inv id op] = [id] from rfl, List.nodup_append]
      refine ⟨ih, by simp, ?_⟩
      intro a ha b hb hab
      simp at hb
      subst hb; subst hab
      obtain ⟨o, ho⟩ := mem_invIds.1 ha
      exact (hi.fresh a hnone).1 o ho
    | act => rw [show invIds [Ev.act _] = [] from rfl]; simpa using ih
    | ret => rw [show invIds [Ev.ret _ _] = [] from rfl]; simpa using ih

theorem mem_incCalls {H : List Ev} {i id : Nat} : id ∈ incCalls H i ↔ .inv id (.inc i) ∈ H := by
  unfold incCalls
  rw [List.mem_filterMap]
  constructor
  · rintro ⟨e, he, h⟩
    cases e with
    | inv j op =>
      cases op with
      | inc k =>
        by_cases hk : k = i
        · subst hk
          simp at h
          subst h
          exact he
        · simp [hk] at h
      | _ => simp at h
    | act j => simp at h
    | ret j r => simp at h
  · intro h
    exact ⟨_, h, by simp⟩

theorem mem_offered {H : List Ev} {i v : Nat} : v ∈ offered H i ↔ ∃ id, .inv id (.max i v) ∈ H := by
  unfold offered
  rw [List.mem_filterMap]
  constructor
  · rintro ⟨e, he, h⟩
    cases e with
    | inv j op =>
      cases op with
      | max k w =>
        by_cases hk : k = i
        · subst hk
          simp at h
          subst h
          exact ⟨j, he⟩
        · simp [hk] at h
      | _ => simp at h
    | act j => simp at h
    | ret j r => simp at h
  · rintro ⟨id, h⟩
    exact ⟨_, h, by simp⟩

theorem mem_offersIn {L : List (Op × Nat)} {i v : Nat} : v ∈ offersIn L i ↔ ∃ r, (.max i v, r) ∈ L := by
  unfold offersIn
  rw [List.mem_filterMap]
  constructor
  · rintro ⟨⟨op, r⟩, he, h⟩
    cases op with
    | max k w =>
      by_cases hk : k = i
      · subst hk
        simp at h
        subst h
        exact ⟨r, he⟩
      · simp [hk] at h
    | _ => simp at h
  · rintro ⟨r, h⟩
    exact ⟨_, h, by simp⟩

theorem incCalls_sublist (H : List Ev) (i : Nat) : (incCalls H i).Sublist (invIds H) := by
  induction H with
  | nil => exact .slnil
  | cons e H ih =>
    unfold incCalls invIds
    rw [List.filterMap_cons, List.filterMap_cons]
    cases e with
    | inv j op =>
      cases op with
      | inc k =>
        by_cases hk : k = i
        · simp [hk]; exact ih
        · simp [hk]; exact ih.cons _
      | _ => simp; exact ih.cons _
    | act j => exact ih
    | ret j r => exact ih

theorem hasReturned_iff {H : List Ev} {id : Nat} : hasReturned H id = true ↔ ∃ r, .ret id r ∈ H := by
  unfold hasReturned
  rw [List.any_eq_true]
  constructor
  · rintro ⟨e, he, h⟩
    cases e with
    | ret j r => simp at h; subst h; exact ⟨r, he⟩
    | inv j op => simp at h
    | act j => simp at h
  · rintro ⟨r, h⟩
    exact ⟨_, h, by simp⟩

/-- The increments of a linearization, by call. -/
def incIdsIn (L : List (Nat × Op × Nat)) (i : Nat) : List Nat := (L.filter fun e => decide (e.2.1 = .inc i)).map (·.1)

theorem incIdsIn_length (L : List (Nat × Op × Nat)) (i : Nat) : (incIdsIn L i).length = incsIn (L.map (·.2)) i := by
  unfold incIdsIn incsIn
  rw [List.length_map, List.countP_map, List.countP_eq_length_filter]
  rfl

theorem incIdsIn_nodup {L : List (Nat × Op × Nat)} (h : (L.map (·.1)).Nodup) (i : Nat) : (incIdsIn L i).Nodup :=
  h.sublist (List.filter_sublist.map _)

end Spout.Counters
