import Verif.Lemmas.StatsRun

set_option linter.unusedSimpArgs false

/-! # Properties of the counters (C58, C59, C60) -/

namespace Spout.Counters

open Spout.Spec

/-! ## C58 -/

/-- **C58, C59.** Every interleaving of calls of `Get`, `Inc`, `Max` and
`Snapshot` looks as if the calls of `Get`, `Inc` and `Max` were made one after
the other, each at some point while it was in progress. -/
theorem C58_calls_linearizable {n : Nat} {H : List Ev} {s : St} (h : Exec (newAnon n) H s) :
    ∃ L, Linearization n H s.counts L := by
  obtain ⟨L, hi⟩ := exec_linv h
  exact ⟨L, hi.lin⟩

theorem offersIn_nil_of {n : Nat} {H : List Ev} {c : List Nat} {L : List (Nat × Op × Nat)} (hl : Linearization n H c L)
    {i : Nat} (hn : offered H i = []) : offersIn (L.map (·.2)) i = [] := by
  apply List.eq_nil_iff_forall_not_mem.2
  intro v hv
  obtain ⟨r, hr⟩ := mem_offersIn.1 hv
  obtain ⟨x, hx, e⟩ := List.mem_map.1 hr
  have := hl.called x hx
  rw [e] at this
  have : v ∈ offered H i := mem_offered.2 ⟨_, this⟩
  rw [hn] at this
  cases this

theorem incsIn_le {n : Nat} {H : List Ev} {c : List Nat} {L : List (Nat × Op × Nat)} (hl : Linearization n H c L) (i : Nat) :
    incsIn (L.map (·.2)) i ≤ (incCalls H i).length := by
  rw [← incIdsIn_length]
  apply (incIdsIn_nodup hl.once i).length_le_of_subset
  intro id hid
  obtain ⟨x, hx, rfl⟩ := List.mem_map.1 hid
  rw [List.mem_filter] at hx
  have h2 := of_decide_eq_true hx.2
  rw [mem_incCalls]
  have := hl.called x hx.1
  rw [h2] at this
  exact this

theorem replicate_get {n i : Nat} (h : i < n) : (List.replicate n 0)[i]? = some 0 := by simp [h]

/-- Which calls return what kind of result. -/
theorem ret_val {n : Nat} {H : List Ev} {s : St} (h : Exec (newAnon n) H s) {id : Nat} {op : Op} {r : Res}
    (hinv : .inv id op ∈ H) (hop : ∀ o, op ≠ .snapshot o) (hret : .ret id r ∈ H) : ∃ v, r = .val v := by
  induction h with
  | nil => cases hinv
  | @snoc H s s' e hx hs ih =>
    obtain ⟨L, hi⟩ := exec_linv hx
    rcases List.mem_append.1 hinv with h1 | h1 <;> rcases List.mem_append.1 hret with h2 | h2
    · exact ih h1 h2
    · simp at h2
      subst h2
      cases hs with
      | ret hpc =>
        obtain ⟨o, g1, g2⟩ := hi.place _ _ hpc
        cases r with
        | val v => exact ⟨v, rfl⟩
        | vals vs =>
          obtain ⟨k, rfl⟩ := g2
          exact absurd (hi.one _ _ _ h1 g1) (hop k)
    · simp at h1
      subst h1
      cases hs with
      | inv _ hnone => exact absurd h2 ((hi.fresh _ hnone).2 r)
    · simp at h1 h2
      rw [← h1] at h2
      cases h2

theorem inc_in_L {n : Nat} {H : List Ev} {s : St} (h : Exec (newAnon n) H s) {L : List (Nat × Op × Nat)}
    (hl : Linearization n H s.counts L) {id : Nat} {op : Op} {r : Res}
    (hinv : .inv id op ∈ H) (hop : ∀ o, op ≠ .snapshot o) (hret : .ret id r ∈ H) :
    ∃ v, r = .val v ∧ (id, op, v) ∈ L := by
  obtain ⟨v, rfl⟩ := ret_val h hinv hop hret
  obtain ⟨o, ho⟩ := hl.returned id v hret
  obtain ⟨L0, hi⟩ := exec_linv h
  have := hi.one id o op (hl.called _ ho) hinv
  subst this
  exact ⟨v, rfl, ho⟩

/-- **C58.** If `Max` is not used on counter `i`, the counter is the number `k` of increments (modulo
2^64), where `k` is at least the number of calls of `Inc` that have returned and
at most the number that have begun. -/
theorem C58_no_increment_lost {n : Nat} {H : List Ev} {s : St} (h : Exec (newAnon n) H s) {i : Nat} (hi : i < n)
    (hn : offered H i = []) :
    ∃ k, s.counts[i]? = some (k % twoTo64) ∧ ((incCalls H i).filter (hasReturned H)).length ≤ k ∧
      k ≤ (incCalls H i).length := by
  obtain ⟨L, hl⟩ := C58_calls_linearizable h
  refine ⟨incsIn (L.map (·.2)) i, ?_, ?_, incsIn_le hl i⟩
  · have := seqRun_inc hl.legal (offersIn_nil_of hl hn) (replicate_get hi) (by decide)
    rw [this]; simp
  · rw [← incIdsIn_length]
    have hnd : ((incCalls H i).filter (hasReturned H)).Nodup :=
      ((exec_invIds_nodup h).sublist (incCalls_sublist H i)).sublist List.filter_sublist
    apply hnd.length_le_of_subset
    intro id hid
    rw [List.mem_filter, mem_incCalls] at hid
    obtain ⟨r, hr⟩ := hasReturned_iff.1 hid.2
    obtain ⟨v, -, hv⟩ := inc_in_L h hl hid.1 (by intro o; simp) hr
    exact List.mem_map.2 ⟨_, List.mem_filter.2 ⟨hv, by simp⟩, rfl⟩

/-- **C58.** When no call is in progress the counter is exactly the number of
calls of `Inc` (modulo 2^64). -/
theorem C58_exact_when_quiet {n : Nat} {H : List Ev} {s : St} (h : Exec (newAnon n) H s) {i : Nat} (hi : i < n)
    (hn : offered H i = []) (hq : NoneInProgress H) : s.counts[i]? = some ((incCalls H i).length % twoTo64) := by
  obtain ⟨k, h1, h2, h3⟩ := C58_no_increment_lost h hi hn
  have : (incCalls H i).filter (hasReturned H) = incCalls H i := by
    rw [List.filter_eq_self]
    intro id hid
    exact hq id _ (mem_incCalls.1 hid)
  rw [this] at h2
  rw [h1, Nat.le_antisymm h3 h2]

theorem incsIn_append (A B : List (Op × Nat)) (i : Nat) : incsIn (A ++ B) i = incsIn A i + incsIn B i := by
  unfold incsIn; rw [List.countP_append]

/-- The result of an increment that took effect. -/
theorem inc_result {n : Nat} {H : List Ev} {c : List Nat} {L1 L2 : List (Nat × Op × Nat)} {id r i : Nat}
    (hl : Linearization n H c (L1 ++ (id, .inc i, r) :: L2)) (hi : i < n)
    (hn : offered H i = []) (hfew : (incCalls H i).length < twoTo64) :
    r = incsIn (L1.map (·.2)) i + 1 ∧ incsIn (L1.map (·.2)) i + 1 ≤ (incCalls H i).length := by
  have hleg := hl.legal
  have hoff := offersIn_nil_of hl hn
  have hle := incsIn_le hl i
  rw [List.map_append, List.map_cons] at hleg hoff hle
  rw [incsIn_append, incsIn_cons, if_pos rfl] at hle
  have hoff1 : offersIn (L1.map (·.2)) i = [] := by
    unfold offersIn at hoff ⊢
    rw [List.filterMap_append] at hoff
    exact (List.append_eq_nil_iff.1 hoff).1
  have := seqRun_inc_result hleg hoff1 (replicate_get hi) (by decide)
  rw [Nat.mod_eq_of_lt (by omega)] at this
  omega

/-- **C58.** Fewer than 2^64 increments: two calls of `Inc` on the same counter
return different values, in the order of the calls if they did not overlap, and
every value is between 1 and the number of calls. -/
theorem C58_distinct_results {n : Nat} {H : List Ev} {s : St} (h : Exec (newAnon n) H s) {i : Nat} (hi : i < n)
    (hn : offered H i = []) (hfew : (incCalls H i).length < twoTo64) {a b : Nat} {ra rb : Res} (hab : a ≠ b)
    (ha : .inv a (.inc i) ∈ H) (hb : .inv b (.inc i) ∈ H) (hra : .ret a ra ∈ H) (hrb : .ret b rb ∈ H) :
    ∃ va vb, ra = .val va ∧ rb = .val vb ∧ va ≠ vb ∧ (Before H a b → va < vb) ∧
      1 ≤ va ∧ va ≤ (incCalls H i).length := by
  obtain ⟨L, hl⟩ := C58_calls_linearizable h
  obtain ⟨va, rfl, hva⟩ := inc_in_L h hl ha (by intro o; simp) hra
  obtain ⟨vb, rfl, hvb⟩ := inc_in_L h hl hb (by intro o; simp) hrb
  have idOne : ∀ {x y : Nat × Op × Nat}, x ∈ L → y ∈ L → x.1 = y.1 → x = y := by
    intro x y hx hy hxy
    obtain ⟨A, B, rfl⟩ := List.append_of_mem hx
    have hon := hl.once
    rw [List.map_append, List.map_cons, List.nodup_append, List.nodup_cons] at hon
    rcases List.mem_append.1 hy with hy | hy
    · exact absurd hxy.symm (hon.2.2 y.1 (List.mem_map.2 ⟨y, hy, rfl⟩) x.1 (by simp))
    · rcases List.mem_cons.1 hy with rfl | hy
      · rfl
      · exact absurd (List.mem_map.2 ⟨y, hy, hxy.symm⟩) hon.2.1.1
  have order : ∀ {a b va vb : Nat} {A B : List (Nat × Op × Nat)}, a ≠ b → L = A ++ (a, .inc i, va) :: B →
      (b, .inc i, vb) ∈ B → va < vb := by
    intro a b va vb A B _ e hm
    obtain ⟨C, D, rfl⟩ := List.append_of_mem hm
    have l1 := hl; have l2 := hl
    rw [e] at l1
    rw [show L = (A ++ (a, .inc i, va) :: C) ++ (b, .inc i, vb) :: D by rw [e]; simp] at l2
    have r1 := (inc_result l1 hi hn hfew).1
    have r2 := (inc_result l2 hi hn hfew).1
    rw [List.map_append, List.map_cons, incsIn_append, incsIn_cons, if_pos rfl] at r2
    omega
  obtain ⟨A, B, e⟩ := List.append_of_mem hva
  have hla := hl
  rw [e] at hla
  have hbnd := inc_result hla hi hn hfew
  refine ⟨va, vb, rfl, rfl, ?_, ?_, by omega, by omega⟩
  · rw [e] at hvb
    rcases List.mem_append.1 hvb with hm | hm
    · obtain ⟨C, D, hC⟩ := List.append_of_mem hm
      have := order (a := b) (b := a) (va := vb) (vb := va) (A := C) (B := D ++ (a, .inc i, va) :: B) (Ne.symm hab)
        (by rw [e, hC]; simp) (by simp)
      omega
    · rcases List.mem_cons.1 hm with hm | hm
      · injection hm with hm _; exact absurd hm.symm hab
      · have := order hab e hm
        omega
  · intro hbef
    obtain ⟨L1, L2, L3, hL⟩ := hl.realTime a b hbef (List.mem_map.2 ⟨_, hva, rfl⟩) (List.mem_map.2 ⟨_, hvb, rfl⟩)
    rw [List.append_assoc, List.cons_append] at hL
    obtain ⟨A', R', e1, e2, e3⟩ := List.map_eq_append_iff.1 hL
    obtain ⟨x, R2, e4, e5, e6⟩ := List.map_eq_cons_iff.1 e3
    obtain ⟨B', R3, e7, e8, e9⟩ := List.map_eq_append_iff.1 e6
    obtain ⟨y, R4, e10, e11, e12⟩ := List.map_eq_cons_iff.1 e9
    subst e10; subst e7; subst e4
    have hx : x = (a, .inc i, va) := idOne (by rw [e1]; simp) hva e5
    have hy : y = (b, .inc i, vb) := idOne (by rw [e1]; simp) hvb e11
    exact order hab (A := A') (B := B' ++ y :: R4) (by rw [e1, hx]) (by rw [hy]; simp)

/-! ### Counters never go backwards -/

theorem exec_snoc_inv {s0 s' : St} {H : List Ev} {e : Ev} (h : Exec s0 (H ++ [e]) s') :
    ∃ s, Exec s0 H s ∧ Step s e s' := by
  generalize hx : H ++ [e] = X at h
  cases h with
  | nil => cases H <;> cases hx
  | @snoc H' s1 _ e' h1 h2 =>
    obtain ⟨rfl, he⟩ := List.append_inj' hx rfl
    injection he with he
    subst he
    exact ⟨s1, h1, h2⟩

theorem incCalls_append (A B : List Ev) (i : Nat) : incCalls (A ++ B) i = incCalls A i ++ incCalls B i := by
  simp [incCalls, List.filterMap_append]
theorem offered_append (A B : List Ev) (i : Nat) : offered (A ++ B) i = offered A i ++ offered B i := by
  simp [offered, List.filterMap_append]

theorem largest_mono {l l' : List Nat} (h : l ⊆ l') : largest l ≤ largest l' := by
  by_cases hl : l = []
  · subst hl; exact Nat.zero_le _
  · exact largest_le (h (largest_mem hl))

theorem noWrap_prefix {A B : List Ev} {i : Nat} (h : NoWrap (A ++ B) i) : NoWrap A i := by
  unfold NoWrap at *
  rw [incCalls_append, offered_append, List.length_append] at h
  have := largest_mono (l := offered A i) (l' := offered A i ++ offered B i) (by intro x hx; simp [hx])
  omega

theorem step_mono {n : Nat} {H : List Ev} {s s' : St} {e : Ev} (h : Exec (newAnon n) H s) (hs : Step s e s') {i v : Nat}
    (hn : i < n) (hw : NoWrap (H ++ [e]) i) (hv : s.counts[i]? = some v) : ∃ v', s'.counts[i]? = some v' ∧ v ≤ v' := by
  obtain ⟨L, hi⟩ := exec_linv h
  obtain ⟨L', hi', h1 | ⟨id, p, op, r, -, -, -, hL, -, hseq⟩⟩ := linv_step hi hs
  · exact ⟨v, by rw [h1.2]; exact hv, Nat.le_refl _⟩
  · by_cases h1 : op = .inc i
    · subst h1
      have hle := incsIn_le hi'.lin i
      rw [hL, List.map_append, List.map_cons, List.map_nil, incsIn_append, incsIn_cons, if_pos rfl] at hle
      obtain ⟨w, g1, g2⟩ := seqRun_bound hi.lin.legal (M := largest (offered H i)) (by
        intro x hx
        obtain ⟨r', hr'⟩ := mem_offersIn.1 hx
        obtain ⟨y, hy, e'⟩ := List.mem_map.1 hr'
        have := hi.lin.called y hy
        rw [e'] at this
        exact largest_le (mem_offered.2 ⟨_, this⟩)) (replicate_get hn) (Nat.zero_le _)
      rw [hv] at g1; injection g1 with g1; subst g1
      unfold NoWrap at hw
      have hm : largest (offered H i) ≤ largest (offered (H ++ [e]) i) := largest_mono (by
        rw [offered_append]; intro x hx; simp [hx])
      have hlt : v + 1 < twoTo64 := by
        have : incsIn [] i = 0 := rfl
        omega
      generalize s'.counts = c' at hseq ⊢
      cases hseq with
      | inc hj =>
        rw [hv] at hj; injection hj with hj; subst hj
        exact ⟨_, get_set_self hv, by rw [Nat.mod_eq_of_lt hlt]; omega⟩
    · by_cases h2 : ∃ x, op = .max i x
      · obtain ⟨x, rfl⟩ := h2
        generalize s'.counts = c' at hseq ⊢
        cases hseq with
        | max _ hj =>
          rw [hv] at hj; injection hj with hj; subst hj
          exact ⟨_, get_set_self hv, by show v ≤ Max.max v x; omega⟩
      · exact ⟨v, by rw [seqStep_other hseq h1 (fun x e => h2 ⟨x, e⟩)]; exact hv, Nat.le_refl _⟩

theorem list_rev_induction {α : Type} {P : List α → Prop} (h0 : P []) (h1 : ∀ l x, P l → P (l ++ [x])) : ∀ l, P l := by
  intro l
  have : ∀ k (l : List α), l.length = k → P l := by
    intro k
    induction k with
    | zero => intro l hl; rw [List.length_eq_zero_iff.1 hl]; exact h0
    | succ k ih =>
      intro l hl
      rcases List.eq_nil_or_concat l with rfl | ⟨t, x, rfl⟩
      · exact h0
      · rw [List.concat_eq_append] at hl ⊢
        rw [List.length_append] at hl
        exact h1 t x (ih t (by simpa using hl))
  exact this _ l rfl

/-- **C58, C59.** A counter that has not overflowed never goes backwards: at
every earlier moment of a history it was at most what it is at the end. -/
theorem C58_never_backwards {n : Nat} {H1 H2 : List Ev} {s : St} (h : Exec (newAnon n) (H1 ++ H2) s) {i : Nat} (hi : i < n)
    (hw : NoWrap (H1 ++ H2) i) :
    ∃ s1 v1 v, Exec (newAnon n) H1 s1 ∧ s1.counts[i]? = some v1 ∧ s.counts[i]? = some v ∧ v1 ≤ v := by
  revert s
  induction H2 using list_rev_induction with
  | h0 =>
    intro s h
    rw [List.append_nil] at h
    obtain ⟨L, hinv⟩ := exec_linv h
    have hl : i < s.counts.length := by rw [hinv.size]; exact hi
    exact ⟨s, s.counts[i], s.counts[i], h, by simp [hl], by simp [hl], Nat.le_refl _⟩
  | h1 H2 e ih =>
    intro s h
    rw [← List.append_assoc] at h hw
    obtain ⟨sm, h1, h2⟩ := exec_snoc_inv h
    obtain ⟨s1, v1, v, g1, g2, g3, g4⟩ := ih (noWrap_prefix hw) h1
    obtain ⟨v', k1, k2⟩ := step_mono h1 h2 hi hw g3
    exact ⟨s1, v1, v', g1, g2, k1, by omega⟩

/-! ## C59 -/

/-- **C59.** When no call is in progress, a counter on which only `Max` was used
is the largest value offered. -/
theorem C59_largest_when_quiet {n : Nat} {H : List Ev} {s : St} (h : Exec (newAnon n) H s) {i : Nat} (hi : i < n)
    (hn : incCalls H i = []) (hq : NoneInProgress H) : s.counts[i]? = some (largest (offered H i)) := by
  obtain ⟨L, hl⟩ := C58_calls_linearizable h
  have hz : incsIn (L.map (·.2)) i = 0 := by
    have := incsIn_le hl i
    rw [hn] at this
    exact Nat.le_zero.1 this
  rw [seqRun_max hl.legal hz (replicate_get hi)]
  congr 1
  rw [Nat.zero_max]
  apply Nat.le_antisymm
  · apply largest_mono
    intro v hv
    obtain ⟨r', hr'⟩ := mem_offersIn.1 hv
    obtain ⟨y, hy, e'⟩ := List.mem_map.1 hr'
    have := hl.called y hy
    rw [e'] at this
    exact mem_offered.2 ⟨_, this⟩
  · apply largest_mono
    intro v hv
    obtain ⟨id, hid⟩ := mem_offered.1 hv
    obtain ⟨r, hr⟩ := hasReturned_iff.1 (hq id _ hid)
    obtain ⟨w, -, hw⟩ := inc_in_L h hl hid (by intro o; simp) hr
    exact mem_offersIn.2 ⟨w, List.mem_map.2 ⟨_, hw, rfl⟩⟩

theorem seqRun_ge {c c' : List Nat} {L : List (Op × Nat)} {i v : Nat} (h : SeqRun c L c') (hn : incsIn L i = 0)
    (hv : c[i]? = some v) : ∃ v', c'[i]? = some v' ∧ v ≤ v' :=
  ⟨_, seqRun_max h hn hv, by omega⟩

/-- **C59.** On such a counter, once a call of `Max` has returned, the counter is
at least the value the call returned, which is at least its argument; and the
counter is always 0 or one of the values offered. -/
theorem C59_at_least_returned {n : Nat} {H : List Ev} {s : St} (h : Exec (newAnon n) H s) {i : Nat} (hi : i < n)
    (hn : incCalls H i = []) :
    ∃ c, s.counts[i]? = some c ∧ (c = 0 ∨ c ∈ offered H i) ∧
      ∀ id v r, .inv id (.max i v) ∈ H → .ret id r ∈ H → ∃ w, r = .val w ∧ v ≤ w ∧ w ≤ c ∧ (w ∈ offered H i ∨ w = 0) := by
  obtain ⟨L, hl⟩ := C58_calls_linearizable h
  have hz : incsIn (L.map (·.2)) i = 0 := by
    have := incsIn_le hl i
    rw [hn] at this
    exact Nat.le_zero.1 this
  have offsub : ∀ x ∈ offersIn (L.map (·.2)) i, x ∈ offered H i := by
    intro x hx
    obtain ⟨r', hr'⟩ := mem_offersIn.1 hx
    obtain ⟨y, hy, e'⟩ := List.mem_map.1 hr'
    have := hl.called y hy
    rw [e'] at this
    exact mem_offered.2 ⟨_, this⟩
  have big : ∀ l : List Nat, (∀ x ∈ l, x ∈ offered H i) → largest l = 0 ∨ largest l ∈ offered H i := by
    intro l hs
    by_cases hl0 : l = []
    · left; rw [hl0]; rfl
    · right; exact hs _ (largest_mem hl0)
  have hc := seqRun_max hl.legal hz (replicate_get hi)
  rw [Nat.zero_max] at hc
  refine ⟨_, hc, big _ offsub, ?_⟩
  intro id v r hinv hret
  obtain ⟨w, rfl, hw⟩ := inc_in_L h hl hinv (by intro o; simp) hret
  obtain ⟨A, B, e⟩ := List.append_of_mem hw
  have hleg := hl.legal
  rw [e, List.map_append, List.map_cons] at hleg hz
  rw [incsIn_append, incsIn_cons] at hz
  obtain ⟨m, h1, h2⟩ := seqRun_append.1 hleg
  have hm := seqRun_max h1 (by omega) (replicate_get hi)
  rw [Nat.zero_max] at hm
  cases h2 with
  | cons hs h3 =>
    cases hs with
    | max _ hj =>
      rw [hm] at hj; injection hj with hj; subst hj
      have hwv : Nat.max (largest (offersIn (A.map (·.2)) i)) v = Max.max (largest (offersIn (A.map (·.2)) i)) v := rfl
      rw [hwv] at hw h3 ⊢
      obtain ⟨w', g1, g2⟩ := seqRun_ge h3 (by omega) (get_set_self hm)
      rw [hc] at g1; injection g1 with g1; subst g1
      refine ⟨_, rfl, by omega, g2, ?_⟩
      have hA : ∀ x ∈ offersIn (A.map (·.2)) i, x ∈ offered H i := by
        intro x hx
        apply offsub
        rw [e, List.map_append]
        unfold offersIn at hx ⊢
        rw [List.filterMap_append]
        exact List.mem_append_left _ hx
      have hv : v ∈ offered H i := mem_offered.2 ⟨id, hinv⟩
      rcases Nat.le_total (largest (offersIn (A.map (·.2)) i)) v with hle | hle
      · rw [Nat.max_eq_right hle]; exact Or.inl hv
      · rw [Nat.max_eq_left hle]
        rcases big _ hA with h0 | h0
        · exact Or.inr h0
        · exact Or.inl h0

/-! ### Progress -/

/-- Whether an operation may change counter `i`. -/
def changes (i : Nat) : Op → Bool
  | .inc j => j == i
  | .max j _ => j == i
  | _ => false

/-- Number of operations on counter `i` that may change it. -/
def chg (L : List (Nat × Op × Nat)) (i : Nat) : Nat := L.countP (fun e => changes i e.2.1)

structure PInv (H : List Ev) (s : St) (L : List (Nat × Op × Nat)) : Prop where
  load : ∀ id i v, s.pc id = some (.maxLoad i v) → stepsOf H id ≤ 2 * chg L i
  cas : ∀ id i v cur, s.pc id = some (.maxCas i v cur) → ∃ k, k ≤ chg L i ∧ stepsOf H id ≤ 2 * k + 1 ∧
    ∀ c, s.counts[i]? = some c → c ≠ cur → k + 1 ≤ chg L i
  over : ∀ id i v p, s.pc id = some p → ¬ Open p → .inv id (.max i v) ∈ H → stepsOf H id ≤ 2 * chg L i

theorem stepsOf_snoc (H : List Ev) (e : Ev) (id : Nat) :
    stepsOf (H ++ [e]) id = stepsOf H id + if e = .act id then 1 else 0 := by
  unfold stepsOf
  rw [List.countP_append, List.countP_cons]
  by_cases h : e = .act id <;> simp [h]

theorem chg_snoc (L : List (Nat × Op × Nat)) (x : Nat × Op × Nat) (i : Nat) :
    chg (L ++ [x]) i = chg L i + if changes i x.2.1 = true then 1 else 0 := by
  unfold chg
  rw [List.countP_append, List.countP_cons]
  simp

theorem seqStep_unchanged {c c' : List Nat} {op : Op} {r i : Nat} (h : SeqStep c op r c') (hn : changes i op = false) :
    c'[i]? = c[i]? := by
  apply seqStep_other h
  · intro e; subst e; simp [changes] at hn
  · intro v e; subst e; simp [changes] at hn

theorem exec_pinv {n : Nat} {H : List Ev} {s : St} (h : Exec (newAnon n) H s) : ∃ L, LInv n H s L ∧ PInv H s L := by
  induction h with
  | nil =>
    refine ⟨[], linv_init n, ⟨?_, ?_, ?_⟩⟩
    · intro id i v h; simp [newAnon] at h
    · intro id i v c h; simp [newAnon] at h
    · intro id i v p h; simp [newAnon] at h
  | @snoc H s s' e hx hs ih =>
    obtain ⟨L, hi, hp⟩ := ih
    obtain ⟨L', hi', hcase⟩ := linv_step hi hs
    have hchg : ∀ i, chg L i ≤ chg L' i := by
      intro i
      rcases hcase with ⟨h1, -⟩ | ⟨id, p, op, r, -, -, -, hL, -, -⟩
      · rw [h1]; exact Nat.le_refl _
      · rw [hL, chg_snoc]; omega
    have hcount : ∀ i c, s'.counts[i]? = some c → s.counts[i]? = some c ∨ chg L i + 1 ≤ chg L' i := by
      intro i c hc
      rcases hcase with ⟨-, h2⟩ | ⟨id, p, op, r, -, -, -, hL, -, hseq⟩
      · left; rw [← h2]; exact hc
      · by_cases hch : changes i op = true
        · right; rw [hL, chg_snoc, if_pos hch]; omega
        · left; rw [← seqStep_unchanged hseq (by simpa using hch)]; exact hc
    -- calls that did not move
    have stay : ∀ j, s'.pc j = s.pc j → stepsOf (H ++ [e]) j = stepsOf H j →
        (∀ i v, s'.pc j = some (.maxLoad i v) → stepsOf (H ++ [e]) j ≤ 2 * chg L' i) ∧
        (∀ i v cur, s'.pc j = some (.maxCas i v cur) → ∃ k, k ≤ chg L' i ∧ stepsOf (H ++ [e]) j ≤ 2 * k + 1 ∧
          ∀ c, s'.counts[i]? = some c → c ≠ cur → k + 1 ≤ chg L' i) ∧
        (∀ i v p, s'.pc j = some p → ¬ Open p → .inv j (.max i v) ∈ H → stepsOf (H ++ [e]) j ≤ 2 * chg L' i) := by
      intro j h1 h2
      rw [h1, h2]
      refine ⟨?_, ?_, ?_⟩
      · intro i v hj
        have := hp.load j i v hj; have := hchg i; omega
      · intro i v cur hj
        obtain ⟨k, g1, g2, g3⟩ := hp.cas j i v cur hj
        refine ⟨k, Nat.le_trans g1 (hchg i), g2, ?_⟩
        intro c hc hne
        rcases hcount i c hc with hc | hc
        · exact Nat.le_trans (g3 c hc hne) (hchg i)
        · omega
      · intro i v p hj ho hinv
        have := hp.over j i v p hj ho hinv; have := hchg i; omega
    refine ⟨L', hi', ?_⟩
    cases hs with
    | @inv id op hnone =>
      obtain ⟨f1, f2⟩ := hi.fresh id hnone
      have h0 : stepsOf H id = 0 := by
        -- a call that has not begun has made no step
        have : ∀ {H : List Ev} {s : St}, Exec (newAnon n) H s → ∀ id, s.pc id = none → stepsOf H id = 0 := by
          intro H s h
          induction h with
          | nil => intro id _; rfl
          | @snoc H s s' e hx hs ih =>
            intro id hid
            rw [stepsOf_snoc]
            cases hs with
            | @inv j op hj =>
              by_cases h : id = j
              · subst h; rw [at_pc_self] at hid; cases hid
              · rw [at_pc_ne _ _ h] at hid; rw [ih id hid]; simp
            | @act j p p' c' hj _ _ _ =>
              by_cases h : id = j
              · subst h; rw [at_pc_self] at hid; cases hid
              · rw [at_pc_ne _ _ h] at hid; rw [ih id hid]; simp; exact fun e => h e.symm
            | @ret j r hj =>
              by_cases h : id = j
              · subst h; rw [at_pc_self] at hid; cases hid
              · rw [at_pc_ne _ _ h] at hid; rw [ih id hid]; simp
        exact this hx id hnone
      have hst : ∀ j, stepsOf (H ++ [.inv id op]) j = stepsOf H j := by intro j; rw [stepsOf_snoc]; simp
      refine ⟨?_, ?_, ?_⟩
      · intro j i v hj
        by_cases h : j = id
        · subst h; rw [hst, h0]; omega
        · exact (stay j (at_pc_ne _ _ h) (hst j)).1 i v hj
      · intro j i v cur hj
        by_cases h : j = id
        · subst h
          rw [at_pc_self] at hj
          injection hj with hj
          cases op <;> cases hj
        · exact (stay j (at_pc_ne _ _ h) (hst j)).2.1 i v cur hj
      · intro j i v p hj ho hinv
        by_cases h : j = id
        · subst h; rw [hst, h0]; omega
        · exact (stay j (at_pc_ne _ _ h) (hst j)).2.2 i v p hj ho (by simpa [h] using hinv)
    | @ret id r hpc =>
      have hst : ∀ j, stepsOf (H ++ [.ret id r]) j = stepsOf H j := by intro j; rw [stepsOf_snoc]; simp
      refine ⟨?_, ?_, ?_⟩
      · intro j i v hj
        by_cases h : j = id
        · subst h; rw [at_pc_self] at hj; injection hj with hj; cases hj
        · exact (stay j (at_pc_ne _ _ h) (hst j)).1 i v hj
      · intro j i v cur hj
        by_cases h : j = id
        · subst h; rw [at_pc_self] at hj; injection hj with hj; cases hj
        · exact (stay j (at_pc_ne _ _ h) (hst j)).2.1 i v cur hj
      · intro j i v p hj ho hinv
        have hinv' : .inv j (.max i v) ∈ H := by simpa using hinv
        by_cases h : j = id
        · subst h
          rw [hst]
          exact Nat.le_trans (hp.over j i v _ hpc (fun h => h) hinv') (Nat.mul_le_mul_left 2 (hchg i))
        · exact (stay j (at_pc_ne _ _ h) (hst j)).2.2 i v p hj ho hinv'
    | @act id p p' counts' hpc hnd hng hact =>
      have hst : ∀ j, j ≠ id → stepsOf (H ++ [.act id]) j = stepsOf H j := by
        intro j hj; rw [stepsOf_snoc]; simp; exact fun e => hj e.symm
      have hst1 : stepsOf (H ++ [.act id]) id = stepsOf H id + 1 := by rw [stepsOf_snoc]; simp
      have hop : Open p := by
        cases p <;> simp [Open]
        · exact hnd _ rfl
        · exact hng rfl
      obtain ⟨op, hinv, hpl⟩ := hi.place id p hpc
      refine ⟨?_, ?_, ?_⟩
      · intro j i v hj
        by_cases h : j = id
        · subst h
          rw [at_pc_self] at hj
          injection hj with hj
          subst hj
          -- only a failed compare-and-swap leads there
          cases p with
          | maxCas i' v' cur =>
            dsimp only [action] at hact
            cases hc : counter s.counts i' with
            | panic => rw [hc] at hact; cases hact
            | ok w =>
              rw [hc] at hact
              by_cases hw : w = cur
              · simp [hw] at hact
              · simp [hw] at hact
                obtain ⟨-, rfl, rfl⟩ := hact
                obtain ⟨k, g1, g2, g3⟩ := hp.cas j i' v' cur hpc
                have := g3 w (counter_ok hc) hw
                have := hchg i'
                rw [hst1]; omega
          | get i' =>
            dsimp only [action] at hact
            cases hc : counter s.counts i' <;> rw [hc] at hact <;> simp at hact <;> cases hact
          | inc i' =>
            dsimp only [action] at hact
            cases hc : counter s.counts i' <;> rw [hc] at hact <;> simp at hact <;> cases hact
          | maxLoad i' v' =>
            dsimp only [action] at hact
            cases hc : counter s.counts i' with
            | panic => rw [hc] at hact; cases hact
            | ok w =>
              rw [hc] at hact
              by_cases hw : v' ≤ w <;> simp [hw] at hact
          | snap todo out =>
            cases todo with
            | nil => dsimp only [action] at hact; simp at hact
            | cons i' todo =>
              dsimp only [action] at hact
              cases hc : counter s.counts i' <;> rw [hc] at hact <;> simp at hact <;> cases hact
          | done r => exact absurd rfl (hnd r)
          | gone => exact absurd rfl hng
        · exact (stay j (at_pc_ne _ _ h) (hst j h)).1 i v hj
      · intro j i v cur hj
        by_cases h : j = id
        · subst h
          rw [at_pc_self] at hj
          injection hj with hj
          subst hj
          cases p with
          | maxLoad i' v' =>
            dsimp only [action] at hact
            cases hc : counter s.counts i' with
            | panic => rw [hc] at hact; cases hact
            | ok w =>
              rw [hc] at hact
              by_cases hw : v' ≤ w
              · simp [hw] at hact
              · simp [hw] at hact
                obtain ⟨rfl, rfl, rfl, rfl⟩ := hact
                have := hp.load j i' v' hpc
                refine ⟨chg L i', hchg i', by rw [hst1]; omega, ?_⟩
                intro c hc' hne
                have hc'' : s.counts[i']? = some c := hc'
                rw [counter_ok hc] at hc''
                injection hc'' with hc''
                exact absurd hc''.symm hne
          | get i' =>
            dsimp only [action] at hact
            cases hc : counter s.counts i' <;> rw [hc] at hact <;> simp at hact <;> cases hact
          | inc i' =>
            dsimp only [action] at hact
            cases hc : counter s.counts i' <;> rw [hc] at hact <;> simp at hact <;> cases hact
          | maxCas i' v' cur' =>
            dsimp only [action] at hact
            cases hc : counter s.counts i' with
            | panic => rw [hc] at hact; cases hact
            | ok w =>
              rw [hc] at hact
              by_cases hw : w = cur' <;> simp [hw] at hact
          | snap todo out =>
            cases todo with
            | nil => dsimp only [action] at hact; simp at hact
            | cons i' todo =>
              dsimp only [action] at hact
              cases hc : counter s.counts i' <;> rw [hc] at hact <;> simp at hact <;> cases hact
          | done r => exact absurd rfl (hnd r)
          | gone => exact absurd rfl hng
        · exact (stay j (at_pc_ne _ _ h) (hst j h)).2.1 i v cur hj
      · intro j i v q hj ho hinv2
        have hinv' : .inv j (.max i v) ∈ H := by simpa using hinv2
        by_cases h : j = id
        · subst h
          rw [at_pc_self] at hj
          injection hj with hj
          subst hj
          have hopeq : op = .max i v := hi.one j _ _ hinv hinv'
          subst hopeq
          -- the call took effect in this step
          have hL' : chg L i + 1 ≤ chg L' i := by
            rcases action_cases hop hpl hact with ⟨-, ho', -⟩ | ⟨r, rfl, hseq⟩ | ⟨vs, o, -, hcontra, -⟩
            · exact absurd ho' ho
            · rcases hcase with ⟨h1, -⟩ | ⟨id', p'', op', r', he, hpc', hpl', hL, -, -⟩
              · obtain ⟨o, ho2⟩ := hi'.closed j r (at_pc_self _ _ _)
                rw [h1] at ho2
                exact absurd (List.mem_map.2 ⟨_, ho2, rfl⟩) (hi.opened j p hpc hop)
              · injection he with he
                subst he
                have hop' : op' = .max i v := by
                  have := hi'.lin.called (j, op', r') (by rw [hL]; simp)
                  exact hi'.one j _ _ this hinv2
                rw [hL, chg_snoc, hop']
                simp [changes]
            · cases hcontra
          have hb : stepsOf H j ≤ 2 * chg L i + 1 := by
            cases p with
            | maxLoad i' v' =>
              injection hpl with h1 h2
              subst h1
              have := hp.load j i v' hpc
              omega
            | maxCas i' v' cur =>
              obtain ⟨h1, -⟩ := hpl
              injection h1 with h1 h2
              subst h1
              obtain ⟨k, g1, g2, -⟩ := hp.cas j i v' cur hpc
              omega
            | get i' => cases hpl
            | inc i' => cases hpl
            | snap todo out => obtain ⟨o, ho2⟩ := hpl; cases ho2
            | done r => exact absurd rfl (hnd r)
            | gone => exact absurd rfl hng
          rw [hst1]
          omega
        · exact (stay j (at_pc_ne _ _ h) (hst j h)).2.2 i v q hj ho hinv'

theorem mem_changingCalls {H : List Ev} {i id : Nat} {op : Op} (h : .inv id op ∈ H) (hc : changes i op = true) :
    id ∈ changingCalls H i := by
  unfold changingCalls
  rw [List.mem_filterMap]
  refine ⟨_, h, ?_⟩
  cases op with
  | inc j => simp [changes] at hc; simp [hc]
  | max j v => simp [changes] at hc; simp [hc]
  | get j => simp [changes] at hc
  | snapshot o => simp [changes] at hc

/-- **C59.** `Max` does not loop for ever: a call makes at most twice as many
atomic steps as there are calls that may change the same counter. -/
theorem C59_bounded_retries {n : Nat} {H : List Ev} {s : St} (h : Exec (newAnon n) H s) {id i v : Nat}
    (hinv : .inv id (.max i v) ∈ H) : stepsOf H id ≤ 2 * (changingCalls H i).length := by
  obtain ⟨L, hi, hp⟩ := exec_pinv h
  have hids : (L.filter fun e => changes i e.2.1).length = chg L i := by
    unfold chg; rw [List.countP_eq_length_filter]
  have hnd : ((L.filter fun e => changes i e.2.1).map (·.1)).Nodup := hi.lin.once.sublist (List.filter_sublist.map _)
  have hsub : ∀ j ∈ (L.filter fun e => changes i e.2.1).map (·.1), j ∈ changingCalls H i := by
    intro j hj
    obtain ⟨x, hx, rfl⟩ := List.mem_map.1 hj
    rw [List.mem_filter] at hx
    exact mem_changingCalls (hi.lin.called x hx.1) hx.2
  cases hpc : s.pc id with
  | none => exact absurd hinv ((hi.fresh id hpc).1 _)
  | some p =>
    by_cases ho : Open p
    · have hnot := hi.opened id p hpc ho
      have hlen : chg L i + 1 ≤ (changingCalls H i).length := by
        have hnd2 : (id :: (L.filter fun e => changes i e.2.1).map (·.1)).Nodup := by
          rw [List.nodup_cons]
          refine ⟨?_, hnd⟩
          intro hm
          exact hnot ((List.filter_sublist.map _).subset hm)
        have := hnd2.length_le_of_subset (l₂ := changingCalls H i) (by
          intro j hj
          rcases List.mem_cons.1 hj with rfl | hj
          · exact mem_changingCalls hinv (by simp [changes])
          · exact hsub j hj)
        simpa [hids] using this
      obtain ⟨op, h1, h2⟩ := hi.place id p hpc
      have hop : op = .max i v := hi.one id _ _ h1 hinv
      subst hop
      cases p with
      | maxLoad i' v' =>
        injection h2 with e1 e2
        subst e1
        have := hp.load id i v' hpc
        omega
      | maxCas i' v' cur =>
        obtain ⟨e1, -⟩ := h2
        injection e1 with e1 e2
        subst e1
        obtain ⟨k, g1, g2, -⟩ := hp.cas id i v' cur hpc
        omega
      | get i' => cases h2
      | inc i' => cases h2
      | snap todo out => obtain ⟨o, ho2⟩ := h2; cases ho2
      | done r => exact absurd ho (fun h => h)
      | gone => exact absurd ho (fun h => h)
    · have h1 := hp.over id i v p hpc ho hinv
      have hlen : chg L i ≤ (changingCalls H i).length := by
        have := hnd.length_le_of_subset (l₂ := changingCalls H i) hsub
        simpa [hids] using this
      omega

end Spout.Counters
