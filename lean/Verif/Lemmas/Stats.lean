import Verif.Spec.Counters
import Verif.Lemmas.Downsampler

set_option linter.unusedSimpArgs false

namespace Spout.Counters

open Spout.Spec

/-! ## Sequential runs -/

theorem SeqRun.snoc {c c' c'' : List Nat} {L : List (Op × Nat)} {op : Op} {r : Nat} (h : SeqRun c L c')
    (hs : SeqStep c' op r c'') : SeqRun c (L ++ [(op, r)]) c'' := by
  induction h with
  | nil => exact .cons hs .nil
  | cons h1 _ ih => exact .cons h1 (ih hs)

/-! ## Where a call is -/

/-- The place is one of a call of `op`. -/
def PlaceOf : PC → Op → Prop
  | .get i, op => op = .get i
  | .inc i, op => op = .inc i
  | .maxLoad i v, op => op = .max i v
  | .maxCas i v cur, op => op = .max i v ∧ cur < v
  | .snap _ _, op => ∃ o, op = .snapshot o
  | .done (.val _), op => ∀ o, op ≠ .snapshot o
  | .done (.vals _), op => ∃ o, op = .snapshot o
  | .gone, _ => True

/-- The call has not taken effect yet. -/
def Open : PC → Prop
  | .done _ => False
  | .gone => False
  | _ => True

theorem start_placeOf (op : Op) : PlaceOf op.start op := by
  cases op <;> simp [Op.start, PlaceOf]

theorem start_open (op : Op) : Open op.start := by
  cases op <;> simp [Op.start, Open]

theorem counter_ok {c : List Nat} {i v : Nat} (h : counter c i = .ok v) : c[i]? = some v := by
  unfold counter at h
  cases hc : c[i]? with
  | none => rw [hc] at h; cases h
  | some w => rw [hc] at h; injection h with h; rw [h]

theorem counter_of {c : List Nat} {i v : Nat} (h : c[i]? = some v) : counter c i = .ok v := by
  unfold counter; rw [h]

/-- What a step of a call does: nothing visible, or it takes effect. -/
theorem action_cases {c c' : List Nat} {p p' : PC} {op : Op} (ho : Open p) (hp : PlaceOf p op)
    (h : action c p = .ok (c', p')) :
    (c' = c ∧ Open p' ∧ PlaceOf p' op) ∨
    (∃ r, p' = .done (.val r) ∧ SeqStep c op r c') ∨
    (∃ vs o, c' = c ∧ op = .snapshot o ∧ p' = .done (.vals vs)) := by
  cases p with
  | get i =>
    dsimp only [action] at h
    cases hc : counter c i with
    | panic => rw [hc] at h; cases h
    | ok v =>
      rw [hc] at h; simp at h; obtain ⟨rfl, rfl⟩ := h
      cases hp
      exact Or.inr (Or.inl ⟨v, rfl, .get (counter_ok hc)⟩)
  | inc i =>
    dsimp only [action] at h
    cases hc : counter c i with
    | panic => rw [hc] at h; cases h
    | ok v =>
      rw [hc] at h; simp at h; obtain ⟨rfl, rfl⟩ := h
      cases hp
      exact Or.inr (Or.inl ⟨_, rfl, .inc (counter_ok hc)⟩)
  | maxLoad i v =>
    dsimp only [action] at h
    cases hc : counter c i with
    | panic => rw [hc] at h; cases h
    | ok cur =>
      rw [hc] at h
      cases hp
      by_cases hle : v ≤ cur
      · simp [hle] at h; obtain ⟨rfl, rfl⟩ := h
        refine Or.inr (Or.inl ⟨_, rfl, ?_⟩)
        have hi := counter_ok hc
        have := SeqStep.max (c := c) (i := i) v hi
        have hm : Nat.max cur v = cur := Nat.max_eq_left hle
        rw [hm] at this
        have hset : c.set i cur = c := by
          apply List.ext_getElem?
          intro j
          rw [List.getElem?_set]
          by_cases hj : i = j
          · subst hj
            rw [hi]
            have : i < c.length := by
              rcases List.getElem?_eq_some_iff.1 hi with ⟨hl, -⟩; exact hl
            simp [this]
          · simp [hj]
        rw [hset] at this
        exact this
      · simp [hle] at h; obtain ⟨rfl, rfl⟩ := h
        exact Or.inl ⟨rfl, trivial, rfl, by omega⟩
  | maxCas i v cur =>
    dsimp only [action] at h
    cases hc : counter c i with
    | panic => rw [hc] at h; cases h
    | ok w =>
      rw [hc] at h
      obtain ⟨rfl, hlt⟩ := hp
      by_cases hw : w = cur
      · simp [hw] at h; obtain ⟨rfl, rfl⟩ := h
        subst hw
        refine Or.inr (Or.inl ⟨_, rfl, ?_⟩)
        have := SeqStep.max (c := c) (i := i) v (counter_ok hc)
        have hm : Nat.max w v = v := Nat.max_eq_right (by omega)
        rw [hm] at this
        exact this
      · simp [hw] at h; obtain ⟨rfl, rfl⟩ := h
        exact Or.inl ⟨rfl, trivial, rfl⟩
  | snap todo out =>
    obtain ⟨o, rfl⟩ := hp
    cases todo with
    | nil =>
      dsimp only [action] at h
      simp at h; obtain ⟨rfl, rfl⟩ := h
      exact Or.inr (Or.inr ⟨out, o, rfl, rfl, rfl⟩)
    | cons i todo =>
      dsimp only [action] at h
      cases hc : counter c i with
      | panic => rw [hc] at h; cases h
      | ok v =>
        rw [hc] at h; simp at h; obtain ⟨rfl, rfl⟩ := h
        exact Or.inl ⟨rfl, trivial, ⟨o, rfl⟩⟩
  | done r => exact absurd ho id
  | gone => exact absurd ho id

/-! ## The invariant -/

structure LInv (n : Nat) (H : List Ev) (s : St) (L : List (Nat × Op × Nat)) : Prop where
  lin : Linearization n H s.counts L
  fresh : ∀ id, s.pc id = none → (∀ op, .inv id op ∉ H) ∧ (∀ r, .ret id r ∉ H)
  place : ∀ id p, s.pc id = some p → ∃ op, .inv id op ∈ H ∧ PlaceOf p op
  one : ∀ id op op', .inv id op ∈ H → .inv id op' ∈ H → op = op'
  opened : ∀ id p, s.pc id = some p → Open p → id ∉ L.map (·.1)
  closed : ∀ id r, s.pc id = some (.done (.val r)) → ∃ op, (id, op, r) ∈ L
  notRet : ∀ id p, s.pc id = some p → p ≠ .gone → ∀ r, .ret id r ∉ H
  size : s.counts.length = n

theorem before_snoc {H : List Ev} {e : Ev} {a b : Nat} (h : Before (H ++ [e]) a b) :
    Before H a b ∨ (∃ op, e = .inv b op) ∧ ∃ r, .ret a r ∈ H := by
  obtain ⟨H1, H2, H3, r, op, he⟩ := h
  rcases List.eq_nil_or_concat H3 with rfl | ⟨T, x, rfl⟩
  · right
    rw [show H1 ++ .ret a r :: H2 ++ [.inv b op] = (H1 ++ .ret a r :: H2) ++ [.inv b op] by simp] at he
    obtain ⟨h1, h2⟩ := List.append_inj' he rfl
    injection h2 with h2
    exact ⟨⟨op, h2⟩, r, by rw [h1]; simp⟩
  · left
    rw [List.concat_eq_append, show H1 ++ .ret a r :: H2 ++ .inv b op :: (T ++ [x])
      = (H1 ++ .ret a r :: H2 ++ .inv b op :: T) ++ [x] by simp] at he
    obtain ⟨h1, -⟩ := List.append_inj' he rfl
    exact ⟨H1, H2, T, r, op, h1⟩

theorem at_pc_self (s : St) (id : Nat) (p : PC) : (s.at id p).pc id = some p := by simp [St.at]
theorem at_pc_ne (s : St) {id j : Nat} (p : PC) (h : j ≠ id) : (s.at id p).pc j = s.pc j := by simp [St.at, h]

theorem seqStep_length {c c' : List Nat} {op : Op} {r : Nat} (h : SeqStep c op r c') : c'.length = c.length := by
  cases h <;> simp

theorem before_inv_mem {H : List Ev} {a b : Nat} (h : Before H a b) : ∃ op, .inv b op ∈ H := by
  obtain ⟨H1, H2, H3, r, op, he⟩ := h
  exact ⟨op, by rw [he]; simp⟩

theorem before_ret_mem {H : List Ev} {a b : Nat} (h : Before H a b) : ∃ r, .ret a r ∈ H := by
  obtain ⟨H1, H2, H3, r, op, he⟩ := h
  exact ⟨r, by rw [he]; simp⟩

theorem linv_init (n : Nat) : LInv n [] (newAnon n) [] := by
  refine ⟨⟨.nil, by simp, by simp, by simp, by simp⟩, ?_, ?_, by simp, ?_, ?_, ?_, by simp [newAnon]⟩
  · intro id _; simp
  · intro id p h; simp [newAnon] at h
  · intro id p h; simp [newAnon] at h
  · intro id r h; simp [newAnon] at h
  · intro id p h; simp [newAnon] at h

theorem linv_step {n : Nat} {H : List Ev} {s s' : St} {e : Ev} {L : List (Nat × Op × Nat)} (hi : LInv n H s L)
    (hs : Step s e s') : ∃ L', LInv n (H ++ [e]) s' L' ∧ ((L' = L ∧ s'.counts = s.counts) ∨
      ∃ id p op r, e = .act id ∧ s.pc id = some p ∧ PlaceOf p op ∧ L' = L ++ [(id, op, r)] ∧
        s'.pc id = some (.done (.val r)) ∧ SeqStep s.counts op r s'.counts) := by
  have memL : ∀ id, id ∈ L.map (·.1) → ∃ op, .inv id op ∈ H := by
    intro id h
    obtain ⟨x, hx, rfl⟩ := List.mem_map.1 h
    exact ⟨_, hi.lin.called x hx⟩
  cases hs with
  | @inv id op hnone =>
    obtain ⟨f1, f2⟩ := hi.fresh id hnone
    refine ⟨L, ⟨⟨hi.lin.legal, hi.lin.once, ?_, ?_, ?_⟩, ?_, ?_, ?_, ?_, ?_, ?_, hi.size⟩, Or.inl ⟨rfl, rfl⟩⟩
    · intro x hx; simp [hi.lin.called x hx]
    · intro j r hj
      simp at hj
      exact hi.lin.returned j r hj
    · intro a b hb ha hbL
      rcases before_snoc hb with h | ⟨⟨op', h⟩, -⟩
      · exact hi.lin.realTime a b h ha hbL
      · injection h with h _
        subst h
        obtain ⟨o, ho⟩ := memL id hbL
        exact absurd ho (f1 o)
    · intro j hj
      by_cases h : j = id
      · subst h; rw [at_pc_self] at hj; cases hj
      · rw [at_pc_ne _ _ h] at hj
        obtain ⟨g1, g2⟩ := hi.fresh j hj
        constructor
        · intro o; simp [g1 o, h]
        · intro r; simp [g2 r]
    · intro j p hj
      by_cases h : j = id
      · subst h
        rw [at_pc_self] at hj
        injection hj with hj; subst hj
        exact ⟨op, by simp, start_placeOf op⟩
      · rw [at_pc_ne _ _ h] at hj
        obtain ⟨o, g1, g2⟩ := hi.place j p hj
        exact ⟨o, by simp [g1], g2⟩
    · intro j o o' h1 h2
      simp only [List.mem_append, List.mem_singleton, Ev.inv.injEq] at h1 h2
      rcases h1 with h1 | ⟨rfl, rfl⟩ <;> rcases h2 with h2 | ⟨h2, rfl⟩
      · exact hi.one j o o' h1 h2
      · subst h2; exact absurd h1 (f1 o)
      · exact absurd h2 (f1 o')
      · rfl
    · intro j p hj hop
      by_cases h : j = id
      · subst h
        intro hm
        obtain ⟨o, ho⟩ := memL j hm
        exact f1 o ho
      · rw [at_pc_ne _ _ h] at hj
        exact hi.opened j p hj hop
    · intro j r hj
      by_cases h : j = id
      · subst h
        rw [at_pc_self] at hj
        injection hj with hj
        have := start_open op
        rw [hj] at this
        exact absurd this id
      · rw [at_pc_ne _ _ h] at hj
        exact hi.closed j r hj
    · intro j p hj hg r
      by_cases h : j = id
      · subst h; simp [f2 r]
      · rw [at_pc_ne _ _ h] at hj
        simp [hi.notRet j p hj hg r]
  | @ret id r hpc =>
    have hnr := hi.notRet id _ hpc (by simp)
    refine ⟨L, ⟨⟨hi.lin.legal, hi.lin.once, ?_, ?_, ?_⟩, ?_, ?_, ?_, ?_, ?_, ?_, hi.size⟩, Or.inl ⟨rfl, rfl⟩⟩
    · intro x hx; simp [hi.lin.called x hx]
    · intro j v hj
      simp only [List.mem_append, List.mem_singleton, Ev.ret.injEq] at hj
      rcases hj with hj | ⟨rfl, rfl⟩
      · exact hi.lin.returned j v hj
      · exact hi.closed j v hpc
    · intro a b hb ha hbL
      rcases before_snoc hb with h | ⟨⟨op', h⟩, -⟩
      · exact hi.lin.realTime a b h ha hbL
      · cases h
    · intro j hj
      by_cases h : j = id
      · subst h; rw [at_pc_self] at hj; cases hj
      · rw [at_pc_ne _ _ h] at hj
        obtain ⟨g1, g2⟩ := hi.fresh j hj
        constructor
        · intro o; simp [g1 o]
        · intro r'; simp [g2 r', h]
    · intro j p hj
      by_cases h : j = id
      · subst h
        rw [at_pc_self] at hj
        injection hj with hj; subst hj
        obtain ⟨o, g1, -⟩ := hi.place j _ hpc
        exact ⟨o, by simp [g1], trivial⟩
      · rw [at_pc_ne _ _ h] at hj
        obtain ⟨o, g1, g2⟩ := hi.place j p hj
        exact ⟨o, by simp [g1], g2⟩
    · intro j o o' h1 h2
      simp at h1 h2
      exact hi.one j o o' h1 h2
    · intro j p hj hop
      by_cases h : j = id
      · subst h
        rw [at_pc_self] at hj
        injection hj with hj; subst hj
        exact absurd hop id
      · rw [at_pc_ne _ _ h] at hj
        exact hi.opened j p hj hop
    · intro j r' hj
      by_cases h : j = id
      · subst h
        rw [at_pc_self] at hj
        injection hj with hj; cases hj
      · rw [at_pc_ne _ _ h] at hj
        exact hi.closed j r' hj
    · intro j p hj hg r'
      by_cases h : j = id
      · subst h
        rw [at_pc_self] at hj
        injection hj with hj
        exact absurd hj.symm hg
      · rw [at_pc_ne _ _ h] at hj
        simp [hi.notRet j p hj hg r', h]
  | @act id p p' counts' hpc hnd hng hact =>
    have hop : Open p := by
      cases p <;> simp [Open]
      · exact hnd _ rfl
      · exact hng rfl
    obtain ⟨op, hinv, hpl⟩ := hi.place id p hpc
    have hnotL := hi.opened id p hpc hop
    have hnr := hi.notRet id p hpc hng
    -- everything but the linearization and the place of the call
    have fresh' : ∀ j, (({ s with counts := counts' } : St).at id p').pc j = none →
        (∀ o, .inv j o ∉ H ++ [.act id]) ∧ (∀ r, .ret j r ∉ H ++ [.act id]) := by
      intro j hj
      by_cases h : j = id
      · subst h; rw [at_pc_self] at hj; cases hj
      · rw [at_pc_ne _ _ h] at hj
        obtain ⟨g1, g2⟩ := hi.fresh j hj
        exact ⟨fun o => by simp [g1 o], fun r => by simp [g2 r]⟩
    have one' : ∀ j o o', .inv j o ∈ H ++ [.act id] → .inv j o' ∈ H ++ [.act id] → o = o' := by
      intro j o o' h1 h2
      simp at h1 h2
      exact hi.one j o o' h1 h2
    have notRet' : ∀ j q, (({ s with counts := counts' } : St).at id p').pc j = some q → q ≠ .gone →
        ∀ r, .ret j r ∉ H ++ [.act id] := by
      intro j q hj hg r
      by_cases h : j = id
      · subst h; simp [hnr r]
      · rw [at_pc_ne _ _ h] at hj
        simp [hi.notRet j q hj hg r]
    have before' : ∀ {a b}, Before (H ++ [.act id]) a b → Before H a b := by
      intro a b hb
      rcases before_snoc hb with h | ⟨⟨op', h⟩, -⟩
      · exact h
      · cases h
    have place' : PlaceOf p' op → ∀ j q, (({ s with counts := counts' } : St).at id p').pc j = some q →
        ∃ o, .inv j o ∈ H ++ [.act id] ∧ PlaceOf q o := by
      intro hp' j q hj
      by_cases h : j = id
      · subst h
        rw [at_pc_self] at hj
        injection hj with hj; subst hj
        exact ⟨op, by simp [hinv], hp'⟩
      · rw [at_pc_ne _ _ h] at hj
        obtain ⟨o, g1, g2⟩ := hi.place j q hj
        exact ⟨o, by simp [g1], g2⟩
    have opened' : ∀ (hq : Open p' → id ∉ L.map (·.1)) j q,
        (({ s with counts := counts' } : St).at id p').pc j = some q → Open q → j ∉ L.map (·.1) := by
      intro hq j q hj ho
      by_cases h : j = id
      · subst h
        exact hnotL
      · rw [at_pc_ne _ _ h] at hj
        exact hi.opened j q hj ho
    have closedOther : ∀ j r, j ≠ id → (({ s with counts := counts' } : St).at id p').pc j = some (.done (.val r)) →
        ∃ o, (j, o, r) ∈ L := by
      intro j r h hj
      rw [at_pc_ne _ _ h] at hj
      exact hi.closed j r hj
    have keep : counts' = s.counts → PlaceOf p' op → (∀ r, p' ≠ .done (.val r)) → LInv n (H ++ [.act id])
        (({ s with counts := counts' } : St).at id p') L := by
      intro hc hp' hne
      refine ⟨⟨?_, hi.lin.once, ?_, ?_, ?_⟩, fresh', place' hp', one', opened' (fun _ => hnotL), ?_, notRet', ?_⟩
      · show SeqRun _ _ counts'
        rw [hc]; exact hi.lin.legal
      · intro x hx; simp [hi.lin.called x hx]
      · intro j r hj
        simp at hj
        exact hi.lin.returned j r hj
      · intro a b hb ha hbL
        exact hi.lin.realTime a b (before' hb) ha hbL
      · intro j r hj
        by_cases h : j = id
        · subst h
          rw [at_pc_self] at hj
          injection hj with hj
          exact absurd hj (hne r)
        · exact closedOther j r h hj
      · show counts'.length = n
        rw [hc]; exact hi.size
    rcases action_cases hop hpl hact with ⟨hc, ho', hp'⟩ | ⟨r, rfl, hseq⟩ | ⟨vs, o, hc, rfl, rfl⟩
    · exact ⟨L, keep hc hp' (by intro r hr; rw [hr] at ho'; exact ho'), Or.inl ⟨rfl, hc⟩⟩
    · -- the call takes effect
      have hpl' : PlaceOf (.done (.val r)) op := by
        intro o ho
        subst ho
        cases hseq
      refine ⟨L ++ [(id, op, r)], ⟨⟨?_, ?_, ?_, ?_, ?_⟩, fresh', place' hpl', one', ?_, ?_, notRet', ?_⟩,
        Or.inr ⟨id, p, op, r, rfl, hpc, hpl, rfl, at_pc_self _ _ _, hseq⟩⟩
      · rw [List.map_append]
        exact SeqRun.snoc hi.lin.legal hseq
      · rw [List.map_append, List.map_cons, List.map_nil, List.nodup_append]
        refine ⟨hi.lin.once, by simp, ?_⟩
        intro a ha b hb
        simp at hb
        rw [hb]
        intro hab
        rw [hab] at ha
        exact hnotL ha
      · intro x hx
        rcases List.mem_append.1 hx with hx | hx
        · simp [hi.lin.called x hx]
        · simp at hx; subst hx; simp [hinv]
      · intro j v hj
        simp at hj
        obtain ⟨o, ho⟩ := hi.lin.returned j v hj
        exact ⟨o, by simp [ho]⟩
      · intro a b hb ha hbL
        have hB := before' hb
        rw [List.map_append, List.map_cons, List.map_nil] at ha hbL ⊢
        rcases List.mem_append.1 hbL with hbL | hbL
        · have ha' : a ∈ L.map (·.1) := by
            rcases List.mem_append.1 ha with ha | ha
            · exact ha
            · simp at ha
              subst ha
              obtain ⟨v, hv⟩ := before_ret_mem hB
              exact absurd hv (hnr v)
          obtain ⟨L1, L2, L3, hL⟩ := hi.lin.realTime a b hB ha' hbL
          exact ⟨L1, L2, L3 ++ [id], by rw [hL]; simp⟩
        · simp at hbL
          subst hbL
          rcases List.mem_append.1 ha with ha | ha
          · obtain ⟨L1, L2, hL⟩ := List.append_of_mem ha
            exact ⟨L1, L2, [], by rw [hL]⟩
          · simp at ha
            subst ha
            obtain ⟨v, hv⟩ := before_ret_mem hB
            exact absurd hv (hnr v)
      · intro j q hj ho
        by_cases h : j = id
        · subst h
          rw [at_pc_self] at hj
          injection hj with hj; subst hj
          exact absurd ho (fun h => h)
        · rw [at_pc_ne _ _ h] at hj
          rw [List.map_append, List.mem_append]
          rintro (hm | hm)
          · exact hi.opened j q hj ho hm
          · simp at hm; exact h hm
      · intro j v hj
        by_cases h : j = id
        · subst h
          rw [at_pc_self] at hj
          injection hj with hj; injection hj with hj; injection hj with hj
          subst hj
          exact ⟨op, by simp⟩
        · obtain ⟨o, ho⟩ := closedOther j v h hj
          exact ⟨o, by simp [ho]⟩
      · show counts'.length = n
        rw [seqStep_length hseq]
        exact hi.size
    · exact ⟨L, keep hc ⟨o, rfl⟩ (by intro r hr; injection hr with hr; cases hr), Or.inl ⟨rfl, hc⟩⟩

theorem exec_linv {n : Nat} {H : List Ev} {s : St} (h : Exec (newAnon n) H s) : ∃ L, LInv n H s L := by
  induction h with
  | nil => exact ⟨[], linv_init n⟩
  | snoc _ hs ih =>
    obtain ⟨L, hi⟩ := ih
    obtain ⟨L', h', -⟩ := linv_step hi hs
    exact ⟨L', h'⟩

end Spout.Counters
