import Verif.Props.WriterStream
import Verif.Spec.Store

/-! # What InfluxDB stores in the end (C110) -/

set_option linter.unusedSimpArgs false

namespace Spout
open Spec

variable {K V : Type} [DecidableEq K]

/-- The messages consist of complete lines that fit in a write, as those published by the filter do. -/
def WholeMessages (c : WConf) (s : WSys) : Prop :=
  ∀ m ∈ received s.hist, CompleteText m ∧ ∀ l ∈ linesOf m, l.length ≤ c.batchMaxSize + 1

/-- The lines received that match the writer's rules (all, without rules), in order. -/
noncomputable def linesReceived (c : WConf) (s : WSys) : List Bytes :=
  (received s.hist).flatMap fun m => (pieces c.rules m).flatMap linesOf

/-- What would be stored if each line received had been written once, in order (`t`: when). -/
noncomputable def onceInOrder (c : WConf) (s : WSys) (t : Int) : List (Bytes × Int) :=
  (linesReceived c s).map fun l => (l, t)

/-- Everything received was sent, and in the end accepted. -/
def AllAccepted (s : WSys) : Prop :=
  unsentBytes s = [] ∧ ∀ i d r t, .first i d r t ∈ s.hist → Accepted s.hist i

/-- **C110, the claim.** When everything received was in the end accepted, InfluxDB stores what it would store if each
line had been written once, in the order of arrival. -/
def StoredAsReceived : Prop :=
  ∀ (K V : Type) [DecidableEq K] (c : WConf) (s : WSys) (sets : Int → Bytes → List (K × V)) (ws : List (Bytes × Int)),
    WRun c s → 1 ≤ c.batchMaxSize → WholeMessages c s → Timestamped sets (linesReceived c s) → Handled s.hist ws →
    AllAccepted s → ∀ k, stored sets ws k = stored sets (onceInOrder c s 0) k

/-! ## Lists of assignments -/

/-- The last value given to `k`. -/
def lastValue (as : List (K × V)) (k : K) : Option V :=
  as.foldl (fun acc a => if a.1 = k then some a.2 else acc) none

theorem lastValue_snoc (as : List (K × V)) (a : K × V) (k : K) :
    lastValue (as ++ [a]) k = if a.1 = k then some a.2 else lastValue as k := by
  unfold lastValue
  rw [List.foldl_append]
  rfl

theorem lastValue_mem {as : List (K × V)} {k : K} {v : V} (h : lastValue as k = some v) : (k, v) ∈ as := by
  have key : ∀ (bs : List (K × V)), lastValue bs.reverse k = some v → (k, v) ∈ bs.reverse := by
    intro bs
    induction bs with
    | nil => intro h; cases h
    | cons a bs ih =>
      intro h
      rw [List.reverse_cons, lastValue_snoc] at h
      rw [List.reverse_cons]
      by_cases ha : a.1 = k
      · rw [if_pos ha] at h
        injection h with h
        apply List.mem_append_right
        rw [← ha, ← h]
        simp
      · rw [if_neg ha] at h
        exact List.mem_append_left _ (ih h)
  have := key as.reverse (by simpa using h)
  simpa using this

theorem lastValue_none {as : List (K × V)} {k : K} (h : ∀ v, (k, v) ∉ as) : lastValue as k = none := by
  cases hl : lastValue as k with
  | none => rfl
  | some v => exact absurd (lastValue_mem hl) (h v)

theorem lastValue_some {as : List (K × V)} {k : K} {v : V} (h : (k, v) ∈ as) : ∃ v', lastValue as k = some v' := by
  have key : ∀ (bs : List (K × V)), (k, v) ∈ bs.reverse → ∃ v', lastValue bs.reverse k = some v' := by
    intro bs
    induction bs with
    | nil => intro h; cases h
    | cons a bs ih =>
      intro h
      rw [List.reverse_cons] at h ⊢
      rw [lastValue_snoc]
      by_cases ha : a.1 = k
      · exact ⟨_, if_pos ha⟩
      · rw [if_neg ha]
        rcases List.mem_append.1 h with h | h
        · exact ih h
        · have : (k, v) = a := by simpa using h
          rw [← this] at ha
          exact absurd rfl ha
  have := key as.reverse (by simpa using h)
  simpa using this

theorem stored_eq (sets : Int → Bytes → List (K × V)) (ws : List (Bytes × Int)) (k : K) :
    stored sets ws k = lastValue (ws.flatMap fun w => sets w.2 w.1) k := rfl

/-! ## Where handled lines come from -/

/-- Every line handled is a line of the first write of some chunk. -/
theorem handled_from {c : WConf} {s : WSys} (hrun : WRun c s) {ws : List (Bytes × Int)} (hh : Handled s.hist ws) :
    ∀ w ∈ ws, ∃ i d r t, .first i d r t ∈ s.hist ∧ w.1 ∈ linesOf d := by
  have key : ∀ (h : List WEv) (ws : List (Bytes × Int)), Handled h ws → (∀ e ∈ h, e ∈ s.hist) →
      ∀ w ∈ ws, ∃ i d r t, .first i d r t ∈ s.hist ∧ w.1 ∈ linesOf d := by
    intro h ws hh
    induction hh with
    | nil => intro _ w hw; cases hw
    | firstOk i d r t _ _ ih =>
      intro hsub w hw
      rcases List.mem_append.1 hw with hw | hw
      · exact ih (fun e he => hsub e (List.mem_append_left _ he)) w hw
      · obtain ⟨l, hl, rfl⟩ := List.mem_map.1 hw
        exact ⟨i, d, r, t, hsub _ (List.mem_append_right _ (by simp)), hl⟩
    | retryOk i r t _ _ _ ih => intro hsub; exact ih (fun e he => hsub e (List.mem_append_left _ he))
    | other e _ _ _ ih => intro hsub; exact ih (fun e he => hsub e (List.mem_append_left _ he))
    | late d line t _ hp hl ih =>
      intro hsub w hw
      rcases List.mem_append.1 hw with hw | hw
      · exact ih hsub w hw
      · have hw : w = (line, t) := by simpa using hw
        subst hw
        rcases hp with ⟨i, r, t', hf, -⟩ | ⟨i, t', ha⟩
        · exact ⟨i, d, r, t', hsub _ hf, hl⟩
        · obtain ⟨⟨r, t0, hf⟩, -⟩ := C42_same_data c s hrun i d t' (hsub _ ha)
          exact ⟨i, d, r, t0, hf, hl⟩
  exact key s.hist ws hh (fun e he => he)

theorem snoc_cases {α : Type} {h h1 h2 : List α} {e x : α} (he : h ++ [e] = h1 ++ x :: h2) :
    (∃ g2, h = h1 ++ x :: g2) ∨ (h = h1 ∧ x = e) := by
  rcases List.eq_nil_or_concat h2 with rfl | ⟨g, y, rfl⟩
  · right
    obtain ⟨a, b⟩ := List.append_inj' he rfl
    injection b with b
    exact ⟨a, b.symm⟩
  · left
    rw [List.concat_eq_append] at he
    have : h ++ [e] = (h1 ++ x :: g) ++ [y] := by simpa using he
    exact ⟨g, (List.append_inj' this rfl).1⟩

theorem snoc_split {α : Type} {h h1 h2 : List α} {e x : α} (he : h ++ [e] = h1 ++ x :: h2) (hne : x ≠ e) :
    ∃ g2, h = h1 ++ x :: g2 := (snoc_cases he).resolve_right fun h => hne h.2

/-- A chunk has one first write. -/
theorem first_data {c : WConf} {s : WSys} (hrun : WRun c s) {i : Nat} {d d' : Bytes} {r r' : Resp} {t t' : Int}
    (h : .first i d r t ∈ s.hist) (h' : .first i d' r' t' ∈ s.hist) : d = d' := by
  obtain ⟨a, b, e⟩ := mem_split h
  obtain ⟨a', b', e'⟩ := mem_split h'
  have n := C42_numbering c s hrun a b i d r t e
  have n' := C42_numbering c s hrun a' b' i d' r' t' e'
  rw [e] at e'
  rcases List.append_eq_append_iff.1 e' with ⟨x, e1, e2⟩ | ⟨x, e1, e2⟩
  · cases x with
    | nil => simp at e2; exact e2.1.1
    | cons y ys =>
      simp only [List.cons_append, List.cons.injEq] at e2
      obtain ⟨rfl, -⟩ := e2
      rw [e1, List.countP_append, List.countP_cons] at n'
      simp [isFirst] at n'
      omega
  · cases x with
    | nil => simp at e2; exact e2.1.1.symm
    | cons y ys =>
      simp only [List.cons_append, List.cons.injEq] at e2
      obtain ⟨rfl, -⟩ := e2
      rw [e1, List.countP_append, List.countP_cons] at n
      simp [isFirst] at n
      omega

/-- The lines of an accepted chunk have been handled. -/
theorem handled_accepted {c : WConf} {s : WSys} (hrun : WRun c s) {ws : List (Bytes × Int)} (hh : Handled s.hist ws)
    (i : Nat) (d : Bytes) (r : Resp) (t : Int) (hf : .first i d r t ∈ s.hist) (ha : Accepted s.hist i)
    (line : Bytes) (hl : line ∈ linesOf d) : ∃ t', (line, t') ∈ ws := by
  have uniq : ∀ d' r' t', .first i d' r' t' ∈ s.hist → d' = d := by
    intro d' r' t' hf'
    exact first_data hrun hf' hf
  have key : ∀ (h : List WEv) (ws : List (Bytes × Int)), Handled h ws →
      ((∀ d' r' t', .first i d' r' t' ∈ h → Resp.Ok r' → ∀ line ∈ linesOf d', ∃ t', (line, t') ∈ ws) ∧
      (∀ h1 h2 r' t', h = h1 ++ .result i r' t' :: h2 → Resp.Ok r' →
        ∀ d' t0, .attempt i d' t0 ∈ h1 → ∀ line ∈ linesOf d', ∃ t', (line, t') ∈ ws)) := by
    intro h ws hh
    induction hh with
    | nil => exact ⟨(fun _ _ _ h => by cases h), (fun h1 h2 _ _ h => by cases h1 <;> cases h)⟩
    | @firstOk h ws i' d1 r1 t1 _ hok ih =>
      refine ⟨?_, ?_⟩
      · intro d' r' t' hm hr line hl
        rcases List.mem_append.1 hm with hm | hm
        · obtain ⟨t2, h2⟩ := ih.1 d' r' t' hm hr line hl
          exact ⟨t2, List.mem_append_left _ h2⟩
        · have hm : WEv.first i d' r' t' = .first i' d1 r1 t1 := by simpa using hm
          injection hm with e1 e2 e3 e4
          subst e2
          exact ⟨t1, List.mem_append_right _ (List.mem_map.2 ⟨line, hl, rfl⟩)⟩
      · intro h1 h2 r' t' he hr d' t0 hm line hl
        obtain ⟨g2, e1⟩ := snoc_split he (by intro h; cases h)
        obtain ⟨t2, h3⟩ := ih.2 h1 g2 r' t' e1 hr d' t0 hm line hl
        exact ⟨t2, List.mem_append_left _ h3⟩
    | @retryOk h ws i' r1 t1 _ hok hall ih =>
      refine ⟨?_, ?_⟩
      · intro d' r' t' hm hr
        rcases List.mem_append.1 hm with hm | hm
        · exact ih.1 d' r' t' hm hr
        · cases (List.mem_singleton.1 hm)
      · intro h1 h2 r' t' he hr d' t0 hm
        rcases snoc_cases he with ⟨g2, e1⟩ | ⟨e1, e2⟩
        · exact ih.2 h1 g2 r' t' e1 hr d' t0 hm
        · injection e2 with e2
          subst e2
          subst e1
          exact hall d' t0 hm
    | @other h ws e _ hn1 hn2 ih =>
      refine ⟨?_, ?_⟩
      · intro d' r' t' hm hr
        rcases List.mem_append.1 hm with hm | hm
        · exact ih.1 d' r' t' hm hr
        · have hm : WEv.first i d' r' t' = e := by simpa using hm
          exact absurd hr (hn1 _ _ _ _ hm.symm)
      · intro h1 h2 r' t' he hr d' t0 hm
        obtain ⟨g2, e1⟩ := snoc_split he (by intro h; exact hn2 _ _ _ h.symm hr)
        exact ih.2 h1 g2 r' t' e1 hr d' t0 hm
    | late d1 line1 t1 _ _ _ ih =>
      refine ⟨?_, ?_⟩
      · intro d' r' t' hm hr line hl
        obtain ⟨t2, h2⟩ := ih.1 d' r' t' hm hr line hl
        exact ⟨t2, List.mem_append_left _ h2⟩
      · intro h1 h2 r' t' he hr d' t0 hm line hl
        obtain ⟨t2, h3⟩ := ih.2 h1 h2 r' t' he hr d' t0 hm line hl
        exact ⟨t2, List.mem_append_left _ h3⟩
  obtain ⟨k1, k2⟩ := key s.hist ws hh
  rcases ha with ⟨d', r', t', hf', hok⟩ | ⟨r', t', hm, hok⟩
  · have := uniq d' r' t' hf'
    subst this
    exact k1 d' r' t' hf' hok line hl
  · obtain ⟨h1, h2, e⟩ := mem_split hm
    obtain ⟨l3, d', t0, l4, e3, -⟩ := C41_one_at_a_time c s hrun h1 h2 i r' t' e
    have hat : .attempt i d' t0 ∈ h1 := by rw [e3]; simp
    have hat2 : .attempt i d' t0 ∈ s.hist := by rw [e]; exact List.mem_append_left _ hat
    obtain ⟨⟨r0, t1, hf0⟩, -⟩ := C42_same_data c s hrun i d' t0 hat2
    have := uniq d' r0 t1 hf0
    subst this
    exact k2 h1 h2 r' t' e hok d' t0 hat line hl

/-! ## Lines sent and lines received -/

/-- The bodies of the first writes. -/
def firstBodies (h : List WEv) : List Bytes := h.flatMap fun e => match e with | .first _ d _ _ => [d] | _ => []

theorem mem_firstBodies {h : List WEv} {d : Bytes} : d ∈ firstBodies h ↔ ∃ i r t, WEv.first i d r t ∈ h := by
  unfold firstBodies
  rw [List.mem_flatMap]
  constructor
  · rintro ⟨e, he, hd⟩
    cases e <;> simp at hd
    subst hd
    exact ⟨_, _, _, he⟩
  · rintro ⟨i, r, t, h⟩
    exact ⟨_, h, by simp⟩

theorem firstBodies_flatten (h : List WEv) : (firstBodies h).flatten = firstData h := by
  induction h with
  | nil => rfl
  | cons e h ih =>
    cases e <;> simpa [firstBodies, firstData] using ih

/-- The lines sent in first writes and those still to be sent are the lines received. -/
theorem lines_sent {c : WConf} {s : WSys} (hc : 1 ≤ c.batchMaxSize) (h : WRun c s) (hw : WholeMessages c s) :
    (firstBodies s.hist).flatMap linesOf ++ linesOf (unsentBytes s) = linesReceived c s := by
  have hcomp : ∀ d : Bytes, CompleteText d → d = [] ∨ d.getLast? = some NL := by
    rintro d ⟨ls, h1, rfl⟩
    rcases List.eq_nil_or_concat ls with rfl | ⟨ls', l, rfl⟩
    · left; rfl
    · right; rw [List.concat_eq_append]; simp [List.getLast?_append]
  have hW : WholeLines c s.hist := fun m hm => ⟨hcomp m (hw m hm).1, (hw m hm).2⟩
  obtain ⟨hl, -⟩ := h.binv.lines hc hW
  have hb : ∀ d ∈ firstBodies s.hist, d = [] ∨ d.getLast? = some NL := by
    intro d hd
    obtain ⟨i, r, t, hf⟩ := mem_firstBodies.1 hd
    exact Or.inr (hl i d r t hf)
  have hfd : firstData s.hist = [] ∨ (firstData s.hist).getLast? = some NL := by
    rw [← firstBodies_flatten]
    rcases List.eq_nil_or_concat (firstBodies s.hist) with e | ⟨xs, x, e⟩
    · left; rw [e]; rfl
    · rw [List.concat_eq_append] at e
      right
      have hx : x ∈ firstBodies s.hist := by rw [e]; simp
      obtain ⟨i, r, t, hf⟩ := mem_firstBodies.1 hx
      rw [e, List.flatten_append]
      simp only [List.flatten_cons, List.flatten_nil, List.append_nil]
      rw [List.getLast?_append, hl i x r t hf]
      rfl
  have hps : ∀ p ∈ (received s.hist).flatMap fun d => pieces c.rules d, p = [] ∨ p.getLast? = some NL := by
    intro p hp
    obtain ⟨m, hm, hp⟩ := List.mem_flatMap.1 hp
    unfold pieces at hp
    split at hp
    · simp at hp; subst hp
      exact (hW p hm).1
    · have hp := (List.mem_filter.1 hp).1
      obtain ⟨body, hb1, rfl⟩ := linesOf_complete m (hW m hm).1 p hp
      exact Or.inr (by simp)
  have hall := congrArg linesOf (C34_every_matching_line_once c s h)
  rw [linesOf_append _ _ hfd, ← firstBodies_flatten, linesOf_flatten_complete _ hb, linesOf_flatten_complete _ hps] at hall
  rw [hall]
  unfold linesReceived
  rw [List.flatMap_assoc]

/-- Lines handled were received. -/
theorem handled_received {c : WConf} {s : WSys} (hc : 1 ≤ c.batchMaxSize) (h : WRun c s) (hw : WholeMessages c s)
    {ws : List (Bytes × Int)} (hh : Handled s.hist ws) : ∀ w ∈ ws, w.1 ∈ linesReceived c s := by
  intro w hwm
  obtain ⟨i, d, r, t, hf, hl⟩ := handled_from h hh w hwm
  rw [← lines_sent hc h hw]
  apply List.mem_append_left
  exact List.mem_flatMap.2 ⟨d, mem_firstBodies.2 ⟨i, r, t, hf⟩, hl⟩

/-! ## C110 -/

/-- **C110 (partial).** InfluxDB never stores anything but what a received line says.  Missing of C110: that it is the
last of several values of one field of one point (see `C110_old_value_may_win`). -/
theorem C110_nothing_else_partial (c : WConf) (s : WSys) (h : WRun c s) (hc : 1 ≤ c.batchMaxSize) (hw : WholeMessages c s)
    (sets : Int → Bytes → List (K × V)) (ws : List (Bytes × Int)) (hh : Handled s.hist ws) (k : K) (v : V)
    (hk : stored sets ws k = some v) : ∃ line ∈ linesReceived c s, ∃ t, (k, v) ∈ sets t line := by
  rw [stored_eq] at hk
  obtain ⟨w, hwm, hkv⟩ := List.mem_flatMap.1 (lastValue_mem hk)
  exact ⟨w.1, handled_received hc h hw hh w hwm, w.2, hkv⟩

/-- **C110 (partial).** If no field of a point is given two different values, then once InfluxDB has accepted a chunk, at
the first write or at a retry, the values of its lines are stored from then on, whatever is sent, sent again or handled
late.  Missing: lines that give different values to the same field of a point, and lines without timestamp. -/
theorem C110_accepted_is_stored_partial (c : WConf) (s : WSys) (h : WRun c s) (hc : 1 ≤ c.batchMaxSize)
    (hw : WholeMessages c s) (sets : Int → Bytes → List (K × V)) (ws : List (Bytes × Int)) (hh : Handled s.hist ws)
    (hts : Timestamped sets (linesReceived c s)) (hcons : Consistent sets (linesReceived c s))
    (i : Nat) (d : Bytes) (r : Resp) (t : Int) (hf : .first i d r t ∈ s.hist) (ha : Accepted s.hist i)
    (line : Bytes) (hl : line ∈ linesOf d) (k : K) (v : V) (t' : Int) (hk : (k, v) ∈ sets t' line) :
    stored sets ws k = some v := by
  obtain ⟨t1, h1⟩ := handled_accepted h hh i d r t hf ha line hl
  have hlr := handled_received hc h hw hh _ h1
  have h2 : (k, v) ∈ ws.flatMap fun w => sets w.2 w.1 :=
    List.mem_flatMap.2 ⟨_, h1, by rw [hts line hlr t' t1] at hk; exact hk⟩
  obtain ⟨v', hv'⟩ := lastValue_some h2
  obtain ⟨w, hwm, hkv⟩ := List.mem_flatMap.1 (lastValue_mem hv')
  have := hcons line hlr w.1 (handled_received hc h hw hh w hwm) t' w.2 k v v' hk hkv
  rw [stored_eq, hv', this]

/-- **C110 (partial).** If moreover everything received was in the end accepted, InfluxDB stores what it would store if
each line had been written once, in order.  Missing: as above. -/
theorem C110_same_as_once_partial (c : WConf) (s : WSys) (h : WRun c s) (hc : 1 ≤ c.batchMaxSize)
    (hw : WholeMessages c s) (sets : Int → Bytes → List (K × V)) (ws : List (Bytes × Int)) (hh : Handled s.hist ws)
    (hts : Timestamped sets (linesReceived c s)) (hcons : Consistent sets (linesReceived c s)) (ha : AllAccepted s) (k : K) :
    stored sets ws k = stored sets (onceInOrder c s 0) k := by
  have hls := lines_sent hc h hw
  rw [ha.1, show linesOf [] = [] from by simp [linesOf_nil], List.append_nil] at hls
  have hmem : ∀ v, (k, v) ∈ (ws.flatMap fun w => sets w.2 w.1) ↔
      (k, v) ∈ (onceInOrder c s 0).flatMap fun w => sets w.2 w.1 := by
    intro v
    rw [List.mem_flatMap, List.mem_flatMap]
    constructor
    · rintro ⟨w, hwm, hkv⟩
      have hr := handled_received hc h hw hh w hwm
      refine ⟨(w.1, 0), List.mem_map.2 ⟨w.1, hr, rfl⟩, ?_⟩
      rw [hts w.1 hr 0 w.2]
      exact hkv
    · rintro ⟨w, hwm, hkv⟩
      obtain ⟨line, hlr, rfl⟩ := List.mem_map.1 hwm
      have hlr2 := hlr
      rw [← hls] at hlr2
      obtain ⟨d, hd, hld⟩ := List.mem_flatMap.1 hlr2
      obtain ⟨i, r, t, hf⟩ := mem_firstBodies.1 hd
      obtain ⟨t1, h1⟩ := handled_accepted h hh i d r t hf (ha.2 i d r t hf) line hld
      exact ⟨_, h1, by rw [hts line hlr t1 0]; exact hkv⟩
  rw [stored_eq, stored_eq]
  cases h1 : lastValue (ws.flatMap fun w => sets w.2 w.1) k with
  | none =>
    cases h2 : lastValue ((onceInOrder c s 0).flatMap fun w => sets w.2 w.1) k with
    | none => rfl
    | some v =>
      obtain ⟨v', hv'⟩ := lastValue_some ((hmem v).2 (lastValue_mem h2))
      rw [h1] at hv'
      cases hv'
  | some v =>
    have m1 := lastValue_mem h1
    obtain ⟨v', hv'⟩ := lastValue_some ((hmem v).1 m1)
    have m2 := (hmem v').2 (lastValue_mem hv')
    obtain ⟨w1, a1, b1⟩ := List.mem_flatMap.1 m1
    obtain ⟨w2, a2, b2⟩ := List.mem_flatMap.1 m2
    have := hcons w1.1 (handled_received hc h hw hh w1 a1) w2.1 (handled_received hc h hw hh w2 a2) w1.2 w2.2 k v v' b1 b2
    rw [hv', this]

theorem flatMap_congr_mem {α β : Type} {l : List α} {f g : α → List β} (h : ∀ a ∈ l, f a = g a) :
    l.flatMap f = l.flatMap g := by
  induction l with
  | nil => rfl
  | cons a l ih =>
    rw [List.flatMap_cons, List.flatMap_cons, h a (by simp), ih (fun x hx => h x (List.mem_cons_of_mem _ hx))]

/-- Without failures exactly the lines sent are handled, in order. -/
theorem handled_exact {c : WConf} {s : WSys} (h : WRun c s) (hok : ∀ i d r t, .first i d r t ∈ s.hist → Resp.Ok r)
    {ws : List (Bytes × Int)} (hh : Handled s.hist ws) : ws.map (·.1) = (firstBodies s.hist).flatMap linesOf := by
  have noatt : ∀ i d t, .attempt i d t ∉ s.hist := by
    intro i d t ha
    obtain ⟨-, d', r, t0, hf, hn⟩ := C42_same_data c s h i d t ha
    exact hn (hok _ _ _ _ hf)
  have key : ∀ (h : List WEv) (ws : List (Bytes × Int)), Handled h ws → (∀ e ∈ h, e ∈ s.hist) →
      ws.map (·.1) = (firstBodies h).flatMap linesOf := by
    intro h ws hh
    have app : ∀ (h : List WEv) (e : WEv), firstBodies (h ++ [e]) = firstBodies h ++ firstBodies [e] := by
      intro h e
      unfold firstBodies
      rw [List.flatMap_append]
    induction hh with
    | nil => intro _; rfl
    | firstOk i d r t _ _ ih =>
      intro hsub
      rw [List.map_append, ih (fun e he => hsub e (List.mem_append_left _ he)), app, List.flatMap_append, List.map_map]
      simp [firstBodies, Function.comp_def]
    | retryOk i r t _ _ _ ih =>
      intro hsub
      rw [ih (fun e he => hsub e (List.mem_append_left _ he)), app, List.flatMap_append]
      simp [firstBodies]
    | @other h ws e _ hn1 _ ih =>
      intro hsub
      rw [ih (fun e he => hsub e (List.mem_append_left _ he)), app, List.flatMap_append]
      cases e with
      | first i d r t => exact absurd (hok i d r t (hsub _ (List.mem_append_right _ (by simp)))) (hn1 i d r t rfl)
      | _ => simp [firstBodies]
    | late d line t _ hp _ _ =>
      intro hsub
      exfalso
      rcases hp with ⟨i, r, t', hf, hn⟩ | ⟨i, t', ha⟩
      · exact hn (hok _ _ _ _ (hsub _ hf))
      · exact noatt _ _ _ (hsub _ ha)
  exact key s.hist ws hh (fun e he => he)

/-- **C110.** As long as no write fails, the claim holds without conditions on the values: the last value received of
each field of each point is the one stored. -/
theorem C110_no_failure_partial (c : WConf) (s : WSys) (h : WRun c s) (hc : 1 ≤ c.batchMaxSize) (hw : WholeMessages c s)
    (sets : Int → Bytes → List (K × V)) (ws : List (Bytes × Int)) (hh : Handled s.hist ws)
    (hts : Timestamped sets (linesReceived c s)) (hok : ∀ i d r t, .first i d r t ∈ s.hist → Resp.Ok r)
    (hu : unsentBytes s = []) (k : K) : stored sets ws k = stored sets (onceInOrder c s 0) k := by
  have hls := lines_sent hc h hw
  rw [hu, show linesOf [] = [] from by simp [linesOf_nil], List.append_nil, ← handled_exact h hok hh] at hls
  rw [stored_eq, stored_eq]
  have : (ws.flatMap fun w => sets w.2 w.1) = (onceInOrder c s 0).flatMap fun w => sets w.2 w.1 := by
    unfold onceInOrder
    rw [← hls, List.map_map, List.flatMap_map]
    apply flatMap_congr_mem
    intro w hwm
    exact hts w.1 (handled_received hc h hw hh w hwm) w.2 0
  rw [this]

/-! ## Where the claim fails -/

/-- Batches of one message, one batch kept for retries. -/
def exStoreConf : WConf := ⟨1, 1000, 10, [], 1, 5, 1000⟩

/-- The part of a text before the first `c` and the part after it. -/
def exCut (c : Byte) (l : Bytes) : Bytes × Bytes := (l.takeWhile (· ≠ c), (l.dropWhile (· ≠ c)).drop 1)

/-- A simple reading of lines `measurement field=value timestamp`: the key is the measurement, the field and the
timestamp, or the time at which the line is handled. -/
def exSets (t : Int) (l : Bytes) : List ((Bytes × Bytes × Int ⊕ Bytes × Bytes × Bytes) × Bytes) :=
  let (m, r) := exCut SP (l.takeWhile (· ≠ NL))
  let (f, r) := exCut EQ r
  let (v, ts) := exCut SP r
  if ts = [] then [(.inl (m, f, t), v)] else [(.inr (m, f, ts), v)]

/-- Two values of the same field of the same point; the write of the first one fails and is retried after the second. -/
def exOverwrite : List WAct :=
  [.recv b!"a v=1 7\n", .check, .first .transport, .handoff, .arm, .input, .sent, .recv b!"a v=2 7\n", .check,
   .first (.status 204), .sent, .arm, .tick 5, .fire, .finish (.status 204)]

def exOverwriteHist : List WEv :=
  [.recv b!"a v=1 7\n" 0, .flush b!"a v=1 7\n" 0, .first 0 b!"a v=1 7\n" .transport 0, .queued 0 0, .recv b!"a v=2 7\n" 0,
   .flush b!"a v=2 7\n" 0, .first 1 b!"a v=2 7\n" (.status 204) 0, .attempt 0 b!"a v=1 7\n" 5, .result 0 (.status 204) 5]

theorem exOverwrite_run : ∃ s, WRun exStoreConf s ∧ s.hist = exOverwriteHist ∧ unsentBytes s = [] := by
  obtain ⟨s, h1, h2⟩ := wRun_hist (fun s => (s.hist, unsentBytes s)) (exOverwriteHist, []) (c := exStoreConf) 100000 0
    exOverwrite (by decide +kernel)
  simp only [Prod.mk.injEq] at h2
  exact ⟨s, h1, h2⟩

theorem ok204 : Resp.Ok (.status 204) := ⟨204, rfl, by decide, by decide⟩

theorem notOk_transport : ¬ Resp.Ok .transport := by rintro ⟨_, h, -⟩; cases h

/-- What happens if InfluxDB did not see the first request at all, and answered the others. -/
theorem exOverwrite_handled : Handled exOverwriteHist [(b!"a v=2 7\n", 0), (b!"a v=1 7\n", 5)] := by
  have h0 : Handled [.recv b!"a v=1 7\n" 0] [] := Handled.other (h := []) _ .nil (by simp) (by simp)
  have h1 := Handled.other (.flush b!"a v=1 7\n" 0) h0 (by simp) (by simp)
  have h2 := Handled.other (.first 0 b!"a v=1 7\n" .transport 0) h1
    (by intro i d r t h; injection h with _ _ h; subst h; exact notOk_transport) (by simp)
  have h3 := Handled.other (.queued 0 0) h2 (by simp) (by simp)
  have h4 := Handled.other (.recv b!"a v=2 7\n" 0) h3 (by simp) (by simp)
  have h5 := Handled.other (.flush b!"a v=2 7\n" 0) h4 (by simp) (by simp)
  have h6 := Handled.firstOk 1 b!"a v=2 7\n" (.status 204) 0 h5 ok204
  have h7 := Handled.other (.attempt 0 b!"a v=1 7\n" 5) h6 (by simp) (by simp)
  have h8 := Handled.late b!"a v=1 7\n" b!"a v=1 7\n" 5 h7 (Or.inr ⟨0, 5, by simp⟩) (by decide)
  have h9 := Handled.retryOk 0 (.status 204) 5 h8 ok204 (by
    intro d t0 hm line hl
    have hd : d = b!"a v=1 7\n" := by
      simp at hm
      exact hm.1
    subst hd
    have : line = b!"a v=1 7\n" := by
      have e : linesOf b!"a v=1 7\n" = [b!"a v=1 7\n"] := by decide
      rw [e] at hl
      simpa using hl
    subst this
    exact ⟨5, by simp⟩)
  have e : linesOf b!"a v=2 7\n" = [b!"a v=2 7\n"] := by decide
  simpa [e, exOverwriteHist] using h9

theorem received_overwrite {s : WSys} (h : s.hist = exOverwriteHist) :
    linesReceived exStoreConf s = [b!"a v=1 7\n", b!"a v=2 7\n"] := by
  have e1 : linesOf b!"a v=1 7\n" = [b!"a v=1 7\n"] := by decide
  have e2 : linesOf b!"a v=2 7\n" = [b!"a v=2 7\n"] := by decide
  unfold linesReceived
  rw [h, show received exOverwriteHist = [b!"a v=1 7\n", b!"a v=2 7\n"] by decide]
  simp [exStoreConf, pieces, e1, e2]

/-- **C110 is false of the code (1)**: a value that was written late, by a retry, replaces a newer value of the same field
of the same point, although both were accepted. -/
theorem C110_old_value_may_win : ¬ StoredAsReceived := by
  intro hall
  obtain ⟨s, h1, h2, h3⟩ := exOverwrite_run
  have hr := received_overwrite h2
  have hrec : received s.hist = [b!"a v=1 7\n", b!"a v=2 7\n"] := by rw [h2]; decide
  have := hall (Bytes × Bytes × Int ⊕ Bytes × Bytes × Bytes) Bytes exStoreConf s exSets _ h1 (by decide) (by
      intro m hm
      rw [hrec] at hm
      have hm' : m = b!"a v=1 7\n" ∨ m = b!"a v=2 7\n" := by simpa using hm
      rcases hm' with rfl | rfl
      · exact ⟨⟨[b!"a v=1 7"], by decide, by decide⟩, by decide⟩
      · exact ⟨⟨[b!"a v=2 7"], by decide, by decide⟩, by decide⟩)
    (by
      intro line hl t t'
      rw [hr] at hl
      have hm' : line = b!"a v=1 7\n" ∨ line = b!"a v=2 7\n" := by simpa using hl
      rcases hm' with rfl | rfl <;> rfl)
    (by rw [h2]; exact exOverwrite_handled)
    ⟨h3, by
      intro i d r t hf
      rw [h2] at hf ⊢
      simp [exOverwriteHist] at hf
      rcases hf with ⟨rfl, -⟩ | ⟨rfl, -⟩
      · exact Or.inr ⟨.status 204, 5, by simp [exOverwriteHist], ok204⟩
      · exact Or.inl ⟨b!"a v=2 7\n", .status 204, 0, by simp [exOverwriteHist], ok204⟩⟩
    (.inr (b!"a", b!"v", b!"7"))
  unfold onceInOrder at this
  rw [hr] at this
  revert this
  decide

/-- Two different points; the first write of the first one is handled, but its answer is lost, and it is retried after the
second was written. -/
def exAgain : List WAct :=
  [.recv b!"a v=1 7\n", .check, .first .transport, .handoff, .arm, .input, .sent, .recv b!"b v=2 7\n", .check,
   .first (.status 204), .sent, .arm, .tick 5, .fire, .finish (.status 204)]

def exAgainHist : List WEv :=
  [.recv b!"a v=1 7\n" 0, .flush b!"a v=1 7\n" 0, .first 0 b!"a v=1 7\n" .transport 0, .queued 0 0, .recv b!"b v=2 7\n" 0,
   .flush b!"b v=2 7\n" 0, .first 1 b!"b v=2 7\n" (.status 204) 0, .attempt 0 b!"a v=1 7\n" 5, .result 0 (.status 204) 5]

theorem exAgain_handled : Handled exAgainHist [(b!"a v=1 7\n", 0), (b!"b v=2 7\n", 0), (b!"a v=1 7\n", 5)] := by
  have h0 : Handled [.recv b!"a v=1 7\n" 0] [] := Handled.other (h := []) _ .nil (by simp) (by simp)
  have h1 := Handled.other (.flush b!"a v=1 7\n" 0) h0 (by simp) (by simp)
  have h2 := Handled.other (.first 0 b!"a v=1 7\n" .transport 0) h1
    (by intro i d r t h; injection h with _ _ h; subst h; exact notOk_transport) (by simp)
  have h2' := Handled.late b!"a v=1 7\n" b!"a v=1 7\n" 0 h2 (Or.inl ⟨0, .transport, 0, by simp, notOk_transport⟩) (by decide)
  have h3 := Handled.other (.queued 0 0) h2' (by simp) (by simp)
  have h4 := Handled.other (.recv b!"b v=2 7\n" 0) h3 (by simp) (by simp)
  have h5 := Handled.other (.flush b!"b v=2 7\n" 0) h4 (by simp) (by simp)
  have h6 := Handled.firstOk 1 b!"b v=2 7\n" (.status 204) 0 h5 ok204
  have h7 := Handled.other (.attempt 0 b!"a v=1 7\n" 5) h6 (by simp) (by simp)
  have h8 := Handled.late b!"a v=1 7\n" b!"a v=1 7\n" 5 h7 (Or.inr ⟨0, 5, by simp⟩) (by decide)
  have h9 := Handled.retryOk 0 (.status 204) 5 h8 ok204 (by
    intro d t0 hm line hl
    have hd : d = b!"a v=1 7\n" := by
      simp at hm
      exact hm.1
    subst hd
    have : line = b!"a v=1 7\n" := by
      have e : linesOf b!"a v=1 7\n" = [b!"a v=1 7\n"] := by decide
      rw [e] at hl
      simpa using hl
    subst this
    exact ⟨5, by simp⟩)
  have e : linesOf b!"b v=2 7\n" = [b!"b v=2 7\n"] := by decide
  simpa [e, exAgainHist] using h9

/-- All hypotheses of the positive theorems are met by this run, in which one line is handled twice. -/
example : ∃ (s : WSys) (ws : List (Bytes × Int)), WRun exStoreConf s ∧ WholeMessages exStoreConf s ∧ Handled s.hist ws ∧
    Timestamped exSets (linesReceived exStoreConf s) ∧ Consistent exSets (linesReceived exStoreConf s) ∧ AllAccepted s ∧
    ws.length = 3 ∧ stored exSets ws (.inr (b!"a", b!"v", b!"7")) = some b!"1" := by
  obtain ⟨s, h1, h2⟩ := wRun_hist (fun s => (s.hist, unsentBytes s)) (exAgainHist, []) (c := exStoreConf) 100000 0
    exAgain (by decide +kernel)
  simp only [Prod.mk.injEq] at h2
  obtain ⟨h2, h3⟩ := h2
  have hrec : received s.hist = [b!"a v=1 7\n", b!"b v=2 7\n"] := by rw [h2]; decide
  have hr : linesReceived exStoreConf s = [b!"a v=1 7\n", b!"b v=2 7\n"] := by
    have e1 : linesOf b!"a v=1 7\n" = [b!"a v=1 7\n"] := by decide
    have e2 : linesOf b!"b v=2 7\n" = [b!"b v=2 7\n"] := by decide
    unfold linesReceived
    rw [hrec]
    simp [exStoreConf, pieces, e1, e2]
  have hs1 : ∀ t, exSets t b!"a v=1 7\n" = [(.inr (b!"a", b!"v", b!"7"), b!"1")] := fun t => rfl
  have hs2 : ∀ t, exSets t b!"b v=2 7\n" = [(.inr (b!"b", b!"v", b!"7"), b!"2")] := fun t => rfl
  refine ⟨s, _, h1, ?_, by rw [h2]; exact exAgain_handled, ?_, ?_, ⟨h3, ?_⟩, rfl, by decide⟩
  · intro m hm
    rw [hrec] at hm
    have hm' : m = b!"a v=1 7\n" ∨ m = b!"b v=2 7\n" := by simpa using hm
    rcases hm' with rfl | rfl
    · exact ⟨⟨[b!"a v=1 7"], by decide, by decide⟩, by decide⟩
    · exact ⟨⟨[b!"b v=2 7"], by decide, by decide⟩, by decide⟩
  · intro line hl t t'
    rw [hr] at hl
    have hm' : line = b!"a v=1 7\n" ∨ line = b!"b v=2 7\n" := by simpa using hl
    rcases hm' with rfl | rfl <;> rfl
  · intro l hl l' hl' t t' k v v' ha hb
    rw [hr] at hl hl'
    have hm : l = b!"a v=1 7\n" ∨ l = b!"b v=2 7\n" := by simpa using hl
    have hm' : l' = b!"a v=1 7\n" ∨ l' = b!"b v=2 7\n" := by simpa using hl'
    rcases hm with rfl | rfl <;> rcases hm' with rfl | rfl <;> simp only [hs1, hs2, List.mem_singleton, Prod.mk.injEq] at ha hb
    · rw [ha.2, hb.2]
    · rw [ha.1] at hb; exact absurd hb.1 (by decide)
    · rw [ha.1] at hb; exact absurd hb.1 (by decide)
    · rw [ha.2, hb.2]
  · intro i d r t hf
    rw [h2] at hf ⊢
    simp [exAgainHist] at hf
    rcases hf with ⟨rfl, -⟩ | ⟨rfl, -⟩
    · exact Or.inr ⟨.status 204, 5, by simp [exAgainHist], ok204⟩
    · exact Or.inl ⟨b!"b v=2 7\n", .status 204, 0, by simp [exAgainHist], ok204⟩

/-- One line without timestamp; InfluxDB handles the write but the answer is lost. -/
def exTwice : List WAct :=
  [.recv b!"a v=1\n", .check, .first .transport, .handoff, .arm, .input, .sent, .arm, .tick 5, .fire, .finish (.status 204)]

def exTwiceHist : List WEv :=
  [.recv b!"a v=1\n" 0, .flush b!"a v=1\n" 0, .first 0 b!"a v=1\n" .transport 0, .queued 0 0, .attempt 0 b!"a v=1\n" 5,
   .result 0 (.status 204) 5]

theorem exTwice_run : ∃ s, WRun exStoreConf s ∧ s.hist = exTwiceHist ∧ unsentBytes s = [] := by
  obtain ⟨s, h1, h2⟩ := wRun_hist (fun s => (s.hist, unsentBytes s)) (exTwiceHist, []) (c := exStoreConf) 100000 0
    exTwice (by decide +kernel)
  simp only [Prod.mk.injEq] at h2
  exact ⟨s, h1, h2⟩

theorem exTwice_handled : Handled exTwiceHist [(b!"a v=1\n", 0), (b!"a v=1\n", 5)] := by
  have h0 : Handled [.recv b!"a v=1\n" 0] [] := Handled.other (h := []) _ .nil (by simp) (by simp)
  have h1 := Handled.other (.flush b!"a v=1\n" 0) h0 (by simp) (by simp)
  have h2 := Handled.other (.first 0 b!"a v=1\n" .transport 0) h1
    (by intro i d r t h; injection h with _ _ h; subst h; exact notOk_transport) (by simp)
  have h3 := Handled.late b!"a v=1\n" b!"a v=1\n" 0 h2 (Or.inl ⟨0, .transport, 0, by simp, notOk_transport⟩) (by decide)
  have h4 := Handled.other (.queued 0 0) h3 (by simp) (by simp)
  have h7 := Handled.other (.attempt 0 b!"a v=1\n" 5) h4 (by simp) (by simp)
  have h8 := Handled.late b!"a v=1\n" b!"a v=1\n" 5 h7 (Or.inr ⟨0, 5, by simp⟩) (by decide)
  have h9 := Handled.retryOk 0 (.status 204) 5 h8 ok204 (by
    intro d t0 hm line hl
    have hd : d = b!"a v=1\n" := by
      simp at hm
      exact hm.1
    subst hd
    have : line = b!"a v=1\n" := by
      have e : linesOf b!"a v=1\n" = [b!"a v=1\n"] := by decide
      rw [e] at hl
      simpa using hl
    subst this
    exact ⟨5, by simp⟩)
  simpa [exTwiceHist] using h9

/-- **C110 is false of the code (2)**: one line without timestamp, received once, may be stored as two points. -/
theorem C110_untimed_line_twice : ∃ (c : WConf) (s : WSys) (ws : List (Bytes × Int)), WRun c s ∧ AllAccepted s ∧
    received s.hist = [b!"a v=1\n"] ∧ Handled s.hist ws ∧ stored exSets ws (.inl (b!"a", b!"v", 0)) = some b!"1" ∧
    stored exSets ws (.inl (b!"a", b!"v", 5)) = some b!"1" := by
  obtain ⟨s, h1, h2, h3⟩ := exTwice_run
  refine ⟨exStoreConf, s, _, h1, ⟨h3, ?_⟩, by rw [h2]; decide, by rw [h2]; exact exTwice_handled, by decide, by decide⟩
  intro i d r t hf
  rw [h2] at hf ⊢
  simp [exTwiceHist] at hf
  rw [hf.1]
  exact Or.inr ⟨.status 204, 5, by simp [exTwiceHist], ok204⟩

/-- Two values of the same field of the same point, written without failure. -/
def exFine : List WAct :=
  [.recv b!"a v=1 7\n", .check, .first (.status 204), .sent, .recv b!"a v=2 7\n", .check, .first (.status 204), .sent]

def exFineHist : List WEv :=
  [.recv b!"a v=1 7\n" 0, .flush b!"a v=1 7\n" 0, .first 0 b!"a v=1 7\n" (.status 204) 0, .recv b!"a v=2 7\n" 0,
   .flush b!"a v=2 7\n" 0, .first 1 b!"a v=2 7\n" (.status 204) 0]

/-- The hypotheses of `C110_no_failure_partial` are met, and the second value is the one stored. -/
example : ∃ (s : WSys) (ws : List (Bytes × Int)), WRun exStoreConf s ∧ WholeMessages exStoreConf s ∧ Handled s.hist ws ∧
    Timestamped exSets (linesReceived exStoreConf s) ∧ (∀ i d r t, .first i d r t ∈ s.hist → Resp.Ok r) ∧
    unsentBytes s = [] ∧ stored exSets ws (.inr (b!"a", b!"v", b!"7")) = some b!"2" := by
  obtain ⟨s, h1, h2⟩ := wRun_hist (fun s => (s.hist, unsentBytes s)) (exFineHist, []) (c := exStoreConf) 100000 0
    exFine (by decide +kernel)
  simp only [Prod.mk.injEq] at h2
  obtain ⟨h2, h3⟩ := h2
  have hrec : received s.hist = [b!"a v=1 7\n", b!"a v=2 7\n"] := by rw [h2]; decide
  have e1 : linesOf b!"a v=1 7\n" = [b!"a v=1 7\n"] := by decide
  have e2 : linesOf b!"a v=2 7\n" = [b!"a v=2 7\n"] := by decide
  refine ⟨s, [(b!"a v=1 7\n", 0), (b!"a v=2 7\n", 0)], h1, ?_, ?_, ?_, ?_, h3, by decide⟩
  · intro m hm
    rw [hrec] at hm
    have hm' : m = b!"a v=1 7\n" ∨ m = b!"a v=2 7\n" := by simpa using hm
    rcases hm' with rfl | rfl
    · exact ⟨⟨[b!"a v=1 7"], by decide, by decide⟩, by decide⟩
    · exact ⟨⟨[b!"a v=2 7"], by decide, by decide⟩, by decide⟩
  · have h0 : Handled [.recv b!"a v=1 7\n" 0] [] := Handled.other (h := []) _ .nil (by simp) (by simp)
    have h1 := Handled.other (.flush b!"a v=1 7\n" 0) h0 (by simp) (by simp)
    have h2' := Handled.firstOk 0 b!"a v=1 7\n" (.status 204) 0 h1 ok204
    have h4 := Handled.other (.recv b!"a v=2 7\n" 0) h2' (by simp) (by simp)
    have h5 := Handled.other (.flush b!"a v=2 7\n" 0) h4 (by simp) (by simp)
    have h6 := Handled.firstOk 1 b!"a v=2 7\n" (.status 204) 0 h5 ok204
    rw [h2]
    simpa [e1, e2, exFineHist] using h6
  · intro line hl t t'
    unfold linesReceived at hl
    rw [hrec] at hl
    have hm' : line = b!"a v=1 7\n" ∨ line = b!"a v=2 7\n" := by simpa [exStoreConf, pieces, e1, e2] using hl
    rcases hm' with rfl | rfl <;> rfl
  · intro i d r t hf
    rw [h2] at hf
    simp [exFineHist] at hf
    rcases hf with ⟨-, -, rfl, -⟩ | ⟨-, -, rfl, -⟩ <;> exact ok204

end Spout
