import Verif.Props.Settling

/-! # C101: without new input a deployment settles, whatever the schedule -/

set_option linter.unusedSimpArgs false

namespace Spout.Deploy
open Spout Spout.Listener Spout.Pool Spout.Spec Spout.Delivery

universe u

variable {d : Setup} {s0 s s' : State d}

/-! ## Specification -/

/-- Nothing is sent to the listeners between `s` and `s'`. -/
def NoInput (s s' : State d) : Prop := s'.listeners.map LComp.input = s.listeners.map LComp.input

/-- The same work is left to do in `s` and `s'`, and nothing was published or sent to InfluxDB for the first time in between. -/
structure SameWork (s s' : State d) : Prop where
  /-- the listeners' batches and requests -/
  listeners : s'.listeners.map LComp.left = s.listeners.map LComp.left
  /-- the messages waiting for the filters -/
  filters : s'.filters.waiting = s.filters.waiting
  /-- the messages the filters are working on -/
  working : s'.filters.live.map (·.working) = s.filters.live.map (·.working)
  /-- the messages waiting for the downsamplers -/
  downs : s'.downs.map (·.inp.waiting) = s.downs.map (·.inp.waiting)
  /-- the windows they hold -/
  windows : s'.downs.map (fun y => y.inp.live.map fun k => windowsLeft k.w.a) = s.downs.map (fun y => y.inp.live.map fun k => windowsLeft k.w.a)
  /-- the messages waiting for the writers -/
  writers : s'.writers.map (·.inp.waiting) = s.writers.map (·.inp.waiting)
  /-- what their workers have left to do -/
  workers : s'.writers.map (fun x => x.inp.live.map workLeft) = s.writers.map (fun x => x.inp.live.map workLeft)
  /-- what the listeners have published -/
  outL : s'.listeners.map (·.l.pubs) = s.listeners.map (·.l.pubs)
  /-- what the filters have published -/
  outF : s'.filters.live.map (·.pubss) = s.filters.live.map (·.pubss)
  /-- what the downsamplers have published -/
  outD : s'.downs.map (fun y => y.inp.live.map (·.w.pubs)) = s.downs.map (fun y => y.inp.live.map (·.w.pubs))
  /-- what the workers of the writers have sent for the first time -/
  sent : s'.writers.map (fun x => x.inp.live.map (fun k => firstData k.hist)) = s.writers.map (fun x => x.inp.live.map (fun k => firstData k.hist))

/-- The settings of the writers are sensible. -/
def State.Sizes (s : State d) : Prop := ∀ x ∈ s.writers, 1 ≤ x.conf.batchMaxSize

/-! ## The measure -/

/-- What the downsamplers whose subject has length `r` have left to do. -/
def State.level (s : State d) (r : Nat) : Nat :=
  (s.downs.map fun y => if y.subject.length = r then 7 * y.inp.weight + y.inp.count (fun k => windowsLeft k.w.a) else 0).sum

/-- What is left to do, for each kind of component: what one does may make work for the later ones only. -/
def State.todo (s : State d) : Nat × Nat × (Nat → Nat) × Nat × Nat :=
  ((s.listeners.map LComp.todo).sum, 2 * s.filters.weight + s.filters.count busy, s.level, (s.writers.map (·.inp.weight)).sum, (s.writers.map fun x => x.inp.count workTodo).sum)

/-- The lexicographic order of the first `R + 1` numbers. -/
def LessUpTo (R : Nat) (f g : Nat → Nat) : Prop := ∃ r, r ≤ R ∧ f r < g r ∧ ∀ j, j < r → f j = g j

theorem lessUpTo_wf (R : Nat) : WellFounded (LessUpTo R) := by
  induction R with
  | zero =>
    refine Subrelation.wf (r := InvImage (· < ·) fun f : Nat → Nat => f 0) ?_ (InvImage.wf _ Nat.lt_wfRel.wf)
    rintro f g ⟨r, hr, hl, -⟩
    rw [Nat.le_zero.1 hr] at hl
    exact hl
  | succ R ih =>
    refine Subrelation.wf (r := InvImage (Prod.Lex (· < ·) (LessUpTo R)) fun f : Nat → Nat => (f 0, fun j => f (j + 1))) ?_ (InvImage.wf _ (Prod.lex Nat.lt_wfRel ⟨_, ih⟩).wf)
    rintro f g ⟨r, hr, hl, he⟩
    cases r with
    | zero => exact .left _ _ hl
    | succ r =>
      show Prod.Lex _ _ (f 0, _) (g 0, _)
      rw [he 0 (Nat.succ_pos _)]
      exact .right _ ⟨r, by omega, hl, fun j hj => he (j + 1) (by omega)⟩

/-- The lexicographic order. -/
def Less (R : Nat) : Nat × Nat × (Nat → Nat) × Nat × Nat → Nat × Nat × (Nat → Nat) × Nat × Nat → Prop :=
  Prod.Lex (· < ·) (Prod.Lex (· < ·) (Prod.Lex (LessUpTo R) (Prod.Lex (· < ·) (· < ·))))

theorem less_wf (R : Nat) : WellFounded (Less R) :=
  (Prod.lex Nat.lt_wfRel (Prod.lex Nat.lt_wfRel (Prod.lex ⟨_, lessUpTo_wf R⟩ (Prod.lex Nat.lt_wfRel Nat.lt_wfRel)))).wf

variable {R : Nat}

theorem less1 {a a' : Nat} {x x'} (h : a' < a) : Less R (a', x') (a, x) := .left _ _ h
theorem less2 {a a' b b' : Nat} {x x'} (ha : a' = a) (h : b' < b) : Less R (a', b', x') (a, b, x) := ha ▸ .right _ (.left _ _ h)
theorem less3 {a a' b b' : Nat} {c c' : Nat → Nat} {x x'} (ha : a' = a) (hb : b' = b) (h : LessUpTo R c' c) : Less R (a', b', c', x') (a, b, c, x) :=
  ha ▸ hb ▸ .right _ (.right _ (.left _ _ h))
theorem less4 {a a' b b' e e' : Nat} {c c' : Nat → Nat} {x x'} (ha : a' = a) (hb : b' = b) (hc : c' = c) (h : e' < e) : Less R (a', b', c', e', x') (a, b, c, e, x) :=
  ha ▸ hb ▸ hc ▸ .right _ (.right _ (.right _ (.left _ _ h)))
theorem less5 {a a' b b' e e' f f' : Nat} {c c' : Nat → Nat} (ha : a' = a) (hb : b' = b) (hc : c' = c) (he : e' = e) (h : f' < f) : Less R (a', b', c', e', f') (a, b, c, e, f) :=
  ha ▸ hb ▸ hc ▸ he ▸ .right _ (.right _ (.right _ (.right _ h)))

/-- Less is left to do, or nothing has changed. -/
def Settles (R : Nat) (s s' : State d) : Prop := Less R s'.todo s.todo ∨ (s'.todo = s.todo ∧ SameWork s s')

theorem SameWork.refl (s : State d) : SameWork s s := ⟨rfl, rfl, rfl, rfl, rfl, rfl, rfl, rfl, rfl, rfl, rfl⟩

theorem SameWork.trans {s1 s2 s3 : State d} (h : SameWork s1 s2) (h' : SameWork s2 s3) : SameWork s1 s3 :=
  ⟨h'.listeners.trans h.listeners, h'.filters.trans h.filters, h'.working.trans h.working, h'.downs.trans h.downs, h'.windows.trans h.windows, h'.writers.trans h.writers,
    h'.workers.trans h.workers, h'.outL.trans h.outL, h'.outF.trans h.outF, h'.outD.trans h.outD, h'.sent.trans h.sent⟩

theorem SameWork.symm (hs : SameWork s s') : SameWork s' s :=
  ⟨hs.listeners.symm, hs.filters.symm, hs.working.symm, hs.downs.symm, hs.windows.symm, hs.writers.symm, hs.workers.symm, hs.outL.symm, hs.outF.symm, hs.outD.symm, hs.sent.symm⟩

theorem publish_nil (s : State d) : s.publish [] = s := by
  have h : ∀ {W : Type} (c : Group W), c.add [] = c := fun c => Group.add_none fun _ _ => rfl
  have h1 : ∀ {W : Type 1} (c : Group W), c.add [] = c := fun c => Group.add_none fun _ _ => rfl
  unfold State.publish
  rw [h, map_same (fun (y : DComp d.fo) _ => by rw [h1]), map_same (fun (x : WComp) _ => by rw [h])]

/-! ## Listeners -/

theorem listener_settles {i : Nat} {x y : LComp} {ps ps' : List LPub} (hx : s.listeners[i]? = some x)
    (h : y.todo < x.todo ∨ (y.todo = x.todo ∧ y.left = x.left ∧ y.l.pubs = x.l.pubs ∧ ps' = ps)) :
    Settles R s (({ s with listeners := s.listeners.set i y } : State d).publish (outOn d.lsub (ps'.drop ps.length))) := by
  have hs := sum_set LComp.todo y hx
  rcases h with h | ⟨h1, h2, h3, h4⟩
  · left
    exact less1 (show ((s.listeners.set i y).map LComp.todo).sum < _ by omega)
  · right
    subst h4
    rw [List.drop_length]
    show State.todo (State.publish _ []) = _ ∧ SameWork _ (State.publish _ [])
    rw [publish_nil]
    refine ⟨?_, map_set_same y _ hx h2, rfl, rfl, rfl, rfl, rfl, rfl, map_set_same y _ hx h3, rfl, rfl, rfl⟩
    unfold State.todo
    dsimp only
    rw [map_set_same y _ hx h1]
    rfl

theorem no_input {i : Nat} {x y : LComp} (hx : s.listeners[i]? = some x) (h : (s.listeners.set i y).map LComp.input = s.listeners.map LComp.input) :
    y.input = x.input := by
  have := congrArg (fun l => l[i]?) h
  rw [List.getElem?_map, List.getElem?_map, List.getElem?_set_self (List.getElem?_eq_some_iff.1 hx).1, hx] at this
  exact Option.some.inj this

theorem empty_of_no_input {got : List UDPEvent} {e : UDPEvent} (h : (((got ++ [e]).map (·.data)).filter fun data => !data.isEmpty) =
    (got.map (·.data)).filter fun data => !data.isEmpty) : e.data = [] := by
  rw [List.map_append, List.filter_append] at h
  have := congrArg List.length h
  rw [List.length_append] at this
  by_cases he : e.data = []
  · exact he
  · simp [he] at this

theorem bytes_flag {l l' : Listener} (h : l.batch.bytes ≠ [] ∧ l'.batch.bytes = []) :
    (if l'.batch.bytes = [] then 0 else 1) < (if l.batch.bytes = [] then 0 else 1) := by
  rw [if_pos h.2, if_neg h.1]; exact Nat.zero_lt_one

/-! ## Publishing -/

/-- What downsamplers publish does not run in circles (the filters may publish to their own subject). -/
def State.Onwards (s : State d) : Prop :=
  ∀ y ∈ s.downs, y.out ≠ d.lsub ∧ ∀ z ∈ s.downs, y.out = z.subject → y.subject.length < z.subject.length

theorem down_none (I : Inv s) (A : s.Onwards) {y z : DComp d.fo} (hy : y ∈ s.downs) (hz : z ∈ s.downs) (hl : z.subject.length ≤ y.subject.length)
    {c : Group (DState d.fo)} (hc : c.subs = z.inp.subs) (ps : List LPub) : c.add (outOn y.out ps) = c := by
  apply Group.add_none
  intro t ht
  have : t.subject ∈ z.inp.subs.map (·.subject) := List.mem_map_of_mem (hc ▸ ht)
  rw [(I.downs z hz).1.subs, List.mem_singleton] at this
  rw [this, onSubj_outOn, if_neg fun e => absurd ((A y hy).2 z hz e) (by omega)]

theorem down_filters (I : Inv s) (A : s.Onwards) {y : DComp d.fo} (hy : y ∈ s.downs) (ps : List LPub) :
    s.filters.add (outOn y.out ps) = s.filters := by
  apply Group.add_none
  intro t ht
  have : t.subject ∈ s.filters.subs.map (·.subject) := List.mem_map_of_mem ht
  rw [I.filters.subs, List.mem_singleton] at this
  rw [this, onSubj_outOn, if_neg (A y hy).1]

theorem filter_none (I : Inv s) (A : s.Acyclic) {f : FComp} (hf : f ∈ s.filters.workers) {m : Bytes} {now : Int} {fail : Nat → Bool} {w' : FWorker} {st' : FStats} {pubs : List Pub}
    (hr : f.w.processBatch d.S f.st now fail m = .ok (w', st', pubs)) {c : Group FComp} (hc : c.subs = s.filters.subs) : c.add (outF pubs) = c := by
  apply Group.add_none
  intro t ht
  have : t.subject ∈ s.filters.subs.map (·.subject) := List.mem_map_of_mem (hc ▸ ht)
  rw [I.filters.subs, List.mem_singleton] at this
  rw [this]
  have := filter_subjects (ms := f.past ++ [⟨now, fail, m⟩]) (subj := d.lsub) (filterRun_snoc f.past ⟨now, fail, m⟩ (I.fran f hf) hr) A.rules A.junk
  rw [onSubj_outF]
  rw [List.flatten_append] at this
  unfold Delivery.published at this ⊢
  rw [List.filter_append, List.map_append, List.append_eq_nil_iff] at this
  simpa using this.2

/-- A downsampler changes its state: only its own level changes. -/
theorem level_set {i : Nat} {y : DComp d.fo} (hy : s.downs[i]? = some y) (c : Group (DState d.fo)) :
    (∀ r, r ≠ y.subject.length → ({ s with downs := s.downs.set i { y with inp := c } } : State d).level r = s.level r) ∧
    ({ s with downs := s.downs.set i { y with inp := c } } : State d).level y.subject.length + (7 * y.inp.weight + y.inp.count fun k => windowsLeft k.w.a) =
      s.level y.subject.length + (7 * c.weight + c.count fun k => windowsLeft k.w.a) := by
  refine ⟨fun r hr => ?_, ?_⟩
  · unfold State.level
    dsimp only
    rw [map_set_same { y with inp := c } _ hy (by dsimp only; rw [if_neg (Ne.symm hr), if_neg (Ne.symm hr)])]
  · have := sum_set (fun z : DComp d.fo => if z.subject.length = y.subject.length then 7 * z.inp.weight + z.inp.count (fun k => windowsLeft k.w.a) else 0) { y with inp := c } hy
    dsimp only at this
    rw [if_pos rfl, if_pos rfl] at this
    exact this

/-- A downsampler publishes something: neither the filters nor the downsamplers with subjects that are not longer receive it. -/
theorem downs_publish {i : Nat} (I : Inv s) (A : s.Onwards) {y : DComp d.fo} (hy : s.downs[i]? = some y) {c : Group (DState d.fo)} (hc : c.subs = y.inp.subs) (ps : List LPub) :
    (∀ r, r ≤ y.subject.length → (({ s with downs := s.downs.set i { y with inp := c } } : State d).publish (outOn y.out ps)).level r =
      ({ s with downs := s.downs.set i { y with inp := c } } : State d).level r) ∧
    (({ s with downs := s.downs.set i { y with inp := c } } : State d).publish (outOn y.out ps)).filters = s.filters := by
  refine ⟨fun r hr => ?_, down_filters I A (get_mem hy) ps⟩
  unfold State.level State.publish
  dsimp only
  rw [List.map_map]
  congr 1
  apply List.map_congr_left
  intro z hz
  dsimp only [Function.comp_apply]
  by_cases e : z.subject.length = r
  · rw [if_pos e, if_pos e]
    rcases List.mem_or_eq_of_mem_set hz with hz | rfl
    · rw [down_none I A (get_mem hy) hz (by omega) rfl]
    · dsimp only
      rw [down_none I A (get_mem hy) (get_mem hy) (Nat.le_refl _) hc]
  · rw [if_neg e, if_neg e]

/-- A downsampler does some of its work, and may publish something. -/
theorem level_less {i : Nat} (I : Inv s) (A : s.Onwards) (hR : ∀ y ∈ s.downs, y.subject.length ≤ R) {y : DComp d.fo} (hy : s.downs[i]? = some y) {c : Group (DState d.fo)} (hc : c.subs = y.inp.subs)
    (h : 7 * c.weight + c.count (fun k => windowsLeft k.w.a) < 7 * y.inp.weight + y.inp.count (fun k => windowsLeft k.w.a)) (ps : List LPub) :
    LessUpTo R (({ s with downs := s.downs.set i { y with inp := c } } : State d).publish (outOn y.out ps)).level s.level := by
  obtain ⟨h1, h2⟩ := level_set hy c
  obtain ⟨h3, -⟩ := downs_publish I A hy hc ps
  refine ⟨y.subject.length, hR y (get_mem hy), ?_, fun j hj => ?_⟩
  · rw [h3 _ (Nat.le_refl _)]; omega
  · rw [h3 j (by omega), h1 j (by omega)]

theorem windowsLeft_le {fo : FloatOps} (a : Assigner fo) : windowsLeft a ≤ 6 := by
  unfold windowsLeft
  split <;> split <;> split <;> omega

/-! ## Every step -/

/-- A worker of a filter processes a message. -/
def FilterDid (s s' : State d) : Prop :=
  ∃ (f : FComp) (m : Bytes) (now : Int) (fail : Nat → Bool) (w' : FWorker) (st' : FStats) (pubs : List Pub) (c : Group FComp), f.working = some m ∧
    f.w.processBatch d.S f.st now fail m = .ok (w', st', pubs) ∧ s.filters.Work f ⟨w', st', none, f.past ++ [⟨now, fail, m⟩], f.pubss ++ [pubs]⟩ c ∧
    s' = ({ s with filters := c } : State d).publish (outF pubs)

theorem step_settles_or (I : Inv s) (A : s.Onwards) (B : s.Sizes) (hR : ∀ y ∈ s.downs, y.subject.length ≤ R) (h : Step d s s') (hn : NoInput s s') :
    Settles R s s' ∨ FilterDid s s' := by
  by_cases hF : FilterDid s s'
  · exact Or.inr hF
  left
  cases h with
  | udp i l l' got e h hlen hr =>
    refine listener_settles h ?_
    have he : e.data = [] := empty_of_no_input (congrArg Prod.fst (no_input h hn))
    rcases udpStep_settles hr he with ⟨h1, h2⟩ | h1
    · right
      exact ⟨by simp only [LComp.todo, h1], by simp only [LComp.left, h1], h2, h2⟩
    · left; exact bytes_flag h1
  | request i l reqs wakeups order steps q h hq =>
    exfalso
    have := congrArg Prod.snd (no_input h hn)
    simp only [LComp.input, List.map_append] at this
    have := congrArg List.length this
    simp at this
  | http i j l l' reqs wakeups order todo r e h hj ht hr =>
    refine listener_settles h (Or.inl ?_)
    have hs := sum_set (fun r : HReq => r.todo.length) ⟨r.req, r.done ++ [e], todo⟩ hj
    rw [ht, List.length_cons] at hs
    simp only [LComp.todo]
    dsimp only at hs
    have : (if l'.batch.bytes = [] then 0 else 1) ≤ 1 := by split <;> omega
    omega
  | wake i l l' reqs wakeups order t t2 fail h hr =>
    refine listener_settles h ?_
    rcases oldBatch_settles hr with rfl | h1
    · right; exact ⟨rfl, rfl, rfl, rfl⟩
    · left
      have := bytes_flag h1
      simp only [LComp.todo]
      omega
  | filterIn c h =>
    have hl := Group.step_live h
    have hc : c.count busy = s.filters.count busy := Group.step_count h
    rcases Group.step_settles h with h1 | ⟨h1, h2⟩
    · left
      exact less2 rfl (show 2 * c.weight + c.count busy < _ by omega)
    · right
      refine ⟨?_, rfl, h2, by rw [show ({ s with filters := c } : State d).filters.live = _ from hl], rfl, rfl, rfl, rfl, rfl,
        by rw [show ({ s with filters := c } : State d).filters.live = _ from hl], rfl, rfl⟩
      unfold State.todo
      dsimp only
      rw [h1, hc]
      rfl
  | filterTake f m c hw h =>
    obtain ⟨h1, h2⟩ := h.settles
    have h2 := h2 busy
    have hb : busy f = 0 := by unfold busy; rw [hw]; rfl
    have hb' : busy { f with working := some m } = 1 := rfl
    left
    exact less2 rfl (show 2 * c.weight + c.count busy < _ by omega)
  | filterDo f m now fail w' st' pubs c hw hr h => exact absurd ⟨f, m, now, fail, w', st', pubs, c, hw, hr, h, rfl⟩ hF
  | downIn i x c hx h =>
    have hl := Group.step_live h
    have hc : c.count (fun k => windowsLeft k.w.a) = x.inp.count fun k => windowsLeft k.w.a := Group.step_count h
    obtain ⟨e1, e2⟩ := level_set hx c
    rcases Group.step_settles h with h1 | ⟨h1, h2⟩
    · left
      exact less3 rfl rfl ⟨x.subject.length, hR x (get_mem hx), by omega, fun j hj => e1 j (by omega)⟩
    · right
      refine ⟨?_, rfl, rfl, rfl, map_set_same _ _ hx h2, map_set_same _ _ hx (congrArg (List.map _) hl), rfl, rfl, rfl, rfl, map_set_same _ _ hx (congrArg (List.map _) hl), rfl⟩
      have : ({ s with downs := s.downs.set i { x with inp := c } } : State d).level = s.level := by
        funext r
        by_cases hr : r = x.subject.length
        · rw [hr]; omega
        · exact e1 r hr
      unfold State.todo
      rw [this]
  | downTake i x m c clk now ord fail k w' hx hr h =>
    obtain ⟨h1, h2⟩ := h.settles
    have h2 := h2 fun k => windowsLeft k.w.a
    dsimp only at h2
    have := windowsLeft_le w'.a
    obtain ⟨-, e2⟩ := downs_publish I A hx h.changed.subs (w'.pubs.drop k.w.pubs.length)
    left
    unfold State.todo
    rw [e2]
    exact less3 rfl rfl (level_less I A hR hx h.changed.subs (by omega) _)
  | downTimeout i x c now ord fail k w' hx hr h =>
    obtain ⟨h1, h2, h3, h4⟩ := h.settles
    have h3 := h3 fun k => windowsLeft k.w.a
    dsimp only at h3
    rcases timeout_settles hr with h5 | ⟨h5, h6⟩
    · left
      obtain ⟨-, e2⟩ := downs_publish I A hx h.changed.subs (w'.pubs.drop k.w.pubs.length)
      unfold State.todo
      rw [e2]
      exact less3 rfl rfl (level_less I A hR hx h.changed.subs (by omega) _)
    · right
      rw [h6, List.drop_length]
      show State.todo (State.publish _ []) = _ ∧ SameWork _ (State.publish _ [])
      rw [publish_nil]
      refine ⟨?_, rfl, rfl, rfl, map_set_same _ _ hx h2, map_set_same _ _ hx (h4 (fun k => windowsLeft k.w.a) h5), rfl, rfl, rfl, rfl, map_set_same _ _ hx (h4 _ h6), rfl⟩
      obtain ⟨e1, e2⟩ := level_set hx c
      have : ({ s with downs := s.downs.set i { x with inp := c } } : State d).level = s.level := by
        funext r
        by_cases hr : r = x.subject.length
        · rw [hr]; omega
        · exact e1 r hr
      unfold State.todo
      rw [this]
  | writerIn i x c hx h =>
    have hl := Group.step_live h
    have hs := sum_set (fun y : WComp => y.inp.weight) { x with inp := c } hx
    have hc : ((s.writers.set i { x with inp := c }).map fun y => y.inp.count workTodo).sum = (s.writers.map fun y => y.inp.count workTodo).sum := by
      rw [map_set_same { x with inp := c } _ hx (Group.step_count h)]
    dsimp only at hs
    rcases Group.step_settles h with h1 | ⟨h1, h2⟩
    · left
      exact less4 rfl rfl rfl (show ((s.writers.set i { x with inp := c }).map fun y => y.inp.weight).sum < _ by omega)
    · right
      refine ⟨?_, rfl, rfl, rfl, rfl, rfl, map_set_same _ _ hx h2, map_set_same _ _ hx (congrArg (List.map _) hl), rfl, rfl, rfl, map_set_same _ _ hx (congrArg (List.map _) hl)⟩
      unfold State.todo
      dsimp only
      rw [hc, map_set_same { x with inp := c } _ hx h1]
      rfl
  | writerTake i x m c k k' hx hr hm h =>
    obtain ⟨h1, -⟩ := h.settles
    have hs := sum_set (fun y : WComp => y.inp.weight) { x with inp := c } hx
    dsimp only at hs
    left
    exact less4 rfl rfl rfl (show ((s.writers.set i { x with inp := c }).map fun y => y.inp.weight).sum < _ by omega)
  | writer i x c k k' hx hr hm h =>
    obtain ⟨h1, h2, h3, h4⟩ := h.settles
    have h3 := h3 workTodo
    have hw : ((s.writers.set i { x with inp := c }).map (·.inp.weight)).sum = (s.writers.map (·.inp.weight)).sum := by
      rw [map_set_same { x with inp := c } _ hx h1]
    have hs := sum_set (fun y : WComp => y.inp.count workTodo) { x with inp := c } hx
    dsimp only at hs
    rcases worker_settles (B x (get_mem hx)) ((I.writers x (get_mem hx)).2 k h.changed.mem) hr hm with h5 | ⟨h5, h6, h7⟩
    · left
      exact less5 rfl rfl rfl hw (show ((s.writers.set i { x with inp := c }).map fun y => y.inp.count workTodo).sum < _ by omega)
    · right
      refine ⟨?_, rfl, rfl, rfl, rfl, rfl, map_set_same _ _ hx h2, map_set_same _ _ hx (h4 _ h6), rfl, rfl, rfl, map_set_same _ _ hx (h4 _ h7)⟩
      unfold State.todo
      dsimp only
      rw [hw, map_set_same { x with inp := c } _ hx (show c.count _ = x.inp.count _ by omega)]
      rfl

theorem step_settles (I : Inv s) (A : s.Acyclic) (B : s.Sizes) (hR : ∀ y ∈ s.downs, y.subject.length ≤ R) (h : Step d s s') (hn : NoInput s s') : Settles R s s' := by
  rcases step_settles_or I A.downs B hR h hn with h | ⟨f, m, now, fail, w', st', pubs, c, hw, hr, hg, rfl⟩
  · exact h
  · obtain ⟨h1, -, h2, -⟩ := hg.settles
    have h2 := h2 busy
    have hb : busy f = 1 := by unfold busy; rw [hw]; rfl
    have hb' : busy ⟨w', st', none, f.past ++ [⟨now, fail, m⟩], f.pubss ++ [pubs]⟩ = 0 := rfl
    left
    have hadd := filter_none I A hg.changed.mem hr hg.changed.subs
    refine less2 rfl (show 2 * (c.add (outF pubs)).weight + (c.add (outF pubs)).count busy < _ from ?_)
    rw [hadd]
    omega

/-! ## All schedules -/

theorem wf_irrefl {α : Type} {r : α → α → Prop} (wf : WellFounded r) (a : α) : ¬ r a a := by
  induction a using wf.induction with
  | _ a ih => exact fun h => ih a h h

/-- What goes down forever stops. -/
theorem eventually_const {α : Type} {r : α → α → Prop} (wf : WellFounded r) (f : Nat → α) (h : ∀ n, f (n + 1) = f n ∨ r (f (n + 1)) (f n)) :
    ∃ N, ∀ n, N ≤ n → f n = f N := by
  have : ∀ a k, f k = a → ∃ N, ∀ n, N ≤ n → f n = f N := by
    intro a
    induction a using wf.induction with
    | _ a ih =>
      intro k hk
      by_cases hc : ∀ n, k ≤ n → f n = f k
      · exact ⟨k, hc⟩
      · have hc : ∃ m, f (k + m) ≠ f k := Classical.byContradiction fun hn => hc fun n hn' => Classical.byContradiction fun hne =>
          hn ⟨n - k, by rw [Nat.add_sub_cancel' hn']; exact hne⟩
        obtain ⟨m, hm⟩ := hc
        have key : ∀ m, f (k + m) = f k ∨ ∃ j, r (f j) (f k) := by
          intro m
          induction m with
          | zero => exact Or.inl rfl
          | succ m ihm =>
            rcases ihm with h1 | h1
            · rcases h (k + m) with h2 | h2
              · exact Or.inl (h2.trans h1)
              · exact Or.inr ⟨_, h1 ▸ h2⟩
            · exact Or.inr h1
        rcases key m with h1 | ⟨j, h1⟩
        · exact absurd h1 hm
        · exact ih (f j) (hk ▸ h1) j rfl
  exact this _ 0 rfl

/-- An infinite schedule without input, from the state `s`: the processes and NATS make steps in any order, or nothing happens. -/
structure Schedule (d : Setup) (s : State d) (f : Nat → State d) : Prop where
  start : f 0 = s
  step : ∀ n, f (n + 1) = f n ∨ (Step d (f n) (f (n + 1)) ∧ NoInput (f n) (f (n + 1)))

theorem SameSetup.sizes (h : SameSetup s s') (B : s.Sizes) : s'.Sizes := by
  intro x hx
  obtain ⟨y, hy, e⟩ := mem_of_map h.writers hx
  simp only [Prod.mk.injEq] at e
  rw [← e.2.1]
  exact B y hy

theorem Schedule.ok {f : Nat → State d} (F : Schedule d s f) (I : Inv s) (A : s.Acyclic) (B : s.Sizes) (n : Nat) : Inv (f n) ∧ (f n).Acyclic ∧ (f n).Sizes ∧ Run d s (f n) := by
  induction n with
  | zero => rw [F.start]; exact ⟨I, A, B, .refl⟩
  | succ n ih =>
    obtain ⟨i1, i2, i3, i4⟩ := ih
    rcases F.step n with h | ⟨h, -⟩
    · rw [h]; exact ⟨i1, i2, i3, i4⟩
    · exact ⟨inv_step i1 h, (step_same h).acyclic i2, (step_same h).sizes i3, i4.step h⟩

theorem Schedule.same {f : Nat → State d} (F : Schedule d s f) {n m : Nat} (h : n ≤ m) : SameSetup (f n) (f m) := by
  obtain ⟨k, rfl⟩ := Nat.exists_eq_add_of_le h
  clear h
  induction k with
  | zero => exact .refl _
  | succ k ih =>
    rcases F.step (n + k) with h | ⟨h, -⟩
    · rw [show n + (k + 1) = n + k + 1 from rfl, h]; exact ih
    · exact ih.trans (step_same h)

theorem Schedule.settles {f : Nat → State d} (F : Schedule d s f) (I : Inv s) (A : s.Acyclic) (B : s.Sizes) :
    ∃ N, ∀ n, N ≤ n → SameWork (f N) (f n) := by
  have hb : ∀ y ∈ s.downs, y.subject.length ≤ (s.downs.map fun y => y.subject.length).sum := fun y hy => le_sum_mem (fun y : DComp d.fo => y.subject.length) hy
  generalize (s.downs.map fun y => y.subject.length).sum = R at hb
  have hst : ∀ n, Settles R (f n) (f (n + 1)) := by
    intro n
    have hR : ∀ y ∈ (f n).downs, y.subject.length ≤ R := by
      intro y hy
      have hs := F.same (Nat.zero_le n)
      rw [F.start] at hs
      obtain ⟨z, hz, e⟩ := mem_of_map hs.downs hy
      simp only [Prod.mk.injEq] at e
      rw [← e.1]
      exact hb z hz
    obtain ⟨i1, i2, i3, -⟩ := F.ok I A B n
    rcases F.step n with h | ⟨h, hn⟩
    · rw [h]; exact Or.inr ⟨rfl, .refl _⟩
    · exact step_settles i1 i2 i3 hR h hn
  obtain ⟨N, hN⟩ := eventually_const (less_wf R) (fun n => (f n).todo) fun n => by
    rcases hst n with h | ⟨h, -⟩
    · exact Or.inr h
    · exact Or.inl h
  refine ⟨N, fun n hn => ?_⟩
  obtain ⟨m, rfl⟩ := Nat.exists_eq_add_of_le hn
  clear hn
  induction m with
  | zero => exact .refl _
  | succ m ih =>
    refine ih.trans ?_
    rcases hst (N + m) with h | ⟨-, h⟩
    · exfalso
      have e1 := hN (N + m + 1) (by omega)
      have e2 := hN (N + m) (by omega)
      rw [e1, e2] at h
      exact wf_irrefl (less_wf R) _ h
    · exact h

/-- **C101 (a deployment settles).** In whatever state a deployment is, if nothing more is sent to its listeners and no process starts or ends: under EVERY schedule (fair or not, with any messages
dropped, any publishes and writes failing, clocks running or standing still) there is a moment after which the work left to do does not change any more, and nothing is published nor sent to InfluxDB for the first time. -/
theorem C101_settles (h0 : Start d s0) (h : Reach d s0 s) (A : s.Acyclic) (B : s.Sizes) {f : Nat → State d} (F : Schedule d s f) :
    ∃ N, ∀ n, N ≤ n → SameWork (f N) (f n) := F.settles (inv_reach h0 h) A B

/-- A schedule is fair if as long as something is left to do, something is done: no process, clock or part of NATS that could do something stands still forever, and InfluxDB
does not refuse forever what is in the retry queues. -/
def Fair (f : Nat → State d) : Prop := ∀ n, ¬ (f n).Finished → ∃ m, n ≤ m ∧ ¬ SameWork (f n) (f m)

theorem get_of_map {α : Type u} {β : Type} {f : α → β} {l k : List α} (h : k.map f = l.map f) {i : Nat} {a : α} (ha : k[i]? = some a) : ∃ b, l[i]? = some b ∧ f b = f a := by
  have := congrArg (fun l => l[i]?) h
  rw [List.getElem?_map, List.getElem?_map, ha] at this
  cases hb : l[i]? with
  | none => rw [hb] at this; cases this
  | some b => rw [hb] at this; exact ⟨b, rfl, (Option.some.inj this).symm⟩

theorem Group.waiting_empty {W : Type u} {c c' : Group W} (h : c'.waiting = c.waiting) (he : c.Empty) : c'.Empty := by
  unfold Group.waiting at h
  simp only [Prod.mk.injEq] at h
  obtain ⟨h1, h2⟩ := h
  have hl := congrArg List.length h2
  rw [List.length_map, List.length_map] at hl
  refine ⟨fun hm t ht => ?_, ?_⟩
  · obtain ⟨t', ht', e⟩ := mem_of_map h1 ht
    rw [← e]
    exact he.pending ((Group.members_ne hl).1 hm) t' ht'
  · have hq := he.queues
    unfold inQueues at hq ⊢
    rw [List.flatMap_eq_nil_iff] at hq ⊢
    intro q hq'
    obtain ⟨x, hx, rfl⟩ := List.mem_map.1 hq'
    obtain ⟨y, hy, e⟩ := mem_of_map h2 hx
    simp only [Prod.mk.injEq] at e
    have := hq _ (List.mem_map_of_mem hy)
    rw [← e.1, ← e.2]
    exact this

theorem left_done {x y : LComp} (h : y.left = x.left) (hk : y.kind.1 = x.kind.1) (hd : x.Done) : y.Done := by
  cases x with
  | udp l got =>
    cases y with
    | udp l' got' => exact (congrArg Prod.fst h).trans hd
    | http => cases hk
  | http l reqs wakeups order =>
    cases y with
    | udp => cases hk
    | http l' reqs' wakeups' order' =>
      refine ⟨(congrArg Prod.fst h).trans hd.1, fun r hr => ?_⟩
      obtain ⟨r', hr', e⟩ := mem_of_map (congrArg Prod.snd h) hr
      have := hd.2 r' hr'
      rw [this] at e
      exact List.length_eq_zero_iff.1 e.symm

theorem workLeft_rest {k k' : WSys} (h : workLeft k' = workLeft k) (hr : Rest k) : Rest k' := by
  unfold workLeft at h
  simp only [Prod.mk.injEq] at h
  obtain ⟨h1, h2, h3⟩ := h
  have ht : transit k.phase k.ch = [] := by
    unfold transit
    rw [hr.ch]
    cases hp : k.phase with
    | handoff i chunk rest => exact absurd hp (hr.handoff i chunk rest)
    | _ => rfl
  rw [ht] at h2
  refine ⟨h1.trans hr.unsent, ?_, ?_, ?_⟩
  · intro i chunk rest hp
    unfold transit at h2
    rw [hp] at h2
    simp at h2
  · unfold transit at h2
    cases hc : k'.ch with
    | none => rfl
    | some c => rw [hc] at h2; simp at h2
  · rw [hr.queue] at h3
    exact List.length_eq_zero_iff.1 h3

/-- Whether anything is left to do is determined by the work left to do. -/
theorem SameWork.finished (h : SameWork s s') (hs : SameSetup s s') (hf : s.Finished) : s'.Finished := by
  refine ⟨?_, Group.waiting_empty h.filters hf.filters, ?_, ?_, ?_⟩
  · intro y hy
    obtain ⟨i, hi⟩ := List.getElem?_of_mem hy
    obtain ⟨x, hx, e⟩ := get_of_map h.listeners hi
    obtain ⟨x', hx', e'⟩ := get_of_map hs.listeners hi
    rw [hx] at hx'
    injection hx' with hx'
    subst hx'
    exact left_done e.symm (congrArg Prod.fst e').symm (hf.listeners x (get_mem hx))
  · intro g hg
    obtain ⟨g', hg', e⟩ := mem_of_map h.working hg
    rw [← e]; exact hf.working g' hg'
  · intro y hy
    obtain ⟨z, hz, e⟩ := mem_of_map h.downs hy
    exact Group.waiting_empty e.symm (hf.downs z hz)
  · intro x hx
    obtain ⟨z, hz, e⟩ := mem_of_map h.writers hx
    refine ⟨Group.waiting_empty e.symm (hf.writers z hz).1, ?_⟩
    obtain ⟨z, hz, e⟩ := mem_of_map h.workers hx
    intro k hk
    obtain ⟨k', hk', e'⟩ := mem_of_map e.symm hk
    exact workLeft_rest e'.symm ((hf.writers z hz).2 k' hk')

/-- **C101 (a fair schedule finishes the work).** Under every schedule in which something is done as long as anything is left to do, there is a moment from which on nothing is left to do. -/
theorem C101_fair_finishes (h0 : Start d s0) (h : Reach d s0 s) (A : s.Acyclic) (B : s.Sizes) {f : Nat → State d} (F : Schedule d s f) (hf : Fair f) :
    ∃ N, ∀ n, N ≤ n → (f n).Finished := by
  obtain ⟨N, hN⟩ := C101_settles h0 h A B F
  have hfin : (f N).Finished := Classical.byContradiction fun hn => by
    obtain ⟨m, hm, hne⟩ := hf N hn
    exact hne (hN m hm)
  exact ⟨N, fun n hn => (hN n hn).finished (F.same hn) hfin⟩

/-! ## Delivery -/

theorem step_sent (h : Step d s s') (hn : NoInput s s') {sent : List (List Bytes)} (hs : Each2 Sent s.sources sent) : Each2 Sent s'.sources sent := by
  cases h with
  | udp i l l' got e h hlen hr =>
    have he : e.data = [] := empty_of_no_input (congrArg Prod.fst (no_input h hn))
    obtain ⟨h1, h2⟩ := sources_set (.udp l' (got ++ [e])) h
    show Each2 Sent (s.listeners.set i (.udp l' (got ++ [e])) ++ s.crashed) sent
    refine Eq.subst (motive := fun l => Each2 Sent l sent) h1.symm ?_
    refine each2_set hs h2 ?_
    intro ls h
    cases h
    have : sentLines got = sentLines (got ++ [e]) := by
      unfold sentLines
      rw [List.flatMap_append, List.flatMap_cons, he]
      simp [completed, linesOf_nil]
    rw [this]
    exact .udp _ _
  | request i l reqs wakeups order steps q h hq =>
    exfalso
    have := congrArg Prod.snd (no_input h hn)
    simp only [LComp.input, List.map_append] at this
    have := congrArg List.length this
    simp at this
  | http i j l l' reqs wakeups order todo r e h hj ht hr =>
    obtain ⟨h1, h2⟩ := sources_set (.http l' (reqs.set j ⟨r.req, r.done ++ [e], todo⟩) wakeups (order ++ [e])) h
    show Each2 Sent (s.listeners.set i (.http l' (reqs.set j ⟨r.req, r.done ++ [e], todo⟩) wakeups (order ++ [e])) ++ s.crashed) sent
    refine Eq.subst (motive := fun l => Each2 Sent l sent) h1.symm ?_
    refine each2_set hs h2 ?_
    intro ls h
    cases h with
    | http _ _ _ _ lss h => exact .http _ _ _ _ lss (each2_set h hj fun _ h => h)
  | wake i l l' reqs wakeups order t t2 fail h hr =>
    obtain ⟨h1, h2⟩ := sources_set (.http l' reqs (wakeups ++ [.oldBatch t fail t2]) (order ++ [.oldBatch t fail t2])) h
    show Each2 Sent (s.listeners.set i (.http l' reqs (wakeups ++ [.oldBatch t fail t2]) (order ++ [.oldBatch t fail t2])) ++ s.crashed) sent
    refine Eq.subst (motive := fun l => Each2 Sent l sent) h1.symm ?_
    refine each2_set hs h2 ?_
    intro ls h
    cases h with
    | http _ _ _ _ lss h => exact .http _ _ _ _ lss h
  | filterIn c h => exact hs
  | filterTake f m c hw h => exact hs
  | filterDo f m now fail w' st' pubs c hw hr h => exact hs
  | downIn i x c hx h => exact hs
  | downTake i x m c clk now ord fail k w' hx hr h => exact hs
  | downTimeout i x c now ord fail k w' hx hr h => exact hs
  | writerIn i x c hx h => exact hs
  | writerTake i x m c k k' hx hr hm h => exact hs
  | writer i x c k k' hx hr hm h => exact hs

theorem Schedule.sent {f : Nat → State d} (F : Schedule d s f) {sent : List (List Bytes)} (hs : Each2 Sent s.sources sent) (n : Nat) : Each2 Sent (f n).sources sent := by
  induction n with
  | zero => rw [F.start]; exact hs
  | succ n ih =>
    rcases F.step n with h | ⟨h, hn⟩
    · rw [h]; exact ih
    · exact step_sent h hn ih

/-- Nothing is left to do and nothing was lost for a writer. -/
theorem State.Finished.quiet {x : WComp} (h : s.Finished) (hx : x ∈ s.writers) (hm : s.filters.members ≠ []) (hxm : x.inp.members ≠ []) (N : NothingLost s x) : Quiet s x := by
  refine ⟨?_, ?_, ?_, ?_, ?_⟩
  · intro y hy
    rcases List.mem_append.1 hy with hy | hy
    · exact h.holds y hy
    · exact N.listeners y hy
  · rw [h.filters.onTheWay hm]; exact N.filters
  · intro g hg
    rw [Group.workers_split] at hg
    rcases List.mem_append.1 hg with hg | hg
    · exact h.working g hg
    · exact N.working g hg
  · rw [(h.writers x hx).1.onTheWay hxm]; exact N.writers
  · intro k hk
    rw [Group.workers_split] at hk
    rcases List.mem_append.1 hk with hk | hk
    · exact ((h.writers x hx).2 k hk).unsent
    · exact N.unsent k hk

/-- **C101 (under every fair schedule, every line arrives).** Let nothing more be sent to the listeners of a deployment in which a filter is running.  Under every schedule in which something is done as long as anything is left to do,
there is a moment from which on, if until then no publish has failed and the lines processed were in the filters' time window, every writer (or queue group of writers) that has a running process, whose subjects are separate and
for which nothing was lost, has sent to InfluxDB exactly the texts of the lines sent to the listeners (those that match its rules, if it has rules), each once. -/
theorem C101_every_line_arrives (h0 : Start d s0) (h : Reach d s0 s) (A : s.Acyclic) (B : s.Sizes) (hb : SmallBatches s) (hm : s.filters.members ≠ [])
    (sent : List (List Bytes)) (hs : Each2 Sent s.sources sent) {f : Nat → State d} (F : Schedule d s f) (hf : Fair f) :
    ∃ N, ∀ n, N ≤ n → (f n).Finished ∧ ((f n).NoFailure → (f n).Timely → ∀ x ∈ (f n).writers, x.inp.members ≠ [] → RulesFine d.S x.conf sent.flatten →
      Separate (f n) x → NothingLost (f n) x →
        ∃ sentBy : List (List Bytes), sentBy.map List.flatten = x.inp.workers.map (fun k => firstData k.hist) ∧
          sentBy.flatten.Perm (kept x.conf.rules (textsFor d x sent.flatten))) := by
  obtain ⟨N, hN⟩ := C101_fair_finishes h0 h A B F hf
  refine ⟨N, fun n hn => ⟨hN n hn, fun a b x hx hxm hr hsep hl => ?_⟩⟩
  have hsame : SameSetup s (f n) := by
    have := F.same (Nat.zero_le n)
    rw [F.start] at this
    exact this
  obtain ⟨-, -, -, hrun⟩ := F.ok (inv_reach h0 h) A B n
  exact C88_deployment_exactly_once h0 (h.run hrun) hx hsep (hsame.small hb) sent (F.sent hs n) hr a b
    ((hN n hn).quiet hx ((Group.fixed_eq hsame.filters).2.2 hm) hxm hl)

/-! ## Fair schedules -/

/-- A run as a schedule that then stands still. -/
theorem QRun.schedule (h : QRun d s s') : ∃ (f : Nat → State d) (N : Nat), Schedule d s f ∧ ∀ n, N ≤ n → f n = s' := by
  induction h with
  | refl => exact ⟨fun _ => s, 0, ⟨rfl, fun _ => Or.inl rfl⟩, fun _ _ => rfl⟩
  | @step s1 s2 h1 h2 h3 ih =>
    obtain ⟨f, N, F, hN⟩ := ih
    have g1 : ∀ n, n ≤ N → (fun n => if n ≤ N then f n else s2) n = f n := fun n hn => if_pos hn
    have g2 : ∀ n, ¬ n ≤ N → (fun n => if n ≤ N then f n else s2) n = s2 := fun n hn => if_neg hn
    generalize (fun n => if n ≤ N then f n else s2) = g at g1 g2
    refine ⟨g, N + 1, ⟨(g1 0 (Nat.zero_le _)).trans F.start, fun n => ?_⟩, fun n hn => g2 n (by omega)⟩
    by_cases a : n + 1 ≤ N
    · rw [g1 _ a, g1 n (by omega)]
      exact F.step n
    · rw [g2 _ a]
      by_cases b : n ≤ N
      · rw [g1 n b, hN n (by omega)]
        exact Or.inr ⟨h2, h3⟩
      · rw [g2 n b]; exact Or.inl rfl

theorem schedule_fair {f : Nat → State d} (F : Schedule d s f) {N : Nat} (h : ∀ n, N ≤ n → (f n).Finished) : Fair f := by
  intro n hn
  have hlt : n < N := Classical.byContradiction fun hc => hn (h n (by omega))
  refine ⟨N, by omega, fun hs => hn ?_⟩
  have hsame := F.same (Nat.le_of_lt hlt)
  refine SameWork.finished (s := f N) hs.symm ?_ (h N (Nat.le_refl _))
  exact ⟨hsame.listeners.symm, hsame.crashed.symm, hsame.filters.symm, hsame.downs.symm, hsame.writers.symm⟩

/-- **C101 (there are fair schedules).** From every state in which the processes that are running are not stopped. -/
theorem C101_fair_schedule_exists (h0 : Start d s0) (h : Reach d s0 s) (hr : s.Running) (ha : s.Acyclic) : ∃ f, Schedule d s f ∧ Fair f := by
  obtain ⟨s', C, hf⟩ := finish (F := False) (sent := []) (s0 := s) (s := s) (fun h => h.elim)
    ⟨.refl, .refl s, .refl s, inv_reach h0 h, hr, ha, fun h => h.elim⟩
  obtain ⟨f, N, F, hN⟩ := C.path.schedule
  exact ⟨f, F, schedule_fair F fun n hn => by rw [hN n hn]; exact hf⟩

/-- The schedules of the deployment of C95, in which a datagram has arrived and a request is being read: there is a fair one that, from some moment on, has sent both lines about `cpu` to the first writer's database. -/
example : ∃ f, Schedule exSetup exBusy f ∧ Fair f ∧ ∃ N, ∀ n, N ≤ n → (f n).Finished ∧ (f n).NoFailure ∧ (f n).Timely ∧
    ∃ x, (f n).writers[0]? = some x ∧ x.inp.members ≠ [] ∧ Separate (f n) x ∧ NothingLost (f n) x ∧
      ∃ sentBy : List (List Bytes), sentBy.map List.flatten = x.inp.workers.map (fun k => firstData k.hist) ∧ sentBy.flatten.Perm [b!"cpu,h=1 f=1\n", b!"cpu f=9\n"] := by
  have hb : SmallBatches exBusy := by
    intro l got hl
    simp only [exBusy, exStart, State.sources, List.append_nil, List.mem_cons, List.not_mem_nil, or_false, LComp.udp.injEq, reduceCtorEq] at hl
    rw [hl.1]; decide
  have hT : InTime exSetup 10000 exSent.flatten :=
    ⟨by decide, by decide, fun line hline => Or.inr (ex_no_ts line (by revert line; decide +kernel))⟩
  obtain ⟨s', C, hfin⟩ := finish (F := True) (sent := exSent) (s0 := exBusy) (s := exBusy) (fun _ => ⟨10000, hT⟩)
    ⟨.refl, .refl _, .refl _, inv_reach ex_start ex_reach, ex_running, ex_acyclic, fun _ => ⟨ex_fine, hb⟩⟩
  obtain ⟨f, N, F, hN⟩ := C.path.schedule
  have hfair : Fair f := schedule_fair F fun n hn => by rw [hN n hn]; exact hfin
  have hsz : exBusy.Sizes := fun x hx => (ex_running.writers x hx).2.1
  obtain ⟨M, hM⟩ := C101_every_line_arrives ex_start ex_reach ex_acyclic hsz hb (by decide) exSent ex_fine.sent F hfair
  obtain ⟨G, -⟩ := C.fine trivial
  refine ⟨f, F, hfair, max N M, fun n hn => ?_⟩
  obtain ⟨h1, h2⟩ := hM n (by omega)
  have e : f n = s' := hN n (by omega)
  rw [e] at h1 h2 ⊢
  obtain ⟨x, hx, e1, e2, e3, e4⟩ := C.same.writer (i := 0) C.lost rfl
  have hmem : x.inp.members ≠ [] := (Group.fixed_eq e3).2.2 (by decide)
  have hsep : Separate s' x := C.same.separate e1 (by
    refine ⟨by decide, by decide, ?_, by decide⟩
    intro y hy
    rw [List.mem_singleton.1 hy]
    decide)
  have hlost : NothingLost s' x := by
    refine ⟨by rw [C.same.crashed]; exact (fun y hy => by cases hy), (Group.gone_eq C.same.filters C.lost.filters).trans rfl, ?_, (Group.gone_eq e3 e4).trans rfl, ?_⟩
    · rw [Group.deadWorkers_eq C.same.filters]; exact fun f hf => by cases hf
    · rw [Group.deadWorkers_eq e3]; exact fun k hk => by cases hk
  refine ⟨h1, G.published, G.timely, x, hx, hmem, hsep, hlost, ?_⟩
  have ha := h2 G.published G.timely x (get_mem hx) hmem (Or.inl (by rw [e2]; rfl)) hsep hlost
  have ht : exSent.flatten.flatMap (textsTo exSetup.S exSetup.rules exSetup.junk [b!"cpu-subject"]) = [b!"cpu,h=1 f=1\n", b!"cpu f=9\n"] := by decide +kernel
  unfold textsFor at ha
  rw [e1, e2] at ha
  have ha : ∃ sentBy : List (List Bytes), sentBy.map List.flatten = x.inp.workers.map (fun k => firstData k.hist) ∧
      sentBy.flatten.Perm (kept [] (exSent.flatten.flatMap (textsTo exSetup.S exSetup.rules exSetup.junk [b!"cpu-subject"]))) := ha
  rw [ht, kept_norules] at ha
  exact ha

end Spout.Deploy
