import Verif.Lemmas.LifecycleStop

/-! # The components are well formed -/

set_option linter.unusedSimpArgs false

namespace Spout.Lifecycle

/-- Where a start that cleans up may fail. -/
def OwnAt (c : Comp) (pre : List Op) (o : Op) : Prop := fallible o = true → .deferStop ∈ pre → Own c pre

theorem AllPos_flatMap {P : List Op → Op → Prop} (f : Nat → List Op) (J : List Nat → List Op → Prop)
    (hstep : ∀ i is pre, J (i :: is) pre → AllPos P pre (f i) ∧ J is (pre ++ f i)) (is : List Nat) (pre : List Op)
    (h : J is pre) : AllPos P pre (is.flatMap f) ∧ J [] (pre ++ is.flatMap f) := by
  induction is generalizing pre with
  | nil => simpa [AllPos] using h
  | cons i is ih =>
    obtain ⟨h1, h2⟩ := hstep i is pre h
    obtain ⟨h3, h4⟩ := ih _ h2
    rw [List.flatMap_cons, AllPos_append]
    exact ⟨⟨h1, h3⟩, by rw [← List.append_assoc]; exact h4⟩

/-! ## The UDP listener -/

theorem udp_wf : WF udpListener where
  start_ne := by decide
  stop_ne := by decide
  pos := by
    simp only [udpListener, AllPos, List.nil_append, List.cons_append, List.append_assoc]
    refine ⟨?_, ?_, ?_, ?_, ?_, ?_, ?_, ?_, ?_, trivial⟩ <;>
    · constructor <;> simp [fallible, bal, delta, dones, udpListener]
  balEnd := by decide
  stop_split := ⟨[.setReady false, .setAlive false], [.release .nats, .closeProbes], by decide⟩
  stop_plain := by simp [udpListener, fallible, delta, born]
  stop_rel' := by intro r h; simp [udpListener] at h; subst h; decide
  body_op := by intro g; cases g <;> simp [udpListener, threadOp]
  body_done := by
    intro g
    cases g with
    | statistician => exact Or.inr ⟨[.awaitStop], by decide⟩
    | server => exact Or.inr ⟨[.setReady true, .awaitStop, .release .socket], by decide⟩
    | _ => left; simp [udpListener]
  body_serve := by intro g; cases g <;> simp [udpListener]
  inner := by intro g g'; cases g <;> simp [udpListener]

theorem udp_wfs : WFS udpListener where
  inner_serve := by intro g g'; cases g <;> simp [udpListener]
  outer := by intro g; cases g <;> simp [udpListener]

theorem http_wf : WF httpListener where
  start_ne := by decide
  stop_ne := by decide
  pos := by
    simp only [httpListener, AllPos, List.nil_append, List.cons_append, List.append_assoc]
    refine ⟨?_, ?_, ?_, ?_, ?_, ?_, ?_, trivial⟩ <;>
    · constructor <;> simp [fallible, bal, delta, dones, httpListener]
  balEnd := by decide
  stop_split := ⟨[.setReady false, .setAlive false], [.release .nats, .closeProbes], by decide⟩
  stop_plain := by simp [httpListener, fallible, delta, born]
  stop_rel' := by intro r h; simp [httpListener] at h; subst h; decide
  body_op := by intro g; cases g <;> simp [httpListener, threadOp]
  body_done := by
    intro g
    cases g with
    | statistician => exact Or.inr ⟨[.awaitStop], by decide⟩
    | oldBatch => exact Or.inr ⟨[.awaitStop], by decide⟩
    | server => exact Or.inr ⟨[.spawn .http, .awaitStop, .closeServer], by decide⟩
    | _ => left; simp [httpListener]
  body_serve := by intro g; cases g <;> simp [httpListener]
  inner := by intro g g'; cases g <;> simp [httpListener]; rintro rfl; simp

theorem http_wfs : WFS httpListener where
  inner_serve := by intro g g'; cases g <;> simp [httpListener]
  outer := by intro g; cases g <;> simp [httpListener]

theorem monitor_wf : WF monitor where
  start_ne := by decide
  stop_ne := by decide
  pos := by
    simp only [monitor, AllPos, List.nil_append, List.cons_append, List.append_assoc]
    refine ⟨?_, ?_, ?_, ?_, ?_, ?_, ?_, trivial⟩ <;>
    · constructor <;> simp [fallible, bal, delta, dones, monitor]
  balEnd := by decide
  stop_split := ⟨[.setReady false, .setAlive false, .unsubscribe 0], [.releaseIfSet .nats, .closeProbes], by decide⟩
  stop_plain := by simp [monitor, fallible, delta, born]
  stop_rel' := by intro r h; simp [monitor] at h
  body_op := by intro g; cases g <;> simp [monitor, threadOp]
  body_done := by
    intro g
    cases g with
    | server => exact Or.inr ⟨[.spawn .http, .awaitStop, .closeServer], by decide⟩
    | _ => left; simp [monitor]
  body_serve := by intro g; cases g <;> simp [monitor]
  inner := by intro g g'; cases g <;> simp [monitor]; rintro rfl; simp

theorem monitor_wfs : WFS monitor where
  inner_serve := by intro g g'; cases g <;> simp [monitor]
  outer := by intro g; cases g <;> simp [monitor]

theorem monitor_own : AllPos (OwnAt monitor) [] monitor.start ∧ Own monitor monitor.start := by
  constructor
  · simp only [monitor, AllPos, List.nil_append, List.cons_append, List.append_assoc, OwnAt, fallible]
    refine ⟨?_, ?_, ?_, ?_, ?_, ?_, ?_, trivial⟩ <;> simp [Own]
  · intro r; simp [monitor]

theorem udp_own : Own udpListener udpListener.start := by
  intro r hr
  simp [udpListener] at hr
  rcases hr with rfl | rfl
  · left; decide
  · exact Or.inr (Or.inr ⟨.server, by decide⟩)

theorem http_own : Own httpListener httpListener.start := by
  intro r hr
  simp [httpListener] at hr
  subst hr
  left; decide

/-! ## The filter -/

/-- The loop over the workers, filter/filter.go:71-87. -/
structure FilterLoop (n : Int) (is : List Nat) (pre : List Op) : Prop where
  nodup : is.Nodup
  bal : bal (filter n) pre = 0
  own : Own (filter n) pre
  spawned : ∀ g, .spawn g ∈ pre → ∃ j, g = .worker j ∧ j ∉ is

theorem filter_loop (n : Int) (i : Nat) (is : List Nat) (pre : List Op) (h : FilterLoop n (i :: is) pre) :
    AllPos (fun p o => Pos (filter n) p o ∧ OwnAt (filter n) p o) pre [.acquire (.workerNats i), .add 1, .spawn (.worker i)] ∧
    FilterLoop n is (pre ++ [.acquire (.workerNats i), .add 1, .spawn (.worker i)]) := by
  obtain ⟨hnd, hb, hown, hsp⟩ := h
  rw [List.nodup_cons] at hnd
  have hstop : ∀ r, Op.release r ∉ (filter n).stop := by intro r; simp [filter]
  have b1 : Lifecycle.bal (filter n) (pre ++ [.acquire (.workerNats i)]) = 0 := by
    rw [bal_append, hb]; simp [Lifecycle.bal, delta]
  have b2 : Lifecycle.bal (filter n) (pre ++ [.acquire (.workerNats i), .add 1]) = 1 := by
    rw [bal_append, hb]; simp [Lifecycle.bal, delta]
  refine ⟨⟨⟨?_, ?_⟩, ⟨?_, ?_⟩, ⟨?_, ?_⟩, trivial⟩, ?_⟩
  · refine ⟨fun _ => hb, by rw [hb]; simp [delta], ?_, by simp, by simp, fun r hr => absurd hr (hstop r)⟩
    intro r e g hg
    injection e with e
    subst e
    obtain ⟨j, rfl, hj⟩ := hsp g hg
    simp only [filter, List.mem_cons, List.not_mem_nil, or_false, Op.release.injEq, Resource.workerNats.injEq, not_or]
    exact ⟨by simp, fun e => hj (by rw [e]; simp), by simp⟩
  · exact fun _ _ => hown
  · refine ⟨by simp [fallible], by rw [b1]; simp [delta], by simp, by simp, by simp, fun r hr => absurd hr (hstop r)⟩
  · simp [OwnAt, fallible]
  · rw [List.append_assoc]
    refine ⟨by simp [fallible], ?_, by simp, by simp, ?_, fun r hr => absurd hr (hstop r)⟩
    · rw [List.singleton_append, b2]; simp [delta, dones, filter]
    · intro g e r hr
      injection e with e
      subst e
      simp [filter] at hr
      subst hr
      simp
  · simp [OwnAt, fallible]
  · refine ⟨hnd.2, ?_, ?_, ?_⟩
    · rw [bal_append, hb]; simp [Lifecycle.bal, delta, dones, filter]
    · intro r hr
      rcases List.mem_append.1 hr with hr | hr
      · rcases hown r hr with h | h | ⟨g, h1, h2, h3⟩
        · exact Or.inl h
        · exact Or.inr (Or.inl h)
        · exact Or.inr (Or.inr ⟨g, List.mem_append_left _ h1, h2, h3⟩)
      · simp at hr
        subst hr
        exact Or.inr (Or.inr ⟨.worker i, by simp, by simp [filter], by simp [filter]⟩)
    · intro g hg
      rcases List.mem_append.1 hg with hg | hg
      · obtain ⟨j, e, hj⟩ := hsp g hg
        exact ⟨j, e, fun h => hj (List.mem_cons_of_mem _ h)⟩
      · simp at hg
        exact ⟨i, hg, hnd.1⟩

theorem AllPos_and {P Q : List Op → Op → Prop} {pre l : List Op} (h : AllPos (fun p o => P p o ∧ Q p o) pre l) :
    AllPos P pre l ∧ AllPos Q pre l := by
  induction l generalizing pre with
  | nil => exact ⟨trivial, trivial⟩
  | cons o l ih => exact ⟨⟨h.1.1, (ih h.2).1⟩, ⟨h.1.2, (ih h.2).2⟩⟩

theorem filter_all (n : Int) :
    AllPos (fun p o => Pos (filter n) p o ∧ OwnAt (filter n) p o) [] (filter n).start ∧
    bal (filter n) (filter n).start = 0 ∧ Own (filter n) (filter n).start := by
  have hstop : ∀ r, Op.release r ∉ (filter n).stop := by intro r; simp [filter]
  have h0 : FilterLoop n (List.range n.toNat) [.openProbes, .deferStop, .check .rules, .acquire .nats] := by
    refine ⟨List.nodup_range, by simp [bal, delta], ?_, by simp⟩
    intro r hr
    simp at hr
    subst hr
    right; left
    simp [filter]
  obtain ⟨h1, h2⟩ := AllPos_flatMap (fun i => [.acquire (.workerNats i), .add 1, .spawn (.worker i)])
    (FilterLoop n) (filter_loop n) _ _ h0
  generalize hl : (List.range n.toNat).flatMap
    (fun i => ([.acquire (.workerNats i), .add 1, .spawn (.worker i)] : List Op)) = loop at h1 h2
  have es : (filter n).start = [.openProbes, .deferStop, .check .rules, .acquire .nats] ++ loop ++
      [.subscribe 0, .limits 0, .add 1, .spawn .statistician, .setReady true] := by
    rw [← hl]; rfl
  rw [es]
  generalize hpre : ([.openProbes, .deferStop, .check .rules, .acquire .nats] : List Op) ++ loop = pre at h2 ⊢
  have hb := h2.bal
  refine ⟨?_, ?_, ?_⟩
  · rw [AllPos_append]
    constructor
    · rw [← hpre, AllPos_append]
      refine ⟨⟨?_, ?_, ?_, ?_, trivial⟩, by rw [List.nil_append]; exact h1⟩ <;>
      · refine ⟨?_, ?_⟩
        · constructor <;> simp [fallible, bal, delta, dones, hstop]
        · simp [OwnAt, Own, fallible]
    · rw [List.nil_append]
      have own' : ∀ x : List Op, (∀ r, .acquire r ∉ x) → Own (filter n) (pre ++ x) := by
        intro x hx r hr
        rcases List.mem_append.1 hr with hr | hr
        · rcases h2.own r hr with h | h | ⟨g, h1, h2, h3⟩
          · exact Or.inl h
          · exact Or.inr (Or.inl h)
          · exact Or.inr (Or.inr ⟨g, List.mem_append_left _ h1, h2, h3⟩)
        · exact absurd hr (hx r)
      refine ⟨⟨?_, fun _ _ => h2.own⟩, ⟨?_, fun _ _ => own' _ (by simp)⟩, ⟨?_, by simp [OwnAt, fallible]⟩,
        ⟨?_, by simp [OwnAt, fallible]⟩, ⟨?_, by simp [OwnAt, fallible]⟩, trivial⟩ <;>
      · constructor <;> simp [fallible, bal_append, hb, bal, delta, dones, hstop] <;> simp [filter]
  · rw [bal_append, hb]; simp [bal, delta, dones, filter]
  · intro r hr
    rcases List.mem_append.1 hr with hr | hr
    · rcases h2.own r hr with h | h | ⟨g, h1, h2, h3⟩
      · exact Or.inl h
      · exact Or.inr (Or.inl h)
      · exact Or.inr (Or.inr ⟨g, List.mem_append_left _ h1, h2, h3⟩)
    · simp at hr

theorem filter_wf (n : Int) : WF (filter n) where
  start_ne := by simp [filter]
  stop_ne := by simp [filter]
  pos := (AllPos_and (filter_all n).1).1
  balEnd := (filter_all n).2.1
  stop_split := ⟨[.setReady false, .setAlive false, .unsubscribe 0], [.releaseIfSet .nats, .closeProbes], by simp [filter]⟩
  stop_plain := by simp [filter, fallible, delta, born]
  stop_rel' := by intro r h; simp [filter] at h
  body_op := by intro g; cases g <;> simp [filter, threadOp]
  body_done := by
    intro g
    cases g with
    | statistician => exact Or.inr ⟨[.awaitStop], by simp [filter]⟩
    | worker i => exact Or.inr ⟨[.awaitStop, .release (.workerNats i)], by simp [filter]⟩
    | _ => left; simp [filter]
  body_serve := by intro g; cases g <;> simp [filter]
  inner := by intro g g'; cases g <;> simp [filter]

/-! ## The downsampler -/

structure PlainLoop (c : Comp) (pre : List Op) : Prop where
  bal : bal c pre = 0
  own : Own c pre

theorem own_append {c : Comp} {pre x : List Op} (h : Own c pre) (hx : ∀ r, .acquire r ∉ x) : Own c (pre ++ x) := by
  intro r hr
  rcases List.mem_append.1 hr with hr | hr
  · rcases h r hr with h | h | ⟨g, h1, h2, h3⟩
    · exact Or.inl h
    · exact Or.inr (Or.inl h)
    · exact Or.inr (Or.inr ⟨g, List.mem_append_left _ h1, h2, h3⟩)
  · exact absurd hr (hx r)

theorem downsampler_all (n : Nat) :
    AllPos (fun p o => Pos (downsampler n) p o ∧ OwnAt (downsampler n) p o) [] (downsampler n).start ∧
    bal (downsampler n) (downsampler n).start = 0 ∧ Own (downsampler n) (downsampler n).start := by
  have hstop : ∀ r, Op.release r ∉ (downsampler n).stop := by intro r; simp [downsampler]
  have hbody : ∀ g r, Op.release r ∉ (downsampler n).body g := by intro g r; cases g <;> simp [downsampler]
  have h0 : PlainLoop (downsampler n) [.openProbes, .deferStop, .acquire .nats] := by
    refine ⟨by simp [bal, delta], ?_⟩
    intro r hr
    simp at hr
    subst hr
    right; left
    simp [downsampler]
  have hloop : ∀ (i : Nat) (is : List Nat) (pre : List Op), PlainLoop (downsampler n) pre →
      AllPos (fun p o => Pos (downsampler n) p o ∧ OwnAt (downsampler n) p o) pre
        [.add 1, .spawn (.worker i), .subscribe i, .limits i] ∧
      PlainLoop (downsampler n) (pre ++ [.add 1, .spawn (.worker i), .subscribe i, .limits i]) := by
    intro i is pre h
    have hb := h.bal
    have ho := h.own
    refine ⟨⟨⟨?_, ?_⟩, ⟨?_, ?_⟩, ⟨?_, fun _ _ => ?_⟩, ⟨?_, fun _ _ => ?_⟩, trivial⟩, ⟨?_, own_append ho (by simp)⟩⟩
    · constructor <;> simp [fallible, hb, delta, hstop]
    · simp [OwnAt, fallible]
    · constructor <;> simp [fallible, bal_append, hb, bal, delta, dones, hstop, hbody] <;> simp [downsampler]
    · simp [OwnAt, fallible]
    · constructor <;> simp [fallible, bal_append, hb, bal, delta, dones, hstop, hbody] <;> simp [downsampler]
    · rw [List.append_assoc]; exact own_append ho (by simp)
    · constructor <;> simp [fallible, bal_append, hb, bal, delta, dones, hstop, hbody] <;> simp [downsampler]
    · rw [List.append_assoc, List.append_assoc]; exact own_append ho (by simp)
    · rw [bal_append, hb]; simp [bal, delta, dones, downsampler]
  obtain ⟨h1, h2⟩ := AllPos_flatMap (fun i => [.add 1, .spawn (.worker i), .subscribe i, .limits i])
    (fun _ => PlainLoop (downsampler n)) hloop (List.range n) _ h0
  generalize hl : (List.range n).flatMap
    (fun i => ([.add 1, .spawn (.worker i), .subscribe i, .limits i] : List Op)) = loop at h1 h2
  have es : (downsampler n).start = [.openProbes, .deferStop, .acquire .nats] ++ loop ++
      [.flush, .add 1, .spawn .statistician, .setReady true] := by
    rw [← hl]; rfl
  rw [es]
  generalize hpre : ([.openProbes, .deferStop, .acquire .nats] : List Op) ++ loop = pre at h2 ⊢
  have hb := h2.bal
  have ho := h2.own
  refine ⟨?_, ?_, own_append ho (by simp)⟩
  · rw [AllPos_append]
    constructor
    · rw [← hpre, AllPos_append]
      refine ⟨⟨?_, ?_, ?_, trivial⟩, by rw [List.nil_append]; exact h1⟩ <;>
      · refine ⟨?_, ?_⟩
        · constructor <;> simp [fallible, bal, delta, dones, hstop]
        · simp [OwnAt, Own, fallible]
    · rw [List.nil_append]
      refine ⟨⟨?_, fun _ _ => ho⟩, ⟨?_, by simp [OwnAt, fallible]⟩,
        ⟨?_, by simp [OwnAt, fallible]⟩, ⟨?_, by simp [OwnAt, fallible]⟩, trivial⟩ <;>
      · constructor <;> simp [fallible, bal_append, hb, bal, delta, dones, hstop, hbody] <;> simp [downsampler]
  · rw [bal_append, hb]; simp [bal, delta, dones, downsampler]

theorem downsampler_wf (n : Nat) : WF (downsampler n) where
  start_ne := by simp [downsampler]
  stop_ne := by simp [downsampler]
  pos := (AllPos_and (downsampler_all n).1).1
  balEnd := (downsampler_all n).2.1
  stop_split := ⟨[.setReady false, .setAlive false], [.unsubscribeAll, .releaseIfSet .nats, .closeProbes], by simp [downsampler]⟩
  stop_plain := by simp [downsampler, fallible, delta, born]
  stop_rel' := by intro r h; simp [downsampler] at h
  body_op := by intro g; cases g <;> simp [downsampler, threadOp]
  body_done := by
    intro g
    cases g with
    | statistician => exact Or.inr ⟨[.awaitStop], by simp [downsampler]⟩
    | worker i => exact Or.inr ⟨[.awaitStop], by simp [downsampler]⟩
    | _ => left; simp [downsampler]
  body_serve := by intro g; cases g <;> simp [downsampler]
  inner := by intro g g'; cases g <;> simp [downsampler]

/-! ## The writer -/

/-- The loop that starts the workers, writer/writer.go:84-87. -/
structure SpawnLoop (c : Comp) (is : List Nat) (pre : List Op) : Prop where
  bal : bal c pre = (is.length : Int)
  own : Own c pre

theorem writer_all (w : Int) (hw : 0 ≤ w) (n : Nat) :
    AllPos (fun p o => Pos (writer w n) p o ∧ OwnAt (writer w n) p o) [] (writer w n).start ∧
    bal (writer w n) (writer w n).start = 0 ∧ Own (writer w n) (writer w n).start := by
  have hstop : ∀ r, Op.release r ∉ (writer w n).stop := by intro r; simp [writer]
  have hbody : ∀ g r, Op.release r ∉ (writer w n).body g := by intro g r; cases g <;> simp [writer]
  have h0 : SpawnLoop (writer w n) (List.range w.toNat) [.openProbes, .deferStop, .check .rules, .acquire .nats, .add w] := by
    refine ⟨by simp only [bal, delta, List.length_range]; omega, ?_⟩
    intro r hr
    simp at hr
    subst hr
    right; left
    simp [writer]
  have hloop1 : ∀ (i : Nat) (is : List Nat) (pre : List Op), SpawnLoop (writer w n) (i :: is) pre →
      AllPos (fun p o => Pos (writer w n) p o ∧ OwnAt (writer w n) p o) pre [.spawn (.worker i)] ∧
      SpawnLoop (writer w n) is (pre ++ [.spawn (.worker i)]) := by
    intro i is pre h
    have hb := h.bal
    have hd : delta (writer w n) (.spawn (.worker i)) = -1 := by simp [delta, dones, writer]
    refine ⟨⟨⟨⟨by simp [fallible], ?_, by simp, by simp, ?_, by simp [hstop]⟩, by simp [OwnAt, fallible]⟩, trivial⟩,
      ⟨?_, own_append h.own (by simp)⟩⟩
    · rw [hd, hb, List.length_cons]; omega
    · intro g _ r hr; exact absurd hr (hbody g r)
    · rw [bal_append, hb]; simp only [bal, hd, List.length_cons]; omega
  obtain ⟨h1, h2⟩ := AllPos_flatMap (fun i => [.spawn (.worker i)]) (SpawnLoop (writer w n)) hloop1 _ _ h0
  generalize hl1 : (List.range w.toNat).flatMap (fun i => ([.spawn (.worker i)] : List Op)) = loop1 at h1 h2
  generalize hpre1 : ([.openProbes, .deferStop, .check .rules, .acquire .nats, .add w] : List Op) ++ loop1 = pre1 at h2
  have h2' : PlainLoop (writer w n) pre1 := ⟨by rw [h2.bal]; rfl, h2.own⟩
  have hloop2 : ∀ (i : Nat) (is : List Nat) (pre : List Op), PlainLoop (writer w n) pre →
      AllPos (fun p o => Pos (writer w n) p o ∧ OwnAt (writer w n) p o) pre [.subscribe i, .limits i] ∧
      PlainLoop (writer w n) (pre ++ [.subscribe i, .limits i]) := by
    intro i is pre h
    have hb := h.bal
    have ho := h.own
    refine ⟨⟨⟨?_, fun _ _ => ho⟩, ⟨?_, fun _ _ => ?_⟩, trivial⟩, ⟨?_, own_append ho (by simp)⟩⟩
    · constructor <;> simp [fallible, hb, delta, hstop]
    · constructor <;> simp [fallible, bal_append, hb, bal, delta, hstop]
    · exact own_append ho (by simp)
    · rw [bal_append, hb]; simp [bal, delta]
  obtain ⟨h3, h4⟩ := AllPos_flatMap (fun i => [.subscribe i, .limits i])
    (fun _ => PlainLoop (writer w n)) hloop2 (List.range n) _ h2'
  generalize hl2 : (List.range n).flatMap (fun i => ([.subscribe i, .limits i] : List Op)) = loop2 at h3 h4
  have es : (writer w n).start = [.openProbes, .deferStop, .check .rules, .acquire .nats, .add w] ++ loop1 ++ loop2 ++
      [.flush, .add 1, .spawn .statistician, .setReady true] := by
    rw [← hl1, ← hl2]; rfl
  rw [es, hpre1]
  have hb := h4.bal
  have ho := h4.own
  refine ⟨?_, ?_, own_append ho (by simp)⟩
  · rw [AllPos_append, AllPos_append]
    refine ⟨⟨?_, by rw [List.nil_append]; exact h3⟩, ?_⟩
    · rw [← hpre1, AllPos_append]
      refine ⟨⟨?_, ?_, ?_, ?_, ?_, trivial⟩, by rw [List.nil_append]; exact h1⟩ <;>
      · refine ⟨?_, ?_⟩
        · constructor <;> simp [fallible, bal, delta, dones, hstop, hw]
        · simp [OwnAt, Own, fallible]
    · rw [List.nil_append]
      generalize pre1 ++ loop2 = pre at hb ho
      refine ⟨⟨?_, fun _ _ => ho⟩, ⟨?_, by simp [OwnAt, fallible]⟩,
        ⟨?_, by simp [OwnAt, fallible]⟩, ⟨?_, by simp [OwnAt, fallible]⟩, trivial⟩ <;>
      · constructor <;> simp [fallible, bal_append, hb, bal, delta, dones, hstop, hbody] <;> simp [writer]
  · rw [bal_append, hb]; simp [bal, delta, dones, writer]

theorem writer_wf (w : Int) (hw : 0 ≤ w) (n : Nat) : WF (writer w n) where
  start_ne := by simp [writer]
  stop_ne := by simp [writer]
  pos := (AllPos_and (writer_all w hw n).1).1
  balEnd := (writer_all w hw n).2.1
  stop_split := ⟨[.setReady false, .setAlive false], [.releaseIfSet .nats, .closeProbes], by simp [writer]⟩
  stop_plain := by simp [writer, fallible, delta, born]
  stop_rel' := by intro r h; simp [writer] at h
  body_op := by intro g; cases g <;> simp [writer, threadOp]
  body_done := by
    intro g
    cases g with
    | statistician => exact Or.inr ⟨[.awaitStop], by simp [writer]⟩
    | worker i => exact Or.inr ⟨[.awaitStop], by simp [writer]⟩
    | _ => left; simp [writer]
  body_serve := by intro g; cases g <;> simp [writer]
  inner := by intro g g'; cases g <;> simp [writer]

/-- Components without an HTTP server. -/
theorem wfs_of_none {c : Comp} (h : ∀ g, .serve ∉ c.body g ∧ .listen ∉ c.body g) : WFS c where
  inner_serve := fun _ g' _ hs => absurd hs (h g').1
  outer := fun g _ => h g

end Spout.Lifecycle
