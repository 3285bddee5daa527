import Verif.Props.DeploymentFilesRaw
import Verif.Props.DeploymentCounters

/-! # C116: configurations that send lines round in circles

Nothing in config/config.go stops a rule of a filter (or its junk subject) from having the subject to which the filter itself subscribes. -/

set_option linter.unusedSimpArgs false

namespace Spout.Deploy
open Spout Spout.Listener Spout.Pool Spout.Spec Spout.Delivery Spout.Conf

universe u

/-! ## Specification -/

variable {d : Setup}

/-- The filters publish the line on the subject to which they subscribe. -/
def backTo (d : Setup) (line : Bytes) : Bool := (textTo d.S d.rules d.junk d.lsub line).isSome

/-- The lines that the filters have not finished with: in messages on the way to them (or dropped by NATS, or in the queue of a crashed process), and in those their workers are working on. -/
def State.inFilters (s : State d) : List Bytes := ((s.filters.workers.flatMap fun f => f.working.toList) ++ s.filters.onTheWay).flatMap linesOf

/-! ## Proofs -/

variable {s0 s s' : State d}

/-- See `Lines`. -/
abbrev Tidy (line : Bytes) : Prop := IsLine line ∧ TagsInOrder line

theorem emitted_inOrder {S : Sorter} {line out : Bytes} (ho : TagsInOrder line) (h : emitted S line = .ok (some out)) : out = line := by
  obtain ⟨o, hp⟩ := parseTags_safe line
  cases o with
  | none =>
    have e1 : emitted S line = .ok none := by
      unfold emitted; rw [newParsedLine_none hp]; rfl
    rw [e1] at h; cases h
  | some p =>
    rw [emitted_eq S line p hp, if_pos (ho p hp)] at h
    injection h with h; injection h with h
    exact h.symm

theorem textTo_tidy {S : Sorter} {rules : List Rule} {junk sub line out : Bytes} (ho : TagsInOrder line) (h : textTo S rules junk sub line = some out) : out = line :=
  emitted_inOrder ho (textTo_emitted h)

/-- The messages that the listeners have published. -/
def State.heard (s : State d) : List Bytes := s.sources.flatMap fun y => (y.l.pubs.filter fun p => !p.failed).map (·.data)

/-- The messages that the filters have published for the filters. -/
def State.echoed (s : State d) : List Bytes := s.filters.workers.flatMap fun f => Delivery.published d.lsub f.pubss.flatten

theorem lsub_out' (h : ∀ y ∈ s.downs, y.out ≠ d.lsub) : onSubj d.lsub s.out = s.heard ++ s.echoed := by
  unfold State.out
  rw [onSubj_append, onSubj_append, onSubj_flatMap, onSubj_flatMap, onSubj_flatMap]
  have e2 : (s.downs.flatMap fun y => onSubj d.lsub (y.inp.workers.flatMap fun k => outOn y.out k.w.pubs)) = [] := by
    rw [List.flatMap_eq_nil_iff]
    intro y hy
    rw [onSubj_flatMap, List.flatMap_eq_nil_iff]
    intro k _
    rw [onSubj_outOn, if_neg (h y hy)]
  rw [e2, List.append_nil]
  unfold State.heard State.echoed
  congr 1
  · apply flatMap_congr'
    intro y _
    rw [onSubj_outOn, if_pos rfl]
  · apply flatMap_congr'
    intro f _
    rw [onSubj_outF]

/-- What a worker that has processed tidy lines has published on the filters' subject: each message consists of tidy lines. -/
theorem echo_tidy {f : FComp} (hr : filterRun d.S (FWorker.new d.delta d.rules d.junk) (FStats.init d.rules.length) f.past = .ok (f.w, f.st, f.pubss))
    (ht : ∀ m ∈ f.past, ∀ line ∈ linesOf m.data, Tidy line) :
    ∃ D : List (List Bytes), onSubject d.lsub f.pubss.flatten = D.map List.flatten ∧ (∀ g ∈ D, ∀ t ∈ g, Tidy t) ∧
      D.flatten = f.past.flatMap fun m => grouped d.rules d.junk d.lsub (outcomes d.S d.rules d.delta m.now m.data) := by
  obtain ⟨D, h1, h2⟩ := filter_messages d.S d.delta d.rules d.junk d.lsub f.past _ _ _ hr
  refine ⟨D, h1, ?_, h2⟩
  intro g hg t htg
  have h3 : t ∈ D.flatten := List.mem_flatten.2 ⟨g, hg, htg⟩
  rw [h2] at h3
  obtain ⟨m, hm, h4⟩ := List.mem_flatMap.1 h3
  have h5 := (grouped_perm d.rules d.junk d.lsub _ (fun i out h => routed_lt_outcomes d.S d.rules d.delta m.now m.data i out h)).mem_iff.1 h4
  have h6 := (accepted_sublist d.S d.rules d.junk d.lsub d.delta m).subset h5
  obtain ⟨line, hl, h7⟩ := List.mem_filterMap.1 h6
  have := ht m hm line hl
  rw [textTo_tidy this.2 h7]
  exact this

theorem echo_lines {f : FComp} (hr : filterRun d.S (FWorker.new d.delta d.rules d.junk) (FStats.init d.rules.length) f.past = .ok (f.w, f.st, f.pubss))
    (ht : ∀ m ∈ f.past, ∀ line ∈ linesOf m.data, Tidy line) : ∀ m ∈ Delivery.published d.lsub f.pubss.flatten, ∀ line ∈ linesOf m, Tidy line := by
  obtain ⟨D, h1, h2, -⟩ := echo_tidy hr ht
  intro m hm line hl
  have hm := (published_sublist _ _).subset hm
  rw [h1] at hm
  obtain ⟨g, hg, rfl⟩ := List.mem_map.1 hm
  rw [linesOf_lines g fun x hx => (h2 g hg x hx).1] at hl
  exact h2 g hg line hl

/-- Everything a filter worker has received has been published. -/
theorem taken_out (I : Inv s) {f : FComp} (hf : f ∈ s.filters.workers) {m : Bytes} (hm : m ∈ f.taken) : m ∈ onSubj d.lsub s.out := by
  refine (filter_received I).mem_iff.1 (List.mem_append_left _ ?_)
  exact List.mem_flatten.2 ⟨_, List.mem_map_of_mem hf, hm⟩

/-! ### If what listeners publish is tidy, so is what the filters receive -/

/-- What is known of every state. -/
structure TidyInv (s : State d) : Prop where
  past : ∀ f ∈ s.filters.workers, ∀ m ∈ f.past, ∀ line ∈ linesOf m.data, Tidy line

theorem tidy_out (I : Inv s) (J : TidyInv s) (hd : ∀ y ∈ s.downs, y.out ≠ d.lsub) (hh : ∀ m ∈ s.heard, ∀ line ∈ linesOf m, Tidy line) :
    ∀ m ∈ onSubj d.lsub s.out, ∀ line ∈ linesOf m, Tidy line := by
  rw [lsub_out' hd]
  intro m hm
  rcases List.mem_append.1 hm with hm | hm
  · exact hh m hm
  · obtain ⟨f, hf, hm⟩ := List.mem_flatMap.1 hm
    exact echo_lines (I.fran f hf) (J.past f hf) m hm

theorem heard_listener {i : Nat} {x y : LComp} {ps : List LPub} (h : s.listeners[i]? = some x) (hp : y.l.pubs = x.l.pubs ++ ps) :
    ∀ m ∈ s.heard, m ∈ ({ s with listeners := s.listeners.set i y } : State d).heard := by
  obtain ⟨he, h⟩ := sources_set y h
  intro m hm
  unfold State.heard at hm ⊢
  rw [he]
  refine (flatMap_set y (fun y : LComp => (y.l.pubs.filter fun p => !p.failed).map (·.data)) ((ps.filter fun p => !p.failed).map (·.data)) h (by
    rw [hp, List.filter_append, List.map_append])).mem_iff.2 (List.mem_append_left _ hm)

theorem Changed.heard {f f' : FComp} {c : Group FComp} (hc : Changed s.filters c f f') (J : TidyInv s) (h : ∀ m ∈ f'.past, ∀ line ∈ linesOf m.data, Tidy line) :
    ∀ g ∈ c.workers, ∀ m ∈ g.past, ∀ line ∈ linesOf m.data, Tidy line :=
  hc.all (fun g => ∀ m ∈ g.past, ∀ line ∈ linesOf m.data, Tidy line) J.past h

theorem step_heard (h : Step d s s') : (∀ m ∈ s.heard, m ∈ s'.heard) ∧ s'.downs.map (·.out) = s.downs.map (·.out) := by
  have hd : s'.downs.map (·.out) = s.downs.map (·.out) := by
    have := (step_same h).downs
    have := congrArg (List.map fun z => z.2.1) this
    simpa [List.map_map, Function.comp_def] using this
  refine ⟨?_, hd⟩
  cases h with
  | udp i l l' got e h hlen hr =>
    obtain ⟨-, ps, hp⟩ := udpStep_pubs hr
    exact heard_listener (x := .udp l got) (y := .udp l' (got ++ [e])) h hp
  | request i l reqs wakeups order steps q h hq =>
    exact heard_listener (x := .http l reqs wakeups order) (y := .http l (reqs ++ [⟨q, [], steps⟩]) wakeups order) (ps := []) h (by simp [LComp.l])
  | http i j l l' reqs wakeups order todo r e h hj ht hr =>
    obtain ⟨-, ps, hp⟩ := httpStep_pubs hr
    exact heard_listener (x := .http l reqs wakeups order) (y := .http l' (reqs.set j ⟨r.req, r.done ++ [e], todo⟩) wakeups (order ++ [e])) h hp
  | wake i l l' reqs wakeups order t t2 fail h hr =>
    obtain ⟨-, ps, hp⟩ := httpStep_pubs hr
    exact heard_listener (x := .http l reqs wakeups order) (y := .http l' reqs (wakeups ++ [.oldBatch t fail t2]) (order ++ [.oldBatch t fail t2])) h hp
  | _ => exact fun m hm => hm

theorem step_tidy (I : Inv s) (J : TidyInv s) (hd : ∀ y ∈ s.downs, y.out ≠ d.lsub) (hh : ∀ m ∈ s.heard, ∀ line ∈ linesOf m, Tidy line) (h : Step d s s') : TidyInv s' := by
  cases h with
  | filterIn c h => exact ⟨by rw [show ({ s with filters := c } : State d).filters.workers = s.filters.workers from Group.step_workers h]; exact J.past⟩
  | filterTake f m c hw h => exact ⟨h.changed.heard J (J.past f h.changed.mem)⟩
  | filterDo f m now fail w' st' pubs c hw hr h =>
    refine ⟨h.changed.heard J ?_⟩
    intro x hx
    rcases List.mem_append.1 hx with hx | hx
    · exact J.past f h.changed.mem x hx
    · rw [List.mem_singleton.1 hx]
      refine tidy_out I J hd hh m (taken_out I h.changed.mem ?_)
      unfold FComp.taken
      rw [hw]
      exact List.mem_append_right _ (List.mem_singleton.2 rfl)
  | _ => exact ⟨J.past⟩

theorem change_tidy (h : Change d s s') : (TidyInv s → TidyInv s') ∧ (∀ m ∈ s.heard, m ∈ s'.heard) ∧ ∀ y ∈ s.downs, ∃ z ∈ s'.downs, z.out = y.out := by
  have same : ∀ y ∈ s.downs, ∃ z ∈ s.downs, z.out = y.out := fun y hy => ⟨y, hy, rfl⟩
  cases h with
  | listenerStarts x h =>
    refine ⟨fun J => ⟨J.past⟩, ?_, same⟩
    intro m hm
    obtain ⟨y, hy, hm⟩ := List.mem_flatMap.1 hm
    refine List.mem_flatMap.2 ⟨y, ?_, hm⟩
    unfold State.sources at hy ⊢
    rcases List.mem_append.1 hy with hy | hy
    · exact List.mem_append_left _ (List.mem_append_left _ hy)
    · exact List.mem_append_right _ hy
  | listenerEnds pre post x h =>
    refine ⟨fun J => ⟨J.past⟩, ?_, same⟩
    intro m hm
    obtain ⟨y, hy, hm⟩ := List.mem_flatMap.1 hm
    refine List.mem_flatMap.2 ⟨y, ?_, hm⟩
    unfold State.sources at hy ⊢
    rw [h] at hy
    simp only [List.mem_append, List.mem_cons] at hy ⊢
    rcases hy with (hy | rfl | hy) | hy
    · exact Or.inl (Or.inl hy)
    · exact Or.inr (Or.inl rfl)
    · exact Or.inl (Or.inr hy)
    · exact Or.inr (Or.inr hy)
  | filterStarts ws h =>
    refine ⟨fun J => ⟨?_⟩, fun m hm => hm, same⟩
    intro f hf
    rcases List.mem_append.1 ((join_workers s.filters ws).mem_iff.1 hf) with hf | hf
    · rw [h f hf]; exact (fun m hm => by cases hm)
    · exact J.past f hf
  | filterEnds c h => exact ⟨fun J => ⟨fun f hf => J.past f (h.workers.mem_iff.1 hf)⟩, fun m hm => hm, same⟩
  | downStarts subject out period now0 => exact ⟨fun J => ⟨J.past⟩, fun m hm => hm, fun y hy => ⟨y, List.mem_append_left _ hy, rfl⟩⟩
  | downEnds i x c hx h =>
    refine ⟨fun J => ⟨J.past⟩, fun m hm => hm, fun y hy => ?_⟩
    have := map_set_same { x with inp := c } (fun y : DComp d.fo => y.out) hx rfl
    have hm := List.mem_map_of_mem (f := fun y : DComp d.fo => y.out) hy
    rw [← this] at hm
    obtain ⟨z, hz, e⟩ := List.mem_map.1 hm
    exact ⟨z, hz, e⟩
  | writerStarts subjects conf ws h => exact ⟨fun J => ⟨J.past⟩, fun m hm => hm, same⟩
  | writerJoins i x ws hx h => exact ⟨fun J => ⟨J.past⟩, fun m hm => hm, same⟩
  | writerEnds i x c hx h => exact ⟨fun J => ⟨J.past⟩, fun m hm => hm, same⟩

/-- If the lines the listeners have published are tidy, so are those that the filters have processed. -/
theorem tidy_reach (h0 : Start d s0) (h : Reach d s0 s) (hd : ∀ y ∈ s.downs, y.out ≠ d.lsub) (hh : ∀ m ∈ s.heard, ∀ line ∈ linesOf m, Tidy line) : TidyInv s := by
  induction h with
  | refl =>
    refine ⟨?_⟩
    intro f hf
    obtain ⟨x, hx, hf⟩ := Group.mem_workers.1 hf
    rw [h0.filters.1.all] at hx
    rw [h0.filters.2 x hx f hf]
    exact (fun m hm => by cases hm)
  | step h1 h2 ih =>
    obtain ⟨g1, g2⟩ := step_heard h2
    have hd' : ∀ y ∈ (_ : State d).downs, y.out ≠ d.lsub := fun y hy e => by
      obtain ⟨z, hz, e'⟩ := mem_of_map g2.symm hy
      exact hd z hz (e'.trans e)
    exact step_tidy (inv_reach h0 h1) (ih hd' fun m hm => hh m (g1 m hm)) hd' (fun m hm => hh m (g1 m hm)) h2
  | @change s1 s2 h1 h2 ih =>
    obtain ⟨g1, g2, g3⟩ := change_tidy h2
    exact g1 (ih (fun y hy e => by obtain ⟨z, hz, e'⟩ := g3 y hy; exact hd z hz (e'.trans e)) fun m hm => hh m (g2 m hm))

/-! ### The balance -/

theorem filterMap_tidy {S : Sorter} {rules : List Rule} {junk sub : Bytes} (ls : List Bytes) (h : ∀ line ∈ ls, Tidy line) :
    ls.filterMap (textTo S rules junk sub) = ls.filter fun line => (textTo S rules junk sub line).isSome := by
  induction ls with
  | nil => rfl
  | cons l ls ih =>
    rw [List.filterMap_cons, List.filter_cons, ih fun x hx => h x (List.mem_cons_of_mem _ hx)]
    cases e : textTo S rules junk sub l with
    | none => rfl
    | some o =>
      rw [textTo_tidy (h l List.mem_cons_self).2 e]
      rfl

/-- The lines that a worker has published for the filters are those of the lines it has processed that belong there. -/
theorem echo_balance (I : Inv s) (J : TidyInv s) (hf : s.NoFailure) (ht : s.Timely) {f : FComp} (hm : f ∈ s.filters.workers) :
    ((Delivery.published d.lsub f.pubss.flatten).flatMap linesOf).Perm (f.lines.filter (backTo d)) := by
  obtain ⟨D, h1, h2, h3⟩ := echo_tidy (I.fran f hm) (J.past f hm)
  rw [published_all _ _ (hf.2 f hm), h1, List.flatMap_map]
  have e : (D.flatMap fun g => linesOf g.flatten) = D.flatten := by
    rw [← List.flatMap_id]
    exact flatMap_congr' _ _ _ fun g hg => linesOf_lines g fun x hx => (h2 g hg x hx).1
  rw [e, h3]
  unfold FComp.lines
  rw [List.filter_flatMap]
  apply perm_flatMap
  intro m hmm
  refine (grouped_perm d.rules d.junk d.lsub _ (fun i out h => routed_lt_outcomes d.S d.rules d.delta m.now m.data i out h)).trans (List.Perm.of_eq ?_)
  obtain ⟨t1, t2, t3⟩ := ht.2 f hm m hmm
  have := accepted_timely d.S d.rules d.junk d.lsub d.delta m ht.1 t1 t2 t3
  unfold Delivery.accepted at this
  rw [this, filterMap_tidy _ (J.past f hm m hmm)]
  rfl

theorem heard_all (hf : s.NoFailure) : s.heard = s.sources.flatMap fun y => y.l.pubs.map (·.data) := by
  apply flatMap_congr'
  intro y hy
  congr 1
  rw [List.filter_eq_self.2]
  intro p hp
  rw [hf.1 y hy p hp]; rfl

theorem heard_tidy (I : Inv s) (hb : SmallBatches s) {sent : List (List Bytes)} (hs : Each2 Sent s.sources sent) (hf : s.NoFailure) (hp : Lines sent.flatten) :
    ∀ m ∈ s.heard, ∀ line ∈ linesOf m, Tidy line := by
  intro m hm line hl
  refine hp line ((sources_sent I hb sent hs).mem_iff.2 (List.mem_append_left _ ?_))
  rw [heard_all hf] at hm
  exact List.mem_flatMap.2 ⟨m, hm, hl⟩

/-- **C116 (what comes back to the filters stays there).** In every state that a deployment can reach: if no publish has failed, the lines processed were in the filters' time window (lines without a timestamp always are), no downsampler publishes to the filters, and
the lines sent are complete with their tags in order (what the filter does with others is in C20, C21 and C96), then the lines sent to the listeners that the filters' rules send back to the filters' own subject are, each exactly as often as it was sent, still in a listener, on the way to the filters (or dropped on it), or in a message that a filter is working on: however often the filters have processed them. -/
theorem C116_circulates (h0 : Start d s0) (h : Reach d s0 s) (hd : ∀ y ∈ s.downs, y.out ≠ d.lsub) (hb : SmallBatches s) (sent : List (List Bytes)) (hs : Each2 Sent s.sources sent)
    (hp : Lines sent.flatten) (hf : s.NoFailure) (ht : s.Timely) :
    ((s.inFilters ++ s.sources.flatMap LComp.holds).filter (backTo d)).Perm (sent.flatten.filter (backTo d)) := by
  have I := inv_reach h0 h
  have hh := heard_tidy I hb hs hf hp
  have J := tidy_reach h0 h hd hh
  have h1 := flatMap_perm linesOf (filter_received I)
  rw [lsub_out' hd, List.flatMap_append, List.flatMap_append] at h1
  have e1 : ((s.filters.workers.map FComp.taken).flatten.flatMap linesOf).Perm ((s.filters.workers.flatMap FComp.lines) ++ (s.filters.workers.flatMap fun f => f.working.toList).flatMap linesOf) := by
    have : ((s.filters.workers.map FComp.taken).flatten).Perm ((s.filters.workers.flatMap fun f => f.past.map (·.data)) ++ s.filters.workers.flatMap fun f => f.working.toList) := by
      rw [← List.flatMap_def]
      exact flatMap_append_perm _ _ _
    refine (flatMap_perm linesOf this).trans (List.Perm.of_eq ?_)
    rw [List.flatMap_append, List.flatMap_assoc]
    congr 1
    apply flatMap_congr'
    intro f _
    unfold FComp.lines
    rw [List.flatMap_map]
  have e2 : ((s.echoed.flatMap linesOf).filter (backTo d)).Perm ((s.filters.workers.flatMap FComp.lines).filter (backTo d)) := by
    unfold State.echoed
    rw [List.flatMap_assoc, List.filter_flatMap, List.filter_flatMap]
    apply perm_flatMap
    intro f hm
    have := (echo_balance I J hf ht hm).filter (backTo d)
    rwa [List.filter_filter, show (fun a => backTo d a && backTo d a) = backTo d by funext a; exact Bool.and_self _] at this
  have h2 := ((e1.symm.append_right (s.filters.onTheWay.flatMap linesOf)).trans h1).filter (backTo d)
  rw [List.append_assoc, ← List.flatMap_append, List.filter_append, List.filter_append] at h2
  have h3 := h2.trans ((List.Perm.append_left _ e2).trans List.perm_append_comm)
  have h4 := (List.perm_append_left_iff _).1 h3
  have h5 := ((sources_sent I hb sent hs).filter (backTo d)).symm
  rw [List.filter_append, ← heard_all hf] at h5
  rw [List.filter_append]
  exact (h4.append_right _).trans h5

/-- **C116 (the work is never done).** In particular, if such a line was sent and nothing was lost, then something is left to do in every state that the deployment can reach while a filter is running. -/
theorem C116_never_done (h0 : Start d s0) (h : Reach d s0 s) (hd : ∀ y ∈ s.downs, y.out ≠ d.lsub) (hb : SmallBatches s) (sent : List (List Bytes)) (hs : Each2 Sent s.sources sent)
    (hp : Lines sent.flatten) (hf : s.NoFailure) (ht : s.Timely) (hm : s.filters.members ≠ []) (N : NothingLostF s)
    (hx : ∃ line ∈ sent.flatten, backTo d line = true) : ¬ s.Finished := by
  intro hfin
  obtain ⟨line, hl, hbk⟩ := hx
  have h1 := (C116_circulates h0 h hd hb sent hs hp hf ht).mem_iff.2 (List.mem_filter.2 ⟨hl, hbk⟩)
  have h2 := (List.mem_filter.1 h1).1
  have e1 : s.inFilters = [] := by
    unfold State.inFilters
    have : (s.filters.workers.flatMap fun f => f.working.toList) = [] := by
      rw [List.flatMap_eq_nil_iff]
      intro f hf
      rw [Group.workers_split] at hf
      rcases List.mem_append.1 hf with hf | hf
      · rw [hfin.working f hf]; rfl
      · rw [N.working f hf]; rfl
    rw [hfin.filters.onTheWay hm, N.filters, this]
    rfl
  have e2 : s.sources.flatMap LComp.holds = [] := by
    rw [List.flatMap_eq_nil_iff]
    intro y hy
    rcases List.mem_append.1 hy with hy | hy
    · exact hfin.holds y hy
    · exact N.listeners y hy
  rw [e1, e2] at h2
  cases h2

/-! ### Every fair schedule -/

theorem SameSetup.onwards (h : SameSetup s s') (A : s.Onwards) : s'.Onwards := by
  intro y hy
  obtain ⟨z, hz, e⟩ := mem_of_map h.downs hy
  simp only [Prod.mk.injEq] at e
  rw [← e.1, ← e.2.1]
  refine ⟨(A z hz).1, fun w hw => ?_⟩
  obtain ⟨v, hv, e'⟩ := mem_of_map h.downs hw
  simp only [Prod.mk.injEq] at e'
  rw [← e'.1]
  exact (A z hz).2 v hv

theorem Schedule.run {f : Nat → State d} (F : Schedule d s f) (n : Nat) : Run d s (f n) := by
  induction n with
  | zero => rw [F.start]; exact .refl
  | succ n ih =>
    rcases F.step n with h | ⟨h, -⟩
    · rw [h]; exact ih
    · exact ih.step h

/-- As long as the filters process no more messages, things settle. -/
theorem Schedule.settles_or {f : Nat → State d} (F : Schedule d s f) (h0 : Start d s0) (h : Reach d s0 s) (A : s.Onwards) (B : s.Sizes) (K : Nat)
    (hK : ∀ n, K ≤ n → ¬ FilterDid (f n) (f (n + 1))) : ∃ N, K ≤ N ∧ ∀ n, N ≤ n → SameWork (f N) (f n) := by
  have hb : ∀ y ∈ s.downs, y.subject.length ≤ (s.downs.map fun y => y.subject.length).sum := fun y hy => le_sum_mem (fun y : DComp d.fo => y.subject.length) hy
  generalize (s.downs.map fun y => y.subject.length).sum = R at hb
  have hsame : ∀ n, SameSetup s (f n) := by
    intro n
    have := F.same (Nat.zero_le n)
    rw [F.start] at this
    exact this
  have hst : ∀ n, Settles R (f (K + n)) (f (K + n + 1)) := by
    intro n
    have hR : ∀ y ∈ (f (K + n)).downs, y.subject.length ≤ R := by
      intro y hy
      obtain ⟨z, hz, e⟩ := mem_of_map (hsame (K + n)).downs hy
      simp only [Prod.mk.injEq] at e
      rw [← e.1]
      exact hb z hz
    rcases F.step (K + n) with h1 | ⟨h1, hn⟩
    · rw [h1]; exact Or.inr ⟨rfl, .refl _⟩
    · rcases step_settles_or (inv_reach h0 (h.run (F.run (K + n)))) ((hsame _).onwards A) ((hsame _).sizes B) hR h1 hn with g | g
      · exact g
      · exact absurd g (hK (K + n) (by omega))
  obtain ⟨N, hN⟩ := eventually_const (less_wf R) (fun n => (f (K + n)).todo) fun n => by
    rcases hst n with h | ⟨h, -⟩
    · exact Or.inr h
    · exact Or.inl h
  refine ⟨K + N, by omega, fun n hn => ?_⟩
  obtain ⟨m, rfl⟩ := Nat.exists_eq_add_of_le hn
  clear hn
  induction m with
  | zero => exact .refl _
  | succ m ih =>
    refine ih.trans ?_
    rcases hst (N + m) with h | ⟨-, h⟩
    · exfalso
      have e1 := hN (N + m + 1) (by omega)
      have e2 := hN (N + m) (by omega)
      rw [show K + (N + m) + 1 = K + (N + m + 1) from rfl, e1, e2] at h
      exact wf_irrefl (less_wf R) _ h
    · rw [show K + N + (m + 1) = K + (N + m) + 1 by omega, show K + N + m = K + (N + m) by omega]; exact h

/-- **C116 (the filters never come to rest).** Let a line that the filters' rules send back to the filters' own subject have been sent to a deployment in which a filter is running.  Under every schedule in which something is done as long as anything is left to do, and in which no publish fails, nothing is lost and
the lines processed are in the filters' time window (lines without a timestamp always are), the filters process messages forever, although nothing more is sent to the listeners. -/
theorem C116_busy_forever (h0 : Start d s0) (h : Reach d s0 s) (A : s.Onwards) (B : s.Sizes) (hb : SmallBatches s) (hm : s.filters.members ≠ []) (sent : List (List Bytes)) (hs : Each2 Sent s.sources sent)
    (hp : Lines sent.flatten) (hx : ∃ line ∈ sent.flatten, backTo d line = true) {f : Nat → State d} (F : Schedule d s f) (hfair : Fair f)
    (hf : ∀ n, (f n).NoFailure) (ht : ∀ n, (f n).Timely) (N : ∀ n, NothingLostF (f n)) : ∀ k, ∃ n, k ≤ n ∧ FilterDid (f n) (f (n + 1)) := by
  intro k
  refine Classical.byContradiction fun hc => ?_
  have hsame : ∀ n, SameSetup s (f n) := by
    intro n
    have := F.same (Nat.zero_le n)
    rw [F.start] at this
    exact this
  obtain ⟨M, -, hM⟩ := F.settles_or h0 h A B k fun n hn hd => hc ⟨n, hn, hd⟩
  obtain ⟨m, hm1, hm2⟩ := hfair M (C116_never_done h0 (h.run (F.run M)) (fun y hy => ((hsame M).onwards A y hy).1) ((hsame M).small hb) sent (F.sent hs M) hp (hf M) (ht M)
    ((Group.fixed_eq (hsame M).filters).2.2 hm) (N M) hx)
  exact hm2 (hM m hm1)

/-! ## In terms of the configuration files -/

variable {compile : Bytes → Option (Bytes → Bool)} {cs : Confs}

theorem Deployed.onwards (L : cs.Loaded) (D : Deployed compile cs s) (hd : ∀ c ∈ cs.downsamplers, ∀ sub ∈ c.natsSubject, sub ++ c.downsampleSuffix ∉ cs.filter.natsSubject) : s.Onwards := by
  obtain ⟨-, h2, -, -⟩ := D.setup L
  intro y hy
  obtain ⟨c, hc, hdo⟩ := D.downs y hy
  exact ⟨fun e => hd c hc y.subject hdo.subject (by rw [← hdo.out, h2, e]; exact List.mem_singleton.2 rfl), fun z _ e => D.longer L hy e⟩

/-- The line is sent back if the file of the filters says so. -/
theorem goes_back (L : cs.Loaded) (D : Deployed compile cs s) {line : Bytes} (ho : TagsInOrder line) (h : ∃ sub ∈ cs.filter.natsSubject, GoesTo compile cs.filter line sub) : backTo d line = true := by
  obtain ⟨h1, h2, -, h4⟩ := D.setup L
  obtain ⟨sub, hsub, hg⟩ := h
  rw [h2, List.mem_singleton] at hsub
  subst hsub
  have := (subjectOf_inOrder h1 d.S ho d.lsub line).2 ⟨hg, rfl⟩
  unfold backTo textTo
  rw [h4, this]
  simp

/-- **C116 (accepted files can send lines round in circles).** Let a deployment be started with configuration files that are accepted, and let a line have been sent to it that the file of the filters (the first rule that matches it, or the junk subject) sends to the subject to which
the filters subscribe themselves.  Then under every schedule in which something is done as long as anything is left to do, and in which no publish fails, nothing is lost and the lines processed are in the filters' time window (lines without a timestamp always are),
the filters process messages forever. -/
theorem C116_files_busy_forever (L : cs.Loaded) (h0 : Start d s0) (h : Reach d s0 s) (D : Deployed compile cs s)
    (hd : ∀ c ∈ cs.downsamplers, ∀ sub ∈ c.natsSubject, sub ++ c.downsampleSuffix ∉ cs.filter.natsSubject) (hm : s.filters.members ≠ []) (sent : List (List Bytes)) (hs : Each2 Sent s.sources sent)
    (hl : Lines sent.flatten) (hx : ∃ line ∈ sent.flatten, ∃ sub ∈ cs.filter.natsSubject, GoesTo compile cs.filter line sub) {f : Nat → State d} (F : Schedule d s f) (hfair : Fair f)
    (hf : ∀ n, (f n).NoFailure) (ht : ∀ n, (f n).Timely) (N : ∀ n, NothingLostF (f n)) : ∀ k, ∃ n, k ≤ n ∧ FilterDid (f n) (f (n + 1)) := by
  obtain ⟨hb, B⟩ := C112_sizes L D
  obtain ⟨line, hm1, hm2⟩ := hx
  exact C116_busy_forever h0 h (D.onwards L hd) B hb hm sent hs hl ⟨line, hm1, goes_back L D (hl line hm1).2 hm2⟩ F hfair hf ht N

/-- **C116 (the part that holds).** If neither the rules of the filters' file, nor its junk subject, nor the output of a downsampler is the subject to which the filters subscribe, then under every schedule in which something is done as long as anything is left to do,
whatever is lost, fails or is too old, there is a moment from which on nothing is left to do. -/
theorem C116_rests_partial (L : cs.Loaded) (h0 : Start d s0) (h : Reach d s0 s) (D : Deployed compile cs s) (hr : ∀ r ∈ cs.filter.rule, r.subject ∉ cs.filter.natsSubject)
    (hj : cs.filter.natsSubjectJunkyard ∉ cs.filter.natsSubject) (hd : ∀ c ∈ cs.downsamplers, ∀ sub ∈ c.natsSubject, sub ++ c.downsampleSuffix ∉ cs.filter.natsSubject)
    {f : Nat → State d} (F : Schedule d s f) (hfair : Fair f) : ∃ N, ∀ n, N ≤ n → (f n).Finished := by
  obtain ⟨h1, h2, -, h4⟩ := D.setup L
  refine C101_fair_finishes h0 h ⟨?_, ?_, D.onwards L hd⟩ (C112_sizes L D).2 F hfair
  · intro r hr' e
    obtain ⟨r', hr'', hde⟩ := described_left (rules_described h1) hr'
    exact hr r' hr'' (by rw [← describes_subject hde, e, h2]; exact List.mem_singleton.2 rfl)
  · intro e
    exact hj (by rw [← h4, e, h2]; exact List.mem_singleton.2 rfl)

/-! ## A case

A listener and a filter with one worker; the file of the filter has one rule, whose subject is the default subject of listeners and filters. -/

def loopFilter : Layer :=
  { mode := some b!"filter", maxTimeDelta := some 1000, natsSubjectJunkyard := some b!"junk",
    rule := some [{ rtype := some b!"basic", match_ := some b!"cpu", subject := some b!"influx-spout" }] }

/-- A machine with these files. -/
def loopSystem : Bytes → FileState := fun n =>
  if n = b!"listener.toml" then .decoded fileListener else if n = b!"filter.toml" then .decoded loopFilter else .notExist

def loopConf (n : Bytes) : Config := (newConfigFromFile loopSystem (fun _ => []) n).getD {}

def loopConfs : Confs := ⟨[loopConf b!"listener.toml"], loopConf b!"filter.toml", [], []⟩

theorem loopConf_loaded {n : Bytes} (h : (newConfigFromFile loopSystem (fun _ => []) n).isSome = true) : Loaded (loopConf n) := by
  refine ⟨loopSystem, fun _ => [], n, ?_⟩
  unfold loopConf
  cases hn : newConfigFromFile loopSystem (fun _ => []) n with
  | none => rw [hn] at h; cases h
  | some c => rfl

theorem loopConfs_loaded : loopConfs.Loaded := by
  refine ⟨?_, ⟨loopConf_loaded (n := b!"filter.toml") (by decide +kernel), by decide +kernel⟩, (fun c hc => by cases hc), (fun c hc => by cases hc)⟩
  intro c hc
  rw [List.mem_singleton.1 hc]
  exact ⟨loopConf_loaded (by decide +kernel), by decide +kernel⟩

def loopRules : List Rule := [createBasicRule b!"cpu" b!"influx-spout"]

def loopSetup : Setup := ⟨insertionSorter, wholeFloats, b!"influx-spout", 1000, loopRules, b!"junk"⟩

theorem loopFilter_conf : filterConf (fun _ => none) loopConfs.filter = .ok (some ⟨b!"influx-spout", 1000, loopRules, b!"junk"⟩) := by
  have e : loopConfs.filter.rule = [⟨b!"basic", b!"cpu", [], b!"influx-spout"⟩] := by decide +kernel
  have e1 : loopConfs.filter.natsSubject = [b!"influx-spout"] := by decide +kernel
  have e2 : loopConfs.filter.maxTimeDelta = 1000 := by decide +kernel
  have e3 : loopConfs.filter.natsSubjectJunkyard = b!"junk" := by decide +kernel
  unfold filterConf
  rw [e, e1, e2, e3]
  rfl

def loopLine : Bytes := b!"cpu,h=1 f=1\n"

def loopEvent : UDPEvent := ⟨loopLine, false, 1, 2, 3, fun _ => false⟩

def loopL : Listener := ⟨⟨1, 1000, 1048576⟩, ⟨[], 1048576, 0, 3⟩, ⟨1, 1, 0, 0⟩, [⟨loopLine, false⟩]⟩

def loopState (l : LComp) (f : Group FComp) : State loopSetup := ⟨[l], [], f, [], []⟩

def loopStart : State loopSetup := loopState (.udp (Listener.new ⟨1, 1000, 1048576⟩ 0) []) (stGroup b!"influx-spout" [] [] [] [] [] (FComp.new loopSetup))

theorem loop_start : Start loopSetup loopStart := by
  refine ⟨?_, rfl, ⟨⟨rfl, ?_, rfl⟩, ?_⟩, (fun y hy => by cases hy), (fun y hy => by cases hy)⟩
  · intro y hy
    rw [List.mem_singleton.1 hy]
    exact ⟨_, _, Or.inl rfl⟩
  · intro y hy
    rw [List.mem_singleton.1 hy]; rfl
  · intro y hy f hf
    rw [List.mem_singleton.1 hy] at hf
    exact List.mem_singleton.1 hf

def loopOutcomes : List Outcome := outcomes insertionSorter loopRules 1000 10000 loopLine

/-- The counters after `n` rounds. -/
def loopStats : Nat → FStats
  | 0 => FStats.init loopRules.length
  | n + 1 => { afterS (loopStats n) loopOutcomes with failedPublish := (loopStats n).failedPublish }

/-- The worker after `n` rounds. -/
def loopF (n : Nat) (working : Option Bytes) : FComp :=
  ⟨FWorker.new 1000 loopRules b!"junk", loopStats n, working, List.replicate n ⟨10000, fun _ => false, loopLine⟩, List.replicate n [⟨b!"influx-spout", loopLine, false⟩]⟩

/-- The line is on the way to the filter, in front of its queue, in its queue, with its worker. -/
def loopAt (n : Nat) : Nat → State loopSetup
  | 0 => loopState (.udp loopL [loopEvent]) (stGroup b!"influx-spout" [loopLine] (List.replicate n loopLine) [] [] (List.replicate n loopLine) (loopF n none))
  | 1 => loopState (.udp loopL [loopEvent]) (stGroup b!"influx-spout" [] (List.replicate (n + 1) loopLine) [loopLine] [] (List.replicate n loopLine) (loopF n none))
  | 2 => loopState (.udp loopL [loopEvent]) (stGroup b!"influx-spout" [] (List.replicate (n + 1) loopLine) [] [loopLine] (List.replicate n loopLine) (loopF n none))
  | _ => loopState (.udp loopL [loopEvent]) (stGroup b!"influx-spout" [] (List.replicate (n + 1) loopLine) [] [] (List.replicate (n + 1) loopLine) (loopF n (some loopLine)))

theorem loop_busy : Reach loopSetup loopStart (loopAt 0 0) :=
  Reach.refl.step (Step.udp loopStart 0 (Listener.new ⟨1, 1000, 1048576⟩ 0) loopL [] loopEvent rfl (by decide) (by decide +kernel))

theorem loopStats_length (n : Nat) : (loopStats n).triggered.length = loopRules.length := by
  induction n with
  | zero => rfl
  | succ n ih => exact (afterS_triggered_length _ _).trans ih

theorem loop_process (n : Nat) : (FWorker.new 1000 loopRules b!"junk").processBatch insertionSorter (loopStats n) 10000 (fun _ => false) loopLine =
    .ok (FWorker.new 1000 loopRules b!"junk", loopStats (n + 1), [⟨b!"influx-spout", loopLine, false⟩]) := by
  obtain ⟨-, pubs, h1, h2, h3⟩ := processBatch_eq insertionSorter 1000 loopRules b!"junk" (loopStats n) 10000 (fun _ => false) loopLine (loopStats_length n)
  have e : expectedPubs loopRules b!"junk" (outcomes insertionSorter loopRules 1000 10000 loopLine) = [(b!"influx-spout", loopLine)] := by decide +kernel
  rw [e] at h2
  match pubs, h2, h3, h1 with
  | [⟨sub, data, failed⟩], h2, h3, h1 =>
    simp only [List.map_cons, List.map_nil, List.cons.injEq, Prod.mk.injEq, and_true] at h2
    have hf : failed = false := by simpa using h3
    obtain ⟨rfl, rfl⟩ := h2
    subst hf
    rw [h1]
    rfl

theorem loop_step (n : Nat) : ∀ r : Nat, r < 4 → Step loopSetup (loopAt n r) (if r = 3 then loopAt (n + 1) 0 else loopAt n (r + 1)) := by
  intro r hr
  match r, hr with
  | 0, _ =>
    show Step loopSetup (loopAt n 0) (loopAt n 1)
    have := st_deliver b!"influx-spout" loopLine (List.replicate n loopLine) [] [] (List.replicate n loopLine) (loopF n none)
    rw [← List.replicate_succ'] at this
    exact Step.filterIn (loopAt n 0) _ this
  | 1, _ => exact Step.filterIn (loopAt n 1) _ (st_push b!"influx-spout" loopLine (List.replicate (n + 1) loopLine) (List.replicate n loopLine) (loopF n none))
  | 2, _ =>
    show Step loopSetup (loopAt n 2) (loopAt n 3)
    have := st_take b!"influx-spout" loopLine (List.replicate (n + 1) loopLine) (List.replicate n loopLine) (loopF n none) (loopF n (some loopLine))
    rw [← List.replicate_succ'] at this
    exact Step.filterTake (loopAt n 2) (loopF n none) loopLine _ rfl this
  | 3, _ =>
    show Step loopSetup (loopAt n 3) (loopAt (n + 1) 0)
    have hw := st_work b!"influx-spout" [] (List.replicate (n + 1) loopLine) [] [] (List.replicate (n + 1) loopLine) (loopF n (some loopLine))
      ⟨FWorker.new 1000 loopRules b!"junk", loopStats (n + 1), none, (loopF n (some loopLine)).past ++ [⟨10000, fun _ => false, loopLine⟩],
        (loopF n (some loopLine)).pubss ++ [[⟨b!"influx-spout", loopLine, false⟩]]⟩
    have := Step.filterDo (loopAt n 3) (loopF n (some loopLine)) loopLine 10000 (fun _ => false) _ _ _ _ rfl (loop_process n) hw
    refine Eq.mp (congrArg _ ?_) this
    unfold loopF
    dsimp only
    rw [← List.replicate_succ', ← List.replicate_succ']
    rfl

/-- The line goes round. -/
def loopRound (k : Nat) : State loopSetup := loopAt (k / 4) (k % 4)

theorem loopRound_next (k : Nat) : loopRound (k + 1) = if k % 4 = 3 then loopAt (k / 4 + 1) 0 else loopAt (k / 4) (k % 4 + 1) := by
  unfold loopRound
  split
  · rw [show (k + 1) / 4 = k / 4 + 1 by omega, show (k + 1) % 4 = 0 by omega]
  · rw [show (k + 1) / 4 = k / 4 by omega, show (k + 1) % 4 = k % 4 + 1 by omega]

theorem loopAt_same (n r : Nat) : (loopAt n r).listeners = [.udp loopL [loopEvent]] ∧ (loopAt n r).crashed = [] ∧ (loopAt n r).downs = [] ∧ (loopAt n r).writers = [] ∧
    (∀ f ∈ (loopAt n r).filters.workers, f.past = List.replicate n ⟨10000, fun _ => false, loopLine⟩ ∧ f.pubss = List.replicate n [⟨b!"influx-spout", loopLine, false⟩]) ∧
    (loopAt n r).filters.gone = [] ∧ (loopAt n r).filters.deadWorkers = [] := by
  match r with
  | 0 | 1 | 2 | _ + 3 =>
    refine ⟨rfl, rfl, rfl, rfl, ?_, rfl, rfl⟩
    intro f hf
    rw [List.mem_singleton.1 hf]
    exact ⟨rfl, rfl⟩

theorem loop_schedule : Schedule loopSetup (loopAt 0 0) loopRound := by
  refine ⟨rfl, fun k => Or.inr ⟨?_, ?_⟩⟩
  · rw [loopRound_next]
    exact loop_step (k / 4) (k % 4) (by omega)
  · unfold NoInput loopRound
    rw [(loopAt_same _ _).1, (loopAt_same _ _).1]

theorem loop_fair : Fair loopRound := by
  intro k _
  refine ⟨k + 1, by omega, ?_⟩
  rw [loopRound_next]
  have hk : k % 4 < 4 := by omega
  unfold loopRound
  generalize k % 4 = r at hk
  generalize k / 4 = n
  intro h
  have h := h.filters
  match r, hk, h with
  | 0, _, h => exact absurd h (by simp [loopAt, loopState, stGroup, Group.waiting])
  | 1, _, h => exact absurd h (by simp [loopAt, loopState, stGroup, Group.waiting])
  | 2, _, h => exact absurd h (by simp [loopAt, loopState, stGroup, Group.waiting])
  | 3, _, h => exact absurd h (by simp [loopAt, loopState, stGroup, Group.waiting])

theorem loop_deployed : Deployed (fun _ => none) loopConfs (loopAt 0 0) := by
  refine ⟨⟨_, loopFilter_conf, rfl⟩, ?_, (fun y hy => by cases hy), (fun y hy => by cases hy)⟩
  intro y hy
  rw [show y = .udp loopL [loopEvent] from List.mem_singleton.1 hy]
  refine ⟨_, List.mem_singleton.2 rfl, .udp _ _ (by decide +kernel) ?_, by decide +kernel⟩
  decide +kernel

theorem loop_noFailure (k : Nat) : (loopRound k).NoFailure := by
  obtain ⟨h1, h2, -, -, h5, -, -⟩ := loopAt_same (k / 4) (k % 4)
  unfold loopRound
  refine ⟨?_, ?_⟩
  · unfold State.sources
    rw [h1, h2]
    decide
  · intro f hf q hq
    rw [(h5 f hf).2] at hq
    obtain ⟨g, hg, hq⟩ := List.mem_flatten.1 hq
    rw [(List.mem_replicate.1 hg).2] at hq
    rw [List.mem_singleton.1 hq]

theorem loop_timely (k : Nat) : (loopRound k).Timely := by
  obtain ⟨-, -, -, -, h5, -, -⟩ := loopAt_same (k / 4) (k % 4)
  unfold loopRound
  refine ⟨by decide, ?_⟩
  intro f hf m hm
  rw [(h5 f hf).1] at hm
  rw [(List.mem_replicate.1 hm).2]
  refine ⟨by decide, by decide, fun line hline => Or.inr (ex_no_ts line ?_)⟩
  have hline : line ∈ linesOf loopLine := hline
  clear hm hf m f h5
  revert line
  decide +kernel

theorem loop_nothingLost (k : Nat) : NothingLostF (loopRound k) := by
  obtain ⟨-, h2, -, -, -, h6, h7⟩ := loopAt_same (k / 4) (k % 4)
  unfold loopRound
  refine ⟨?_, h6, ?_⟩
  · rw [h2]; exact (fun y hy => by cases hy)
  · rw [h7]; exact (fun y hy => by cases hy)

theorem loop_lines : Lines [loopLine] := by
  intro line hline
  rw [List.mem_singleton.1 hline]
  refine ⟨⟨b!"cpu,h=1 f=1", by decide, rfl⟩, ?_⟩
  intro p hp
  have e : parseTags loopLine = .ok (some ⟨b!"cpu", [⟨b!"h", b!"1"⟩], b!"f=1\n"⟩) := by decide +kernel
  rw [e] at hp
  injection hp with hp; injection hp with hp
  subst hp
  rw [← isSortedTags_iff]
  decide

theorem loop_goes : ∃ sub ∈ loopConfs.filter.natsSubject, GoesTo (fun _ => none) loopConfs.filter loopLine sub := by
  obtain ⟨h1, h2, -, h4⟩ := loop_deployed.setup loopConfs_loaded
  refine ⟨b!"influx-spout", ?_, ((subjectOf_inOrder h1 insertionSorter (loop_lines loopLine List.mem_cons_self).2 b!"influx-spout" loopLine).1 ?_).1⟩
  · rw [h2]; decide
  · rw [← h4]
    decide +kernel

theorem loop_sent : Each2 Sent (loopAt 0 0).sources [[loopLine]] := by
  have e : [loopLine] = sentLines [loopEvent] := by decide +kernel
  rw [e]
  exact .cons (.udp _ _) .nil

/-- The hypotheses of C116 are met: the files are accepted, and the line goes round without end. -/
example : loopConfs.Loaded ∧ Start loopSetup loopStart ∧ Reach loopSetup loopStart (loopAt 0 0) ∧ Deployed (fun _ => none) loopConfs (loopAt 0 0) ∧ (loopAt 0 0).filters.members ≠ [] ∧
    Each2 Sent (loopAt 0 0).sources [[loopLine]] ∧ Lines [[loopLine]].flatten ∧ (∃ sub ∈ loopConfs.filter.natsSubject, GoesTo (fun _ => none) loopConfs.filter loopLine sub) ∧
    Schedule loopSetup (loopAt 0 0) loopRound ∧ Fair loopRound ∧ (∀ n, (loopRound n).NoFailure) ∧ (∀ n, (loopRound n).Timely) ∧ (∀ n, NothingLostF (loopRound n)) ∧
    ∀ k, ∃ n, k ≤ n ∧ FilterDid (loopRound n) (loopRound (n + 1)) :=
  ⟨loopConfs_loaded, loop_start, loop_busy, loop_deployed, (fun h => by cases h), loop_sent, loop_lines, loop_goes, loop_schedule, loop_fair, loop_noFailure, loop_timely, loop_nothingLost,
    C116_files_busy_forever loopConfs_loaded loop_start loop_busy loop_deployed (fun c hc => by cases hc) (fun h => by cases h) [[loopLine]] loop_sent loop_lines
      ⟨loopLine, List.mem_cons_self, loop_goes⟩ loop_schedule loop_fair loop_noFailure loop_timely loop_nothingLost⟩

/-- The hypotheses of the part that holds are met by the files of C112. -/
example : ∃ f : Nat → State exSetup, fileConfs.Loaded ∧ Start exSetup stStart ∧ Reach exSetup stStart stBusy ∧ Deployed (fun _ => none) fileConfs stBusy ∧
    (∀ r ∈ fileConfs.filter.rule, r.subject ∉ fileConfs.filter.natsSubject) ∧ fileConfs.filter.natsSubjectJunkyard ∉ fileConfs.filter.natsSubject ∧
    (∀ c ∈ fileConfs.downsamplers, ∀ sub ∈ c.natsSubject, sub ++ c.downsampleSuffix ∉ fileConfs.filter.natsSubject) ∧
    Schedule exSetup stBusy f ∧ Fair f ∧ ¬ stBusy.Finished ∧ ∃ N, ∀ n, N ≤ n → (f n).Finished := by
  obtain ⟨f, -, -, -, -, h1, h2, -, -, h5, h6, -⟩ := st_case
  have hd := fun c hc sub hs => (fileConfs_separate.downs c hc sub hs).1
  refine ⟨f, fileConfs_loaded, h1, h2, stBusy_deployed, fileConfs_separate.rules, fileConfs_separate.junk, hd, h5, h6, ?_,
    C116_rests_partial fileConfs_loaded h1 h2 stBusy_deployed fileConfs_separate.rules fileConfs_separate.junk hd h5 h6⟩
  intro hfin
  have h : ([stMsg] : List Bytes) = [] := hfin.filters.pending (fun h => by cases h) ⟨b!"influx-spout", [stMsg], []⟩ (List.mem_singleton.2 rfl)
  cases h

end Spout.Deploy
