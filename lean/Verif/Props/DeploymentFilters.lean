import Verif.Props.DeploymentCan

/-! # The filters of a deployment can finish (used by C95) -/

set_option linter.unusedSimpArgs false

namespace Spout.Deploy
open Spout Spout.Listener Spout.Pool Spout.Spec Spout.Delivery

universe u

variable {d : Setup} {s0 s s' : State d} {F : Prop} {sent : List (List Bytes)}

/-- Filters publish nothing for filters. -/
theorem Can.separate (C : Can F sent s0 s) (c : WConf) : Separate s (noWriter c []) :=
  ⟨C.acyclic.rules, C.acyclic.junk, fun y hy => ⟨(C.acyclic.downs y hy).1, (fun h => by cases h)⟩, (fun h => by cases h)⟩

/-- The lines of a message that a filter has received were sent to a listener. -/
theorem taken_sent (C : Can F sent s0 s) (f : F) {k : FComp} (hk : k ∈ s.filters.workers) {m : Bytes} (hm : m ∈ k.taken) :
    ∀ line ∈ linesOf m, line ∈ sent.flatten := by
  intro line hl
  obtain ⟨G, hb⟩ := C.fine f
  obtain ⟨x, hx, hk⟩ := Group.mem_workers.1 hk
  have h1 : m ∈ x.queue.got.flatten := by
    rw [C.inv.filters.got x hx]
    exact List.mem_flatten.2 ⟨_, List.mem_map_of_mem hk, hm⟩
  have h2 : m ∈ x.queue.arrived.flatten :=
    (C86_each_message_once (C.inv.filters.run x hx)).mem_iff.2 (List.mem_append_left _ (List.mem_append_left _ h1))
  have h3 : m ∈ [d.lsub].flatMap fun subj => onSubj subj s.out :=
    C.inv.filters.all.mem_iff.1 (List.mem_append_left _ (List.mem_flatMap.2 ⟨x, hx, h2⟩))
  rw [List.flatMap_cons, List.flatMap_nil, List.append_nil, out_to_filters C.inv (C.separate ⟨0, 0, 0, [], 0, 0, 0⟩)] at h3
  obtain ⟨y, hy, h4⟩ := List.mem_flatMap.1 h3
  obtain ⟨p, hp, rfl⟩ := List.mem_map.1 h4
  have hp := (List.mem_filter.1 hp).1
  obtain ⟨i, hi⟩ := List.getElem?_of_mem hy
  have hlen := each2_length G.sent
  have hi' : i < sent.length := by rw [← hlen]; exact (List.getElem?_eq_some_iff.1 hi).1
  have hz : (y, sent[i]) ∈ s.sources.zip sent := by
    apply List.mem_of_getElem? (i := i)
    rw [List.getElem?_zip_eq_some]
    exact ⟨hi, List.getElem?_eq_getElem hi'⟩
  have hrun := asSource_run (C.inv.listeners y hy) (each2_mem G.sent _ hz) fun l got h => hb l got (h ▸ hy)
  have hperm := listener_sent hrun
  have : line ∈ (asSource y sent[i]).sent := by
    refine hperm.mem_iff.2 (List.mem_append_left _ (List.mem_append_left _ ?_))
    refine List.mem_flatMap.2 ⟨p.data, ?_, hl⟩
    refine List.mem_map_of_mem (f := fun p : LPub => p.data) ?_
    revert hp
    cases y <;> exact fun h => h
  have e : (asSource y sent[i]).sent = sent[i] := by cases y <;> rfl
  rw [e] at this
  exact List.mem_flatten.2 ⟨_, List.getElem_mem hi', this⟩

/-- A filter worker processes a message without failures. -/
theorem process_ok (I : Inv s) {f : FComp} (hf : f ∈ s.filters.workers) (now : Int) (m : Bytes) :
    ∃ w' st' pubs, f.w.processBatch d.S f.st now (fun _ => false) m = .ok (w', st', pubs) ∧ (∀ p ∈ pubs, p.failed = false) ∧
      ∀ subj, (∀ r ∈ d.rules, r.subject ≠ subj) → d.junk ≠ subj → onSubj subj (outF pubs) = [] := by
  obtain ⟨pubss, h1, -⟩ := filterRun_eq d.S d.delta d.rules d.junk (FStats.init d.rules.length) f.past (by simp [FStats.init])
  have h0 := I.fran f hf
  rw [h0] at h1
  injection h1 with h1
  simp only [Prod.mk.injEq] at h1
  obtain ⟨hw, hst, -⟩ := h1
  obtain ⟨-, pubs, h2, h3, h4⟩ := processBatch_eq d.S d.delta d.rules d.junk f.st now (fun _ => false) m (by
    rw [hst]; simp [afterS, FStats.init])
  refine ⟨_, _, pubs, by rw [hw]; exact h2, ?_, ?_⟩
  · intro p hp
    have : p.failed ∈ pubs.map (·.failed) := List.mem_map_of_mem hp
    rw [h4] at this
    obtain ⟨_, -, h⟩ := List.mem_map.1 this
    exact h.symm
  · intro subj hr hj
    have := filter_subjects (ms := f.past ++ [⟨now, fun _ => false, m⟩]) (subj := subj)
      (filterRun_snoc f.past ⟨now, fun _ => false, m⟩ h0 (by rw [hw]; exact h2)) hr hj
    rw [onSubj_outF]
    rw [List.flatten_append] at this
    unfold Delivery.published at this ⊢
    rw [List.filter_append, List.map_append, List.append_eq_nil_iff] at this
    simpa using this.2

def busy (f : FComp) : Nat := if f.working.isSome then 1 else 0

theorem Group.At.live {W : Type u} {c : Group W} {g w : Nat} {a : W} (h : c.At g w a) : a ∈ c.live := by
  obtain ⟨x, hx, ha⟩ := h
  exact Group.mem_live.2 ⟨x, get_mem hx, get_mem ha⟩

theorem Group.At.mem {W : Type u} {c : Group W} {g w : Nat} {a : W} (h : c.At g w a) : a ∈ c.workers := Group.live_mem h.live

/-- Other components are not concerned by a step of the filters. -/
theorem Can.filters {c : Group FComp} (C : Can F sent s0 s) (h : Step d s { s with filters := c }) (R : c.Running)
    (hd : c.dropped = s.filters.dropped)
    (hp : ∀ Q : FComp → Prop, (∀ k ∈ s.filters.workers, Q k) → (∀ k ∈ s.filters.workers, ∀ m, Q k → Q { k with working := m }) → ∀ k ∈ c.workers, Q k) :
    Can F sent s0 { s with filters := c } := by
  refine C.step h ⟨rfl, hd, rfl, rfl⟩ ⟨R, C.running.downs, C.running.writers⟩ ?_
  intro f
  obtain ⟨G, -⟩ := C.fine f
  exact ⟨G.sent, ⟨G.published.1, hp (fun f => ∀ q ∈ f.pubss.flatten, q.failed = false) G.published.2 fun _ _ _ h => h⟩, G.will,
    ⟨G.timely.1, hp (fun f => ∀ m ∈ f.past, _) G.timely.2 fun _ _ _ h => h⟩⟩

/-- The filters finish. -/
theorem finish_filters (hT : F → ∃ now, InTime d now sent.flatten) (n : Nat) : ∀ {s : State d}, Can F sent s0 s →
    2 * s.filters.weight + s.filters.count busy ≤ n →
    ∃ s', Can F sent s0 s' ∧ s'.listeners = s.listeners ∧ s'.filters.Empty ∧ ∀ f ∈ s'.filters.live, f.working = none := by
  induction n with
  | zero =>
    intro s C hn
    refine ⟨s, C, rfl, Group.weight_zero (by omega), ?_⟩
    intro f hf
    have := Group.count_zero (f := busy) (c := s.filters) (by omega) f hf
    unfold busy at this
    cases hw : f.working with
    | none => rfl
    | some m => rw [hw] at this; simp at this
  | succ n ih =>
    intro s C hn
    by_cases hb : 0 < s.filters.count busy
    · obtain ⟨g, w, f, hat, hf⟩ := Group.count_pos hb
      obtain ⟨m, hm⟩ : ∃ m, f.working = some m := by
        cases hw : f.working with
        | none => unfold busy at hf; rw [hw] at hf; simp at hf
        | some m => exact ⟨m, rfl⟩
      obtain ⟨now, hnow⟩ : ∃ now, F → InTime d now sent.flatten := by
        by_cases hF : F
        · obtain ⟨now, h⟩ := hT hF; exact ⟨now, fun _ => h⟩
        · exact ⟨0, fun h => absurd h hF⟩
      obtain ⟨w', st', pubs, h1, h2, h3⟩ := process_ok C.inv hat.mem now m
      obtain ⟨c, hwork, -, -, hwt, hR, hsub, hcount⟩ := Group.work_at
        (⟨w', st', none, f.past ++ [⟨now, fun _ => false, m⟩], f.pubss ++ [pubs]⟩ : FComp) C.running.filters hat
      have hst := Step.filterDo s f m now (fun _ => false) w' st' pubs c hm h1 hwork
      have hadd : c.add (outF pubs) = c := by
        apply Group.add_none
        intro t ht
        have : t.subject ∈ c.subs.map (·.subject) := List.mem_map_of_mem ht
        rw [hsub, C.inv.filters.subs, List.mem_singleton] at this
        rw [this]
        exact h3 d.lsub C.acyclic.rules C.acyclic.junk
      have C' : Can F sent s0 (({ s with filters := c } : State d).publish (outF pubs)) := by
        have hrun : ({ s with filters := c } : State d).Running := ⟨hR, C.running.downs, C.running.writers⟩
        have hL : SameLost s ({ s with filters := c } : State d) := ⟨rfl, by unfold Group.dropped; rw [hsub], rfl, rfl⟩
        refine C.step hst (hL.publish _) (hrun.publish _) ?_
        intro hF
        obtain ⟨G, -⟩ := C.fine hF
        refine State.Fine.publish ?_ _
        refine ⟨G.sent, ⟨G.published.1, hwork.changed.all _ G.published.2 ?_⟩, G.will, ⟨G.timely.1, hwork.changed.all _ G.timely.2 ?_⟩⟩
        · intro q hq
          rw [List.flatten_append] at hq
          rcases List.mem_append.1 hq with hq | hq
          · exact G.published.2 f hat.mem q hq
          · exact h2 q (by simpa using hq)
        · intro e he
          rcases List.mem_append.1 he with he | he
          · exact G.timely.2 f hat.mem e he
          · rw [List.mem_singleton] at he
            subst he
            have T := hnow hF
            refine ⟨T.lo, T.hi, fun line hl => T.lines line ?_⟩
            exact taken_sent C hF hat.mem (m := m) (by unfold FComp.taken; rw [hm]; simp) line hl
      obtain ⟨s', C2, e1, e2, e3⟩ := ih C' (by
        show 2 * (c.add _).weight + (c.add _).count busy ≤ n
        rw [hadd, hwt]
        have := hcount busy
        have hbf : busy f = 1 := by unfold busy; rw [hm]; rfl
        have hb0 : busy ⟨w', st', none, f.past ++ [⟨now, fun _ => false, m⟩], f.pubss ++ [pubs]⟩ = 0 := rfl
        omega)
      exact ⟨s', C2, e1, e2, e3⟩
    · by_cases hw0 : s.filters.weight = 0
      · exact ih C (by omega)
      · by_cases hne : s.filters.members = []
        · obtain ⟨e1, e2⟩ := Group.nobody hne
          exact ⟨s, C, rfl, e1, fun f hf => by rw [e2] at hf; cases hf⟩
        rcases Group.front C.inv.filters C.running.filters hne hw0 with ⟨c, hst, hlt, hR, hdr, hcount⟩ | ⟨g, w, f, m, hat, hjob⟩
        · have C' := C.filters (.filterIn s c hst) hR hdr (by
            intro Q hQ _ k hk
            rw [Group.step_workers hst] at hk
            exact hQ k hk)
          obtain ⟨s', C2, e1, e2, e3⟩ := ih C' (by
            show 2 * c.weight + c.count busy ≤ n
            rw [hcount]
            omega)
          exact ⟨s', C2, e1, e2, e3⟩
        · have hidle : f.working = none := by
            have := Group.count_zero (f := busy) (c := s.filters) (by omega) f hat.live
            unfold busy at this
            cases hw : f.working with
            | none => rfl
            | some m => rw [hw] at this; simp at this
          obtain ⟨c, htake, hlt, hR, hsub, hcount⟩ := Group.take_at ({ f with working := some m } : FComp) C.inv.filters C.running.filters hat hjob
          have C' := C.filters (.filterTake s f m c hidle htake) hR (by unfold Group.dropped; rw [hsub]) (by
            intro Q hQ hk
            exact htake.changed.all Q hQ (hk f hat.mem _ (hQ f hat.mem)))
          obtain ⟨s', C2, e1, e2, e3⟩ := ih C' (by
            show 2 * c.weight + c.count busy ≤ n
            have := hcount busy
            have h1 : busy f = 0 := by unfold busy; rw [hidle]; rfl
            have h2 : busy { f with working := some m } = 1 := rfl
            omega)
          exact ⟨s', C2, e1, e2, e3⟩

end Spout.Deploy
