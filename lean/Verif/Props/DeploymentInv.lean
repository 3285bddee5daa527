import Verif.Model.Deployment
import Verif.Props.Archive

/-! # What holds in every reachable state of a deployment (used by C88, C90, C95) -/

set_option linter.unusedSimpArgs false

namespace Spout.Deploy
open Spout Spout.Listener Spout.Pool Spout.Spec Spout.Delivery

universe u

/-! ## Lists -/

theorem flatMap_set {α : Type u} {β : Type} : ∀ {l : List α} {i : Nat} {a : α} (b : α) (f : α → List β) (extra : List β), l[i]? = some a →
    (f b).Perm (f a ++ extra) → ((l.set i b).flatMap f).Perm (l.flatMap f ++ extra)
  | [], i, a, b, f, extra, h, _ => by simp at h
  | x :: l, 0, a, b, f, extra, h, he => by
    simp only [List.getElem?_cons_zero, Option.some.injEq] at h
    subst h
    simp only [List.set_cons_zero, List.flatMap_cons]
    refine (he.append_right _).trans ?_
    rw [List.append_assoc, List.append_assoc]
    exact List.perm_append_comm.append_left _
  | x :: l, i + 1, a, b, f, extra, h, he => by
    simp only [List.getElem?_cons_succ] at h
    simp only [List.set_cons_succ, List.flatMap_cons, List.append_assoc]
    exact (flatMap_set b f extra h he).append_left _

theorem flatMap_set_same {α : Type u} {β : Type} {l : List α} {i : Nat} {a : α} (b : α) (f : α → List β) (h : l[i]? = some a)
    (he : f b = f a) : (l.set i b).flatMap f = l.flatMap f := by
  induction l generalizing i with
  | nil => rfl
  | cons x l ih =>
    cases i with
    | zero =>
      simp only [List.getElem?_cons_zero, Option.some.injEq] at h
      subst h
      rw [List.set_cons_zero, List.flatMap_cons, List.flatMap_cons, he]
    | succ i =>
      rw [List.set_cons_succ, List.flatMap_cons, List.flatMap_cons, ih h]

theorem all_set {α : Type u} {P : α → Prop} {l : List α} {i : Nat} {b : α} (h : ∀ x ∈ l, P x) (hb : P b) : ∀ x ∈ l.set i b, P x := by
  intro x hx
  rcases List.mem_or_eq_of_mem_set hx with hx | rfl
  · exact h x hx
  · exact hb

theorem get_mem {α : Type u} {l : List α} {i : Nat} {a : α} (h : l[i]? = some a) : a ∈ l := List.mem_of_getElem? h

/-! ## A group of processes -/

/-- What holds of a group whose subjects' messages are `P` and whose workers have received `hist`. -/
structure GOK {W : Type u} (P : Bytes → List Bytes) (subjects : List Bytes) (hist : W → List Bytes) (c : Group W) : Prop where
  subs : c.subs.map (·.subject) = subjects
  run : ∀ x ∈ c.all, Pool.Run (start subjects.length x.workers.length) x.queue
  got : ∀ x ∈ c.all, x.queue.got = x.workers.map hist
  split : ∀ (i : Nat) (s : Sub), c.subs[i]? = some s →
    ((c.all.flatMap fun x => (x.queue.arrived[i]?).getD []) ++ s.pending ++ s.lost).Perm (P s.subject)

variable {W : Type u} {P : Bytes → List Bytes} {subjects : List Bytes} {hist : W → List Bytes} {c c' : Group W}

theorem arrived_length {subs workers : Nat} {q : Pool} (h : Pool.Run (start subs workers) q) : q.arrived.length = subs ∧ q.todo.length = subs := by
  induction h with
  | refl => exact ⟨List.length_replicate, List.length_replicate⟩
  | step _ h ih =>
    cases h <;> simp_all

/-- A running process has changed. -/
theorem Group.set_all {subs : List Sub} {g : Nat} {x : Member W} (y : Member W) (h : c.members[g]? = some x) :
    (⟨subs, c.members.set g y, c.dead⟩ : Group W).all = c.all.set g y ∧ c.all[g]? = some x := by
  have hg := (List.getElem?_eq_some_iff.1 h).1
  refine ⟨?_, ?_⟩
  · unfold Group.all
    dsimp only
    rw [List.set_append_left _ _ hg]
  · unfold Group.all
    rw [List.getElem?_append_left hg]; exact h

theorem Group.Started.all (hs : c.Started subjects) : c.all = c.members := by
  unfold Group.all; rw [hs.dead, List.append_nil]

theorem GOK.started (hs : c.Started subjects) (hh : ∀ x ∈ c.members, ∀ w ∈ x.workers, hist w = []) : GOK (fun _ => []) subjects hist c where
  subs := by rw [hs.subs, List.map_map]; exact List.map_id' _
  run := fun x hx => by rw [hs.all] at hx; rw [hs.queues x hx]; exact .refl
  got := fun x hx => by
    rw [hs.all] at hx
    rw [hs.queues x hx]
    show List.replicate x.workers.length [] = _
    symm
    rw [List.eq_replicate_iff]
    refine ⟨by rw [List.length_map], fun b hb => ?_⟩
    obtain ⟨w, hw, rfl⟩ := List.mem_map.1 hb
    exact hh x hx w hw
  split := by
    intro i s h
    rw [hs.subs, List.getElem?_map] at h
    cases hc : subjects[i]? with
    | none => rw [hc] at h; cases h
    | some t =>
      rw [hc] at h
      injection h with h
      subst h
      have : (c.all.flatMap fun x => (x.queue.arrived[i]?).getD []) = [] := by
        rw [hs.all, List.flatMap_eq_nil_iff]
        intro x hx
        rw [hs.queues x hx]
        show ((List.replicate subjects.length ([] : List Bytes))[i]?).getD [] = []
        rw [List.getElem?_replicate]
        split <;> rfl
      rw [this]
      exact .refl _

theorem getD_set_ne {α : Type} (l : List (List α)) (i j : Nat) (a : List α) (h : i ≠ j) : ((l.set i a)[j]?).getD [] = (l[j]?).getD [] := by
  rw [List.getElem?_set_ne h]

theorem subs_set {c : Group W} {i : Nat} {s t : Sub} (h : c.subs[i]? = some s) (he : t.subject = s.subject) :
    (c.subs.set i t).map (·.subject) = c.subs.map (·.subject) := by
  rw [List.map_set, he]
  apply List.ext_getElem?
  intro j
  rw [List.getElem?_set]
  split
  · rename_i hij
    subst hij
    split
    · rw [List.getElem?_map, h]; rfl
    · rename_i hl
      rw [List.getElem?_eq_none (by rw [List.length_map] at *; omega)]
  · rfl

theorem GOK.step (I : GOK P subjects hist c) (h : Group.Step c c') : GOK P subjects hist c' := by
  cases h with
  | deliver g i x s pre post m as ms hx hs hp ha ht =>
    obtain ⟨he, hx⟩ := Group.set_all (subs := c.subs.set i { s with pending := pre ++ post }) { x with queue :=
        { x.queue with arrived := x.queue.arrived.set i (as ++ [m]), todo := x.queue.todo.set i (ms ++ [m]) } } hx
    have hxm := get_mem hx
    refine ⟨(subs_set hs (by rfl)).trans I.subs, ?_, ?_, ?_⟩
    · rw [he]; exact all_set I.run ((I.run x hxm).step (.arrive _ i as ms m ha ht))
    · rw [he]; exact all_set I.got (I.got x hxm)
    · rw [he]
      intro j t hj
      dsimp only at hj ⊢
      by_cases hij : i = j
      · subst hij
        rw [List.getElem?_set_self (List.getElem?_eq_some_iff.1 hs).1] at hj
        injection hj with hj
        subst hj
        have hil := (List.getElem?_eq_some_iff.1 ha).1
        have h1 := flatMap_set (l := c.all) (i := g) { x with queue := { x.queue with arrived := x.queue.arrived.set i (as ++ [m]), todo := x.queue.todo.set i (ms ++ [m]) } }
          (fun x => (x.queue.arrived[i]?).getD []) [m] hx (by
            dsimp only
            rw [List.getElem?_set_self hil, ha]
            exact .refl _)
        have h2 := I.split i s hs
        rw [hp] at h2
        refine List.Perm.trans ?_ h2
        refine List.Perm.append_right _ ?_
        refine (h1.append_right _).trans ?_
        rw [List.append_assoc]
        exact (List.perm_middle (l₁ := pre)).symm.append_left _
      · rw [List.getElem?_set_ne hij] at hj
        have h1 := flatMap_set_same (l := c.all) (i := g) { x with queue := { x.queue with arrived := x.queue.arrived.set i (as ++ [m]), todo := x.queue.todo.set i (ms ++ [m]) } }
          (fun x => (x.queue.arrived[j]?).getD []) hx (getD_set_ne _ _ _ _ hij)
        rw [h1]
        exact I.split j t hj
  | drop i s pre post m hs hp =>
    refine ⟨(subs_set hs (by rfl)).trans I.subs, I.run, I.got, ?_⟩
    intro j t hj
    dsimp only at hj ⊢
    by_cases hij : i = j
    · subst hij
      rw [List.getElem?_set_self (List.getElem?_eq_some_iff.1 hs).1] at hj
      injection hj with hj
      subst hj
      have h2 := I.split i s hs
      rw [hp] at h2
      refine List.Perm.trans ?_ h2
      dsimp only
      rw [List.append_assoc, List.append_assoc _ (pre ++ m :: post)]
      refine List.Perm.append_left _ ?_
      rw [List.append_assoc, List.append_assoc]
      refine List.Perm.append_left _ ?_
      rw [List.cons_append, ← List.append_assoc]
      exact List.perm_append_comm
    · rw [List.getElem?_set_ne hij] at hj
      exact I.split j t hj
  | queue g x q hx hst ha hg =>
    obtain ⟨he, hx⟩ := Group.set_all (subs := c.subs) { x with queue := q } hx
    have hxm := get_mem hx
    refine ⟨I.subs, by rw [he]; exact all_set I.run ((I.run x hxm).step hst), by rw [he]; exact all_set I.got (by dsimp only; rw [hg]; exact I.got x hxm), ?_⟩
    rw [he]
    intro j t hj
    dsimp only at hj ⊢
    have h1 := flatMap_set_same (l := c.all) (i := g) { x with queue := q }
      (fun x => (x.queue.arrived[j]?).getD []) hx (by dsimp only; rw [ha])
    rw [h1]
    exact I.split j t hj

theorem GOK.take {m : Bytes} {a b : W} (I : GOK P subjects hist c) (h : c.Take m a b c') (hh : hist b = hist a ++ [m]) :
    GOK P subjects hist c' := by
  cases h with
  | mk g w x ms l hx ha hl hj hg =>
    obtain ⟨he, hx⟩ := Group.set_all (subs := c.subs) ⟨{ x.queue with jobs := ms, got := x.queue.got.set w (l ++ [m]) }, x.workers.set w b⟩ hx
    have hxm := get_mem hx
    have hlen : w < x.workers.length := (List.getElem?_eq_some_iff.1 ha).1
    refine ⟨I.subs, ?_, ?_, ?_⟩ <;> rw [he]
    · refine all_set I.run ?_
      dsimp only
      rw [List.length_set]
      exact (I.run x hxm).step (.pop _ w m ms l hl hj hg)
    · refine all_set I.got ?_
      dsimp only
      have h1 := I.got x hxm
      rw [h1, List.getElem?_map, ha] at hg
      injection hg with hg
      rw [h1, List.map_set, hh, hg]
    · intro j t hj
      dsimp only at hj ⊢
      refine (((List.Perm.of_eq (flatMap_set_same (l := c.all) (i := g) _ (fun x => (x.queue.arrived[j]?).getD []) hx (by rfl))).append_right _).append_right _).trans ?_
      exact I.split j t hj

theorem GOK.work {a b : W} (I : GOK P subjects hist c) (h : c.Work a b c') (hh : hist b = hist a) : GOK P subjects hist c' := by
  cases h with
  | mk g w x hx ha =>
    obtain ⟨he, hx⟩ := Group.set_all (subs := c.subs) { x with workers := x.workers.set w b } hx
    have hxm := get_mem hx
    refine ⟨I.subs, ?_, ?_, ?_⟩ <;> rw [he]
    · refine all_set I.run ?_
      dsimp only
      rw [List.length_set]
      exact I.run x hxm
    · refine all_set I.got ?_
      dsimp only
      have h1 := I.got x hxm
      rw [h1, List.map_set, hh]
      apply List.ext_getElem?
      intro j
      rw [List.getElem?_set]
      split
      · rename_i hij
        subst hij
        rw [List.getElem?_map, ha, List.length_map, if_pos (List.getElem?_eq_some_iff.1 ha).1]; rfl
      · rfl
    · intro j t hj
      dsimp only at hj ⊢
      refine (((List.Perm.of_eq (flatMap_set_same (l := c.all) (i := g) _ (fun x => (x.queue.arrived[j]?).getD []) hx (by rfl))).append_right _).append_right _).trans ?_
      exact I.split j t hj

theorem GOK.add {P' : Bytes → List Bytes} (I : GOK P subjects hist c) (ms : List (Bytes × Bytes))
    (h : ∀ subj, (P' subj).Perm (P subj ++ onSubj subj ms)) : GOK P' subjects hist (c.add ms) where
  subs := by
    show (c.subs.map _).map _ = _
    rw [List.map_map]; exact I.subs
  run := I.run
  got := I.got
  split := by
    intro i s hs
    have hs : (c.subs.map fun s => s.add ms)[i]? = some s := hs
    rw [List.getElem?_map] at hs
    cases hc : c.subs[i]? with
    | none => rw [hc] at hs; cases hs
    | some t =>
      rw [hc] at hs
      injection hs with hs
      subst hs
      refine List.Perm.trans ?_ (h t.subject).symm
      refine List.Perm.trans ?_ ((I.split i t hc).append_right _)
      show (_ ++ (t.pending ++ onSubj t.subject ms) ++ t.lost).Perm _
      show ((c.all.flatMap fun x => (x.queue.arrived[i]?).getD []) ++ (t.pending ++ onSubj t.subject ms) ++ t.lost).Perm _
      rw [← List.append_assoc, List.append_assoc, List.append_assoc (_ ++ _) t.lost]
      exact List.perm_append_comm.append_left _

theorem GOK.mono {P' : Bytes → List Bytes} (I : GOK P subjects hist c) (h : ∀ subj, (P' subj).Perm (P subj)) : GOK P' subjects hist c :=
  ⟨I.subs, I.run, I.got, fun i s hs => (I.split i s hs).trans (h s.subject).symm⟩

/-- What NATS has not passed on, or has dropped. -/
def Group.away (c : Group W) : List Bytes := c.subs.flatMap fun s => s.pending ++ s.lost

theorem getD_flatten : ∀ (ls : List (List Bytes)) (n : Nat), ls.length = n → ls.flatten = (List.range n).flatMap fun i => (ls[i]?).getD []
  | [], _, rfl => rfl
  | l :: ls, n, h => by
    subst h
    rw [List.length_cons, List.range_succ_eq_map, List.flatMap_cons, List.flatMap_map, List.flatten_cons, getD_flatten ls _ rfl]
    simp

/-- All subscriptions together. -/
theorem GOK.all (I : GOK P subjects hist c) :
    ((c.all.flatMap fun x => x.queue.arrived.flatten) ++ c.away).Perm (subjects.flatMap P) := by
  have hlen : c.subs.length = subjects.length := by rw [← I.subs, List.length_map]
  have e1 : (c.all.flatMap fun x => x.queue.arrived.flatten) =
      c.all.flatMap fun x => (List.range subjects.length).flatMap fun i => (x.queue.arrived[i]?).getD [] := by
    apply flatMap_congr'
    intro x hx
    exact getD_flatten _ _ (arrived_length (I.run x hx)).1
  have e2 : c.away = (List.range subjects.length).flatMap fun i => ((c.subs.map fun s => s.pending ++ s.lost)[i]?).getD [] := by
    rw [← getD_flatten _ _ (by rw [List.length_map, hlen])]; rfl
  have e3 : subjects.flatMap P = (List.range subjects.length).flatMap fun i => ((subjects.map P)[i]?).getD [] := by
    rw [← getD_flatten _ _ (by rw [List.length_map])]; rfl
  rw [e1, e2, e3]
  refine List.Perm.trans (List.Perm.append_right _ (flatMap_swap _ _ _)) ?_
  refine List.Perm.trans (flatMap_append_perm _ _ _).symm ?_
  apply perm_flatMap
  intro i hi
  have hi : i < c.subs.length := by rw [hlen]; exact List.mem_range.1 hi
  have hs := List.getElem?_eq_getElem hi
  have h1 := I.split i _ hs
  have h2 : subjects[i]? = some (c.subs[i]).subject := by rw [← I.subs, List.getElem?_map, hs]; rfl
  rw [List.getElem?_map, List.getElem?_map, hs, h2]
  rw [List.append_assoc] at h1
  exact h1

/-! ## Workers of a group -/

theorem Group.mem_workers {w : W} : w ∈ c.workers ↔ ∃ x ∈ c.all, w ∈ x.workers := List.mem_flatMap

theorem members_set {l : List (Member W)} {g : Nat} {x y : Member W} (h : l[g]? = some x) (hw : y.workers = x.workers) :
    (l.set g y).flatMap (·.workers) = l.flatMap (·.workers) := by
  induction l generalizing g with
  | nil => rfl
  | cons z l ih =>
    cases g with
    | zero =>
      simp only [List.getElem?_cons_zero, Option.some.injEq] at h
      subst h
      rw [List.set_cons_zero, List.flatMap_cons, List.flatMap_cons, hw]
    | succ g => rw [List.set_cons_succ, List.flatMap_cons, List.flatMap_cons, ih h]

theorem Group.step_workers (h : Group.Step c c') : c'.workers = c.workers := by
  cases h with
  | deliver g i x s pre post m as ms hx hs hp ha ht =>
    unfold Group.workers
    obtain ⟨he, hx⟩ := Group.set_all (subs := c.subs.set i { s with pending := pre ++ post }) { x with queue :=
        { x.queue with arrived := x.queue.arrived.set i (as ++ [m]), todo := x.queue.todo.set i (ms ++ [m]) } } hx
    rw [he]
    exact members_set hx rfl
  | drop => rfl
  | queue g x q hx hst ha hg =>
    unfold Group.workers
    obtain ⟨he, hx⟩ := Group.set_all (subs := c.subs) { x with queue := q } hx
    rw [he]
    exact members_set hx rfl

theorem flatMap_workers_set {β : Type} {l : List (Member W)} {g w : Nat} {x : Member W} {q : Pool} {a b : W} (f : W → List β) (extra : List β)
    (hx : l[g]? = some x) (ha : x.workers[w]? = some a) (hf : (f b).Perm (f a ++ extra)) :
    (((l.set g ⟨q, x.workers.set w b⟩).flatMap (·.workers)).flatMap f).Perm ((l.flatMap (·.workers)).flatMap f ++ extra) := by
  rw [List.flatMap_assoc, List.flatMap_assoc]
  exact flatMap_set (⟨q, x.workers.set w b⟩ : Member W) (fun x => x.workers.flatMap f) extra hx (flatMap_set b f extra ha hf)

theorem mem_workers_set {l : List (Member W)} {g w : Nat} {x : Member W} {q : Pool} {b : W} {Q : W → Prop} (hx : l[g]? = some x)
    (h : ∀ k ∈ l.flatMap (·.workers), Q k) (hb : Q b) : ∀ k ∈ (l.set g ⟨q, x.workers.set w b⟩).flatMap (·.workers), Q k := by
  intro k hk
  obtain ⟨y, hy, hk⟩ := List.mem_flatMap.1 hk
  rcases List.mem_or_eq_of_mem_set hy with hy | rfl
  · exact h k (List.mem_flatMap.2 ⟨y, hy, hk⟩)
  · rcases List.mem_or_eq_of_mem_set hk with hk | rfl
    · exact h k (List.mem_flatMap.2 ⟨x, get_mem hx, hk⟩)
    · exact hb

/-- A worker has changed from `a` to `b`. -/
structure Changed (c c' : Group W) (a b : W) : Prop where
  mem : a ∈ c.workers
  all : ∀ Q : W → Prop, (∀ k ∈ c.workers, Q k) → Q b → ∀ k ∈ c'.workers, Q k
  flatMap : ∀ (f : W → List (Bytes × Bytes)) (extra : List (Bytes × Bytes)), (f b).Perm (f a ++ extra) →
    (c'.workers.flatMap f).Perm (c.workers.flatMap f ++ extra)
  subs : c'.subs = c.subs
  single : ∀ q, c.all = [⟨q, [a]⟩] → ∃ q', c'.all = [⟨q', [b]⟩]
  dead : c'.dead = c.dead
  length : c'.members.length = c.members.length

theorem single_set {l : List (Member W)} {g w : Nat} {x : Member W} {q q' : Pool} {a b : W} (hx : l[g]? = some x)
    (ha : x.workers[w]? = some a) (hl : l = [⟨q, [a]⟩]) : l.set g ⟨q', x.workers.set w b⟩ = [⟨q', [b]⟩] := by
  subst hl
  cases g with
  | succ g => simp at hx
  | zero =>
    simp only [List.getElem?_cons_zero, Option.some.injEq] at hx
    subst hx
    cases w with
    | succ w => simp at ha
    | zero => rfl

theorem Group.Take.changed {m : Bytes} {a b : W} (h : c.Take m a b c') : Changed c c' a b := by
  cases h with
  | mk g w x ms l hx ha hl hj hg =>
    obtain ⟨he, hx⟩ := Group.set_all (subs := c.subs) ⟨{ x.queue with jobs := ms, got := x.queue.got.set w (l ++ [m]) }, x.workers.set w b⟩ hx
    refine ⟨List.mem_flatMap.2 ⟨x, get_mem hx, get_mem ha⟩, ?_, ?_, rfl, ?_, rfl, List.length_set⟩
    · unfold Group.workers; rw [he]; exact fun Q hQ hb => mem_workers_set hx hQ hb
    · unfold Group.workers; rw [he]; exact fun f extra hf => flatMap_workers_set f extra hx ha hf
    · rw [he]; exact fun q hq => ⟨_, single_set hx ha hq⟩

theorem Group.Work.changed {a b : W} (h : c.Work a b c') : Changed c c' a b := by
  cases h with
  | mk g w x hx ha =>
    obtain ⟨he, hx⟩ := Group.set_all (subs := c.subs) { x with workers := x.workers.set w b } hx
    refine ⟨List.mem_flatMap.2 ⟨x, get_mem hx, get_mem ha⟩, ?_, ?_, rfl, ?_, rfl, List.length_set⟩
    · unfold Group.workers; rw [he]; exact fun Q hQ hb => mem_workers_set hx hQ hb
    · unfold Group.workers; rw [he]; exact fun f extra hf => flatMap_workers_set f extra hx ha hf
    · rw [he]; exact fun q hq => ⟨_, single_set hx ha hq⟩

/-! ## Runs of the components -/

theorem sendBatch_pubs {l l' : Listener} {fail : Nat → Bool} {now : Int} (h : l.sendBatch fail now = .ok l') :
    l'.conf = l.conf ∧ ∃ ps, l'.pubs = l.pubs ++ ps := by
  rcases sendBatch_spec l fail now with ⟨-, h1⟩ | ⟨-, ps, h1, -⟩
  · rw [h] at h1; injection h1 with h1; subst h1; exact ⟨rfl, [], (List.append_nil _).symm⟩
  · rw [h] at h1; injection h1 with h1; subst h1; exact ⟨rfl, ps, rfl⟩

theorem maybeSend_pubs {l l' : Listener} {t : Int} {fail : Nat → Bool} {now : Int} (h : l.maybeSendBatch t fail now = .ok l') :
    l'.conf = l.conf ∧ ∃ ps, l'.pubs = l.pubs ++ ps := by
  unfold Listener.maybeSendBatch at h
  split at h
  · exact sendBatch_pubs h
  · injection h with h; subst h; exact ⟨rfl, [], (List.append_nil _).symm⟩

theorem udpStep_pubs {l l' : Listener} {e : UDPEvent} (h : l.udpStep e = .ok l') : l'.conf = l.conf ∧ ∃ ps, l'.pubs = l.pubs ++ ps := by
  unfold Listener.udpStep at h
  cases hb : l.batch.readOnceFrom e.data e.tRead with
  | panic => rw [hb] at h; cases h
  | ok r =>
    obtain ⟨b, n⟩ := r
    rw [hb, Go.ok_bind] at h
    dsimp only at h
    generalize hl1 : (if e.readErr = true then ({ { l with batch := b } with stats := { l.stats with readErrors := l.stats.readErrors + 1 } } : Listener)
      else { l with batch := b }) = l1 at h
    have e1 : l1.pubs = l.pubs := by subst hl1; split <;> rfl
    have e2 : l1.conf = l.conf := by subst hl1; split <;> rfl
    split at h
    · cases hn : l1.batch.ensureNewline with
      | panic => rw [hn] at h; cases h
      | ok b2 =>
        rw [hn] at h
        obtain ⟨hc, ps, hp⟩ := maybeSend_pubs h
        exact ⟨hc.trans e2, ps, hp.trans (by rw [← e1])⟩
    · rw [Go.ok_bind] at h
      obtain ⟨hc, ps, hp⟩ := maybeSend_pubs h
      exact ⟨hc.trans e2, ps, by rw [hp, e1]⟩

theorem httpStep_pubs {l l' : Listener} {e : HTTPEvent} (h : l.httpStep e = .ok l') : l'.conf = l.conf ∧ ∃ ps, l'.pubs = l.pubs ++ ps := by
  cases e with
  | body r now =>
    simp only [Listener.httpStep] at h
    cases hb : l.batch.readFrom r now with
    | panic => rw [hb] at h; cases h
    | ok x => rw [hb] at h; obtain ⟨b, n⟩ := x; injection h with h; subst h; exact ⟨rfl, [], (List.append_nil _).symm⟩
  | line data now =>
    simp only [Listener.httpStep] at h
    cases hb : l.batch.append data now with
    | panic => rw [hb] at h; cases h
    | ok b => rw [hb] at h; injection h with h; subst h; exact ⟨rfl, [], (List.append_nil _).symm⟩
  | maybeSend t fail t2 => exact maybeSend_pubs (l := { l with stats := { l.stats with received := l.stats.received + 1 } }) h
  | readErr => injection h with h; subst h; exact ⟨rfl, [], (List.append_nil _).symm⟩
  | oldBatch t fail t2 =>
    simp only [Listener.httpStep] at h
    split at h
    · exact sendBatch_pubs h
    · injection h with h; subst h; exact ⟨rfl, [], (List.append_nil _).symm⟩

theorem dstep_pubs {fo : FloatOps} {S : Sorter} {w w' : DWorker fo} {e : DEvent} (h : w.step S e = .ok w') : ∃ ps, w'.pubs = w.pubs ++ ps := by
  unfold DWorker.step at h
  cases hr : w.receive e.input with
  | panic => rw [hr] at h; cases h
  | ok w1 =>
    rw [hr, Go.ok_bind] at h
    have e1 : w1.pubs = w.pubs := by
      unfold DWorker.receive at hr
      split at hr
      · injection hr with hr; subst hr; rfl
      · rename_i lines clk _
        cases hu : w.a.update clk lines with
        | panic => rw [hu] at hr; cases hr
        | ok x => rw [hu] at hr; obtain ⟨a, errs⟩ := x; injection hr with hr; subst hr; rfl
    unfold DWorker.emit at h
    rcases hb : w1.a.bytes S e.ord e.now with ⟨a, buf⟩
    rw [hb] at h
    dsimp only at h
    split at h
    · cases hs : splitAll buf maxNATSMsgSize with
      | panic => rw [hs] at h; cases h
      | ok chunks => rw [hs] at h; injection h with h; subst h; exact ⟨_, by rw [← e1]⟩
    · injection h with h; subst h; exact ⟨[], by rw [List.append_nil]; exact e1⟩

theorem udpRun_snoc (es : List UDPEvent) (e : UDPEvent) : ∀ {l l' l'' : Listener}, udpRun l es = .ok l' → l'.udpStep e = .ok l'' →
    udpRun l (es ++ [e]) = .ok l'' := by
  induction es with
  | nil =>
    intro l l' l'' h h'
    simp only [udpRun, Go.ok.injEq] at h
    subst h
    simp only [List.nil_append, udpRun]
    rw [h']; rfl
  | cons x es ih =>
    intro l l' l'' h h'
    rw [udpRun] at h
    rw [List.cons_append, udpRun]
    cases hx : l.udpStep x with
    | panic => rw [hx] at h; cases h
    | ok l1 => rw [hx, Go.ok_bind] at h; rw [Go.ok_bind]; exact ih h h'

theorem httpRun_snoc (es : List HTTPEvent) (e : HTTPEvent) : ∀ {l l' l'' : Listener}, httpRun l es = .ok l' → l'.httpStep e = .ok l'' →
    httpRun l (es ++ [e]) = .ok l'' := by
  induction es with
  | nil =>
    intro l l' l'' h h'
    simp only [httpRun, Go.ok.injEq] at h
    subst h
    simp only [List.nil_append, httpRun]
    rw [h']; rfl
  | cons x es ih =>
    intro l l' l'' h h'
    rw [httpRun] at h
    rw [List.cons_append, httpRun]
    cases hx : l.httpStep x with
    | panic => rw [hx] at h; cases h
    | ok l1 => rw [hx, Go.ok_bind] at h; rw [Go.ok_bind]; exact ih h h'

theorem filterRun_snoc {S : Sorter} (ms : List FMsg) (m : FMsg) : ∀ {w w' w'' : FWorker} {st st' st'' : FStats} {pubss : List (List Pub)} {pubs : List Pub},
    filterRun S w st ms = .ok (w', st', pubss) → w'.processBatch S st' m.now m.fail m.data = .ok (w'', st'', pubs) →
    filterRun S w st (ms ++ [m]) = .ok (w'', st'', pubss ++ [pubs]) := by
  induction ms with
  | nil =>
    intro w w' w'' st st' st'' pubss pubs h h'
    simp only [filterRun, Go.ok.injEq, Prod.mk.injEq] at h
    obtain ⟨rfl, rfl, rfl⟩ := h
    simp only [List.nil_append, filterRun]
    rw [h']; rfl
  | cons x ms ih =>
    intro w w' w'' st st' st'' pubss pubs h h'
    rw [filterRun] at h
    rw [List.cons_append, filterRun]
    cases hx : w.processBatch S st x.now x.fail x.data with
    | panic => rw [hx] at h; cases h
    | ok r =>
      obtain ⟨w1, st1, p1⟩ := r
      rw [hx, Go.ok_bind] at h
      rw [Go.ok_bind]
      dsimp only at h ⊢
      cases hy : filterRun S w1 st1 ms with
      | panic => rw [hy] at h; cases h
      | ok r2 =>
        obtain ⟨w2, st2, p2⟩ := r2
        rw [hy] at h
        injection h with h
        simp only [Prod.mk.injEq] at h
        obtain ⟨rfl, rfl, rfl⟩ := h
        rw [ih hy h']; rfl

theorem drun_snoc {fo : FloatOps} {S : Sorter} (es : List DEvent) (e : DEvent) : ∀ {w w' w'' : DWorker fo}, DWorker.run S w es = .ok w' →
    w'.step S e = .ok w'' → DWorker.run S w (es ++ [e]) = .ok w'' := by
  induction es with
  | nil =>
    intro w w' w'' h h'
    simp only [DWorker.run, Go.ok.injEq] at h
    subst h
    simp only [List.nil_append, DWorker.run]
    rw [h']; rfl
  | cons x es ih =>
    intro w w' w'' h h'
    rw [DWorker.run] at h
    rw [List.cons_append, DWorker.run]
    cases hx : w.step S x with
    | panic => rw [hx] at h; cases h
    | ok w1 => rw [hx, Go.ok_bind] at h; rw [Go.ok_bind]; exact ih h h'

/-! ## The invariant -/

/-- What a filter worker has received. -/
def FComp.taken (f : FComp) : List Bytes := f.past.map (·.data) ++ f.working.toList

/-- A listener after some history. -/
inductive LOK : LComp → Prop
  | udp (c : LConf) (t0 : Int) (l : Listener) (got : List UDPEvent) (hr : udpRun (Listener.new c t0) got = .ok l)
      (hl : ∀ e ∈ got, e.data.length ≤ 65507) (hc : l.conf = c) : LOK (.udp l got)
  | http (c : LConf) (t0 : Int) (l : Listener) (reqs : List HReq) (wakeups order : List HTTPEvent)
      (hr : httpRun (Listener.new c t0) order = .ok l) (hq : ∀ r ∈ reqs, requestSteps r.req = .ok (r.done ++ r.todo))
      (hw : ∀ e ∈ wakeups, ∃ a b c, e = .oldBatch a b c) (ho : order.Perm (wakeups ++ reqs.flatMap (·.done))) :
      LOK (.http l reqs wakeups order)

structure Inv {d : Setup} (s : State d) : Prop where
  listeners : ∀ x ∈ s.sources, LOK x
  filters : GOK (fun subj => onSubj subj s.out) [d.lsub] FComp.taken s.filters
  fran : ∀ f ∈ s.filters.workers,
    filterRun d.S (FWorker.new d.delta d.rules d.junk) (FStats.init d.rules.length) f.past = .ok (f.w, f.st, f.pubss)
  downs : ∀ x ∈ s.downs, GOK (fun subj => onSubj subj s.out) [x.subject] (fun k => messagesIn k.evs) x.inp ∧
    ∃ q k, x.inp.all = [⟨q, [k]⟩] ∧ DWorker.run d.S (DWorker.new d.fo x.period x.now0) k.evs = .ok k.w
  writers : ∀ x ∈ s.writers, GOK (fun subj => onSubj subj s.out) x.subjects (fun k => received k.hist) x.inp ∧
    ∀ k ∈ x.inp.workers, WRun x.conf k

variable {d : Setup} {s s' : State d}

theorem onSubj_append (subj : Bytes) (a b : List (Bytes × Bytes)) : onSubj subj (a ++ b) = onSubj subj a ++ onSubj subj b := by
  unfold onSubj; rw [List.filter_append, List.map_append]

theorem onSubj_perm (subj : Bytes) {a b : List (Bytes × Bytes)} (h : a.Perm b) : (onSubj subj a).Perm (onSubj subj b) :=
  (h.filter _).map _

theorem onSubj_add (subj : Bytes) {a b ms : List (Bytes × Bytes)} (h : a.Perm (b ++ ms)) : (onSubj subj a).Perm (onSubj subj b ++ onSubj subj ms) := by
  rw [← onSubj_append]; exact onSubj_perm subj h

theorem outOn_append (subj : Bytes) (a b : List LPub) : outOn subj (a ++ b) = outOn subj a ++ outOn subj b := by
  unfold outOn; rw [List.filter_append, List.map_append]

theorem outF_append (a b : List Pub) : outF (a ++ b) = outF a ++ outF b := by
  unfold outF; rw [List.filter_append, List.map_append]

/-- The parts of the invariant that depend on what was published. -/
theorem Inv.publish {s : State d} {ms : List (Bytes × Bytes)} {P : Bytes → List Bytes} (h : ∀ subj, (onSubj subj s.out).Perm (P subj ++ onSubj subj ms))
    (hl : ∀ x ∈ s.sources, LOK x) (hf : GOK P [d.lsub] FComp.taken s.filters)
    (hr : ∀ f ∈ s.filters.workers, filterRun d.S (FWorker.new d.delta d.rules d.junk) (FStats.init d.rules.length) f.past = .ok (f.w, f.st, f.pubss))
    (hd : ∀ x ∈ s.downs, GOK P [x.subject] (fun k => messagesIn k.evs) x.inp ∧
      ∃ q k, x.inp.all = [⟨q, [k]⟩] ∧ DWorker.run d.S (DWorker.new d.fo x.period x.now0) k.evs = .ok k.w)
    (hw : ∀ x ∈ s.writers, GOK P x.subjects (fun k => received k.hist) x.inp ∧ ∀ k ∈ x.inp.workers, WRun x.conf k) :
    Inv (s.publish ms) := by
  have ho : (s.publish ms).out = s.out := by
    unfold State.out State.publish
    dsimp only
    congr 1
    rw [List.flatMap_map]
    rfl
  refine ⟨hl, ?_, hr, ?_, ?_⟩
  · rw [ho]; exact hf.add ms h
  · rw [ho]
    intro x hx
    obtain ⟨y, hy, rfl⟩ := List.mem_map.1 hx
    obtain ⟨h1, h2⟩ := hd y hy
    exact ⟨h1.add ms h, h2⟩
  · rw [ho]
    intro x hx
    obtain ⟨y, hy, rfl⟩ := List.mem_map.1 hx
    obtain ⟨h1, h2⟩ := hw y hy
    exact ⟨h1.add ms h, h2⟩

theorem Start.sources (h : Start d s) : s.sources = s.listeners := by
  unfold State.sources; rw [h.crashed, List.append_nil]

theorem inv_start (h : Start d s) : Inv s := by
  have ho : s.out = [] := by
    unfold State.out
    have e1 : (s.sources.flatMap fun x => outOn d.lsub x.l.pubs) = [] := by
      rw [List.flatMap_eq_nil_iff]
      intro x hx
      rw [h.sources] at hx
      obtain ⟨c, t0, rfl | rfl⟩ := h.listeners x hx <;> rfl
    have e2 : (s.filters.workers.flatMap fun f => outF f.pubss.flatten) = [] := by
      rw [List.flatMap_eq_nil_iff]
      intro f hf
      obtain ⟨x, hx, hf⟩ := Group.mem_workers.1 hf
      rw [h.filters.1.all] at hx
      rw [h.filters.2 x hx f hf]; rfl
    have e3 : (s.downs.flatMap fun x => x.inp.workers.flatMap fun k => outOn x.out k.w.pubs) = [] := by
      rw [List.flatMap_eq_nil_iff]
      intro x hx
      obtain ⟨h1, q, hq⟩ := h.downs x hx
      unfold Group.workers
      rw [h1.all, hq]; rfl
    rw [e1, e2, e3]; rfl
  refine ⟨?_, ?_, ?_, ?_, ?_⟩
  · intro x hx
    rw [h.sources] at hx
    obtain ⟨c, t0, rfl | rfl⟩ := h.listeners x hx
    · exact .udp c t0 _ [] rfl (fun e he => by cases he) rfl
    · exact .http c t0 _ [] [] [] rfl (fun e he => by cases he) (fun e he => by cases he) (.refl _)
  · rw [ho]
    refine .started h.filters.1 ?_
    intro x hx f hf
    rw [h.filters.2 x hx f hf]; rfl
  · intro f hf
    obtain ⟨x, hx, hf⟩ := Group.mem_workers.1 hf
    rw [h.filters.1.all] at hx
    rw [h.filters.2 x hx f hf]; rfl
  · rw [ho]
    intro x hx
    obtain ⟨h1, q, hq⟩ := h.downs x hx
    refine ⟨.started h1 ?_, q, _, h1.all.trans hq, rfl⟩
    intro y hy k hk
    rw [hq, List.mem_singleton] at hy
    subst hy
    rw [List.mem_singleton] at hk
    subst hk
    rfl
  · rw [ho]
    intro x hx
    obtain ⟨h1, h2⟩ := h.writers x hx
    refine ⟨.started h1 ?_, ?_⟩
    · intro y hy k hk
      obtain ⟨pages, now, rfl⟩ := h2 y hy k hk
      rfl
    · intro k hk
      obtain ⟨y, hy, hk⟩ := Group.mem_workers.1 hk
      rw [h1.all] at hy
      obtain ⟨pages, now, rfl⟩ := h2 y hy k hk
      exact ⟨pages, now, .refl _⟩

/-- A running listener has changed. -/
theorem sources_set {i : Nat} {x : LComp} (y : LComp) (h : s.listeners[i]? = some x) :
    ({ s with listeners := s.listeners.set i y } : State d).sources = s.sources.set i y ∧ s.sources[i]? = some x := by
  have hi := (List.getElem?_eq_some_iff.1 h).1
  refine ⟨?_, ?_⟩
  · unfold State.sources
    dsimp only
    rw [List.set_append_left _ _ hi]
  · unfold State.sources
    rw [List.getElem?_append_left hi]; exact h

/-- A listener has published more. -/
theorem out_listener {i : Nat} {x y : LComp} {ps : List LPub} (h : s.listeners[i]? = some x) (hp : y.l.pubs = x.l.pubs ++ ps) :
    ({ s with listeners := s.listeners.set i y } : State d).out.Perm (s.out ++ outOn d.lsub ps) := by
  obtain ⟨he, h⟩ := sources_set y h
  unfold State.out
  rw [he]
  dsimp only
  have := flatMap_set y (fun x => outOn d.lsub x.l.pubs) (outOn d.lsub ps) h (by rw [hp, outOn_append])
  have := (this.append_right (s.filters.workers.flatMap fun f => outF f.pubss.flatten)).append_right
    (s.downs.flatMap fun x => x.inp.workers.flatMap fun k => outOn x.out k.w.pubs)
  refine this.trans ?_
  simp only [List.append_assoc]
  refine List.Perm.append_left _ ?_
  refine List.perm_append_comm.trans ?_
  rw [List.append_assoc]

theorem inv_listener {i : Nat} {x y : LComp} {ps : List LPub} (I : Inv s) (h : s.listeners[i]? = some x) (hp : y.l.pubs = x.l.pubs ++ ps) (hy : LOK y) :
    Inv (({ s with listeners := s.listeners.set i y } : State d).publish (outOn d.lsub (y.l.pubs.drop x.l.pubs.length))) := by
  rw [hp, List.drop_left]
  exact Inv.publish (P := fun subj => onSubj subj s.out) (fun subj => onSubj_add subj (out_listener h hp))
    (by rw [(sources_set y h).1]; exact all_set I.listeners hy) I.filters I.fran I.downs I.writers

theorem out_filters {f f' : FComp} {c : Group FComp} (hc : Changed s.filters c f f') (pubs : List Pub)
    (hp : f'.pubss.flatten = f.pubss.flatten ++ pubs) : ({ s with filters := c } : State d).out.Perm (s.out ++ outF pubs) := by
  unfold State.out
  dsimp only
  have := hc.flatMap (fun f => outF f.pubss.flatten) (outF pubs) (by rw [hp, outF_append])
  have := (this.append_left (s.sources.flatMap fun x => outOn d.lsub x.l.pubs)).append_right
    (s.downs.flatMap fun x => x.inp.workers.flatMap fun k => outOn x.out k.w.pubs)
  refine this.trans ?_
  simp only [List.append_assoc]
  exact (List.perm_append_comm.append_left _).append_left _

theorem out_downs {i : Nat} {x : DComp d.fo} {k k' : DState d.fo} {c : Group (DState d.fo)} {ps : List LPub} (hx : s.downs[i]? = some x)
    (hc : Changed x.inp c k k') (hp : k'.w.pubs = k.w.pubs ++ ps) :
    ({ s with downs := s.downs.set i { x with inp := c } } : State d).out.Perm (s.out ++ outOn x.out ps) := by
  unfold State.out
  dsimp only
  have := flatMap_set (l := s.downs) { x with inp := c } (fun x => x.inp.workers.flatMap fun k => outOn x.out k.w.pubs) (outOn x.out ps) hx
    (hc.flatMap (fun k => outOn x.out k.w.pubs) (outOn x.out ps) (by rw [hp, outOn_append]))
  have := this.append_left ((s.sources.flatMap fun x => outOn d.lsub x.l.pubs) ++ (s.filters.workers.flatMap fun f => outF f.pubss.flatten))
  refine this.trans ?_
  simp only [List.append_assoc]
  exact .refl _

theorem single_step {W : Type u} {c c' : Group W} {q : Pool} {k : W} (h : Group.Step c c') (hm : c.all = [⟨q, [k]⟩]) :
    ∃ q', c'.all = [⟨q', [k]⟩] := by
  cases h with
  | deliver g i x s pre post m as ms hx hs hp ha ht =>
    obtain ⟨he, hx⟩ := Group.set_all (subs := c.subs.set i { s with pending := pre ++ post }) { x with queue :=
        { x.queue with arrived := x.queue.arrived.set i (as ++ [m]), todo := x.queue.todo.set i (ms ++ [m]) } } hx
    rw [he]
    rw [hm] at hx ⊢
    cases g with
    | succ g => simp at hx
    | zero =>
      simp only [List.getElem?_cons_zero, Option.some.injEq] at hx
      subst hx
      exact ⟨_, rfl⟩
  | drop => exact ⟨q, hm⟩
  | queue g x q' hx hst ha hg =>
    obtain ⟨he, hx⟩ := Group.set_all (subs := c.subs) { x with queue := q' } hx
    rw [he]
    rw [hm] at hx ⊢
    cases g with
    | succ g => simp at hx
    | zero =>
      simp only [List.getElem?_cons_zero, Option.some.injEq] at hx
      subst hx
      exact ⟨_, rfl⟩

theorem inv_step (I : Inv s) (h : Step d s s') : Inv s' := by
  cases h with
  | udp i l l' got e h hlen hr =>
    obtain ⟨hcf, ps, hp⟩ := udpStep_pubs hr
    refine inv_listener (x := .udp l got) (y := .udp l' (got ++ [e])) I h hp ?_
    cases I.listeners _ (get_mem (sources_set (.udp l got) h).2) with
    | udp c t0 _ _ h1 h2 h3 =>
      refine .udp c t0 _ _ (udpRun_snoc got e h1 hr) ?_ (hcf.trans h3)
      intro x hx
      rcases List.mem_append.1 hx with hx | hx
      · exact h2 x hx
      · rw [List.mem_singleton.1 hx]; exact hlen
  | request i l reqs wakeups order steps q h hq =>
    obtain ⟨he, h⟩ := sources_set (.http l (reqs ++ [⟨q, [], steps⟩]) wakeups order) h
    have ho : ({ s with listeners := s.listeners.set i (.http l (reqs ++ [⟨q, [], steps⟩]) wakeups order) } : State d).out = s.out := by
      unfold State.out
      rw [he]
      dsimp only
      rw [flatMap_set_same (.http l (reqs ++ [(⟨q, [], steps⟩ : HReq)]) wakeups order) (fun x => outOn d.lsub x.l.pubs) h rfl]
    refine ⟨?_, by rw [ho]; exact I.filters, I.fran, by rw [ho]; exact I.downs, by rw [ho]; exact I.writers⟩
    rw [he]
    refine all_set I.listeners ?_
    cases I.listeners _ (get_mem h) with
    | http c t0 _ _ _ _ h1 h2 h3 h4 =>
      refine .http c t0 _ _ _ _ h1 ?_ h3 (by simpa using h4)
      intro r hr
      rcases List.mem_append.1 hr with hr | hr
      · exact h2 r hr
      · rw [List.mem_singleton.1 hr]; exact hq
  | http i j l l' reqs wakeups order todo r e h hj ht hr =>
    obtain ⟨-, ps, hp⟩ := httpStep_pubs hr
    refine inv_listener (x := .http l reqs wakeups order) (y := .http l' (reqs.set j ⟨r.req, r.done ++ [e], todo⟩) wakeups (order ++ [e])) I h hp ?_
    cases I.listeners _ (get_mem (sources_set (.http l reqs wakeups order) h).2) with
    | http c t0 _ _ _ _ h1 h2 h3 h4 =>
      refine .http c t0 _ _ _ _ (httpRun_snoc order e h1 hr) (all_set h2 ?_) h3 ?_
      · have := h2 r (get_mem hj)
        rw [ht] at this
        rw [this, List.append_assoc]; rfl
      · have h5 := flatMap_set (l := reqs) (i := j) ⟨r.req, r.done ++ [e], todo⟩ (·.done) [e] hj (.refl _)
        refine (h4.append_right [e]).trans ?_
        rw [List.append_assoc]
        exact h5.symm.append_left _
  | wake i l l' reqs wakeups order t t2 fail h hr =>
    obtain ⟨-, ps, hp⟩ := httpStep_pubs hr
    refine inv_listener (x := .http l reqs wakeups order) (y := .http l' reqs (wakeups ++ [.oldBatch t fail t2]) (order ++ [.oldBatch t fail t2])) I h hp ?_
    cases I.listeners _ (get_mem (sources_set (.http l reqs wakeups order) h).2) with
    | http c t0 _ _ _ _ h1 h2 h3 h4 =>
      refine .http c t0 _ _ _ _ (httpRun_snoc order _ h1 hr) h2 ?_ ?_
      · intro x hx
        rcases List.mem_append.1 hx with hx | hx
        · exact h3 x hx
        · rw [List.mem_singleton.1 hx]; exact ⟨_, _, _, rfl⟩
      · refine (h4.append_right _).trans ?_
        rw [List.append_assoc, List.append_assoc]
        exact List.perm_append_comm.append_left _
  | filterIn c h =>
    have ho : ({ s with filters := c } : State d).out = s.out := by
      unfold State.out
      dsimp only
      rw [Group.step_workers h]
      rfl
    refine ⟨I.listeners, by rw [ho]; exact I.filters.step h, ?_, by rw [ho]; exact I.downs, by rw [ho]; exact I.writers⟩
    intro f hf
    have hf : f ∈ c.workers := hf
    rw [Group.step_workers h] at hf
    exact I.fran f hf
  | filterTake f m c hw h =>
    have hc := h.changed
    have ho : ({ s with filters := c } : State d).out.Perm s.out := by
      have := out_filters hc [] (by simp)
      simpa [outF] using this
    refine ⟨I.listeners, (I.filters.take h ?_).mono fun subj => onSubj_perm subj ho, ?_, ?_, ?_⟩
    · unfold FComp.taken; rw [hw]; simp
    · exact hc.all _ I.fran (I.fran f hc.mem)
    · intro x hx
      obtain ⟨h1, h2⟩ := I.downs x hx
      exact ⟨h1.mono fun subj => onSubj_perm subj ho, h2⟩
    · intro x hx
      obtain ⟨h1, h2⟩ := I.writers x hx
      exact ⟨h1.mono fun subj => onSubj_perm subj ho, h2⟩
  | filterDo f m now fail w' st' pubs c hw hr h =>
    have hc := h.changed
    refine Inv.publish (P := fun subj => onSubj subj s.out) (fun subj => onSubj_add subj (out_filters hc pubs (by simp)))
      I.listeners (I.filters.work h ?_) ?_ I.downs I.writers
    · unfold FComp.taken; rw [hw]; simp
    · exact hc.all _ I.fran (filterRun_snoc f.past ⟨now, fail, m⟩ (I.fran f hc.mem) hr)
  | downIn i x c hx h =>
    have ho : ({ s with downs := s.downs.set i { x with inp := c } } : State d).out = s.out := by
      unfold State.out
      dsimp only
      rw [flatMap_set_same _ (fun x => x.inp.workers.flatMap fun k => outOn x.out k.w.pubs) hx (by dsimp only; rw [Group.step_workers h])]
      rfl
    refine ⟨I.listeners, by rw [ho]; exact I.filters, I.fran, ?_, by rw [ho]; exact I.writers⟩
    rw [ho]
    refine all_set I.downs ?_
    obtain ⟨h1, q, k, h2, h3⟩ := I.downs x (get_mem hx)
    refine ⟨h1.step h, ?_⟩
    obtain ⟨q', h4⟩ := single_step h h2
    exact ⟨q', k, h4, h3⟩
  | downTake i x m c clk now ord fail k w' hx hr h =>
    have hc := h.changed
    obtain ⟨ps, hp⟩ := dstep_pubs hr
    rw [hp, List.drop_left]
    obtain ⟨h1, q, k0, h2, h3⟩ := I.downs x (get_mem hx)
    have hk : k = k0 := by
      have := hc.mem
      unfold Group.workers at this
      rw [h2] at this
      simpa using this
    subst hk
    refine Inv.publish (P := fun subj => onSubj subj s.out) (fun subj => onSubj_add subj (out_downs hx hc hp))
      I.listeners I.filters I.fran (all_set I.downs ?_) I.writers
    obtain ⟨q', h4⟩ := hc.single q h2
    refine ⟨h1.take h (by simp [messagesIn]), q', _, h4, drun_snoc k.evs _ h3 hr⟩
  | downTimeout i x c now ord fail k w' hx hr h =>
    have hc := h.changed
    obtain ⟨ps, hp⟩ := dstep_pubs hr
    rw [hp, List.drop_left]
    obtain ⟨h1, q, k0, h2, h3⟩ := I.downs x (get_mem hx)
    have hk : k = k0 := by
      have := hc.mem
      unfold Group.workers at this
      rw [h2] at this
      simpa using this
    subst hk
    refine Inv.publish (P := fun subj => onSubj subj s.out) (fun subj => onSubj_add subj (out_downs hx hc hp))
      I.listeners I.filters I.fran (all_set I.downs ?_) I.writers
    obtain ⟨q', h4⟩ := hc.single q h2
    refine ⟨h1.work h (by simp [messagesIn]), q', _, h4, drun_snoc k.evs _ h3 hr⟩
  | writerIn i x c hx h =>
    refine ⟨I.listeners, I.filters, I.fran, I.downs, all_set I.writers ?_⟩
    obtain ⟨h1, h2⟩ := I.writers x (get_mem hx)
    refine ⟨h1.step h, ?_⟩
    intro k hk
    have hk : k ∈ c.workers := hk
    rw [Group.step_workers h] at hk
    exact h2 k hk
  | writerTake i x m c k k' hx hr hm h =>
    refine ⟨I.listeners, I.filters, I.fran, I.downs, all_set I.writers ?_⟩
    obtain ⟨h1, h2⟩ := I.writers x (get_mem hx)
    refine ⟨h1.take h (by rw [hm]; simp [received]), h.changed.all _ h2 ?_⟩
    obtain ⟨pages, now, hk⟩ := h2 k h.changed.mem
    exact ⟨pages, now, hk.step hr⟩
  | writer i x c k k' hx hr hm h =>
    refine ⟨I.listeners, I.filters, I.fran, I.downs, all_set I.writers ?_⟩
    obtain ⟨h1, h2⟩ := I.writers x (get_mem hx)
    refine ⟨h1.work h hm, h.changed.all _ h2 ?_⟩
    obtain ⟨pages, now, hk⟩ := h2 k h.changed.mem
    exact ⟨pages, now, hk.step hr⟩

/-! ## Processes start and end -/

theorem Group.Crash.all {W : Type u} {c c' : Group W} (h : c.Crash c') : c'.all.Perm c.all := by
  cases h with
  | mk pre post x h =>
    unfold Group.all
    dsimp only
    rw [h, List.append_assoc, List.append_assoc, List.cons_append]
    exact List.perm_middle.append_left _

theorem Group.Crash.subs {W : Type u} {c c' : Group W} (h : c.Crash c') : c'.subs = c.subs := by cases h; rfl

theorem Group.Crash.workers {W : Type u} {c c' : Group W} (h : c.Crash c') : c'.workers.Perm c.workers := flatMap_perm _ h.all

theorem GOK.ended {W : Type u} {P : Bytes → List Bytes} {subjects : List Bytes} {hist : W → List Bytes} {c c' : Group W} (I : GOK P subjects hist c)
    (h : c.Crash c') : GOK P subjects hist c' where
  subs := by rw [h.subs]; exact I.subs
  run := fun x hx => I.run x (h.all.mem_iff.1 hx)
  got := fun x hx => I.got x (h.all.mem_iff.1 hx)
  split := by
    intro i s hs
    rw [h.subs] at hs
    exact (((flatMap_perm _ h.all).append_right _).append_right _).trans (I.split i s hs)

theorem new_queue (n i m : Nat) : (((start n m).arrived)[i]?).getD [] = [] := by
  show ((List.replicate n ([] : List Bytes))[i]?).getD [] = []
  rw [List.getElem?_replicate]
  split <;> rfl

theorem new_got {W : Type u} {hist : W → List Bytes} (n : Nat) (ws : List W) (hh : ∀ w ∈ ws, hist w = []) : (start n ws.length).got = ws.map hist := by
  show List.replicate ws.length [] = _
  symm
  rw [List.eq_replicate_iff]
  refine ⟨by rw [List.length_map], fun b hb => ?_⟩
  obtain ⟨w, hw, rfl⟩ := List.mem_map.1 hb
  exact hh w hw

theorem Group.join_all {W : Type u} (c : Group W) (ws : List W) : (c.join ws).all.Perm (⟨start c.subs.length ws.length, ws⟩ :: c.all) := by
  unfold Group.join Group.all
  dsimp only
  rw [List.append_assoc]
  exact List.perm_middle

theorem GOK.join {W : Type u} {P : Bytes → List Bytes} {subjects : List Bytes} {hist : W → List Bytes} {c : Group W} (I : GOK P subjects hist c)
    (ws : List W) (hh : ∀ w ∈ ws, hist w = []) : GOK P subjects hist (c.join ws) where
  subs := I.subs
  run := by
    intro x hx
    rcases List.mem_cons.1 ((Group.join_all c ws).mem_iff.1 hx) with rfl | hx
    · dsimp only
      rw [← I.subs, List.length_map]
      exact .refl
    · exact I.run x hx
  got := by
    intro x hx
    rcases List.mem_cons.1 ((Group.join_all c ws).mem_iff.1 hx) with rfl | hx
    · exact new_got _ ws hh
    · exact I.got x hx
  split := by
    intro i s hs
    refine (((flatMap_perm _ (Group.join_all c ws)).append_right _).append_right _).trans ?_
    rw [List.flatMap_cons]
    dsimp only
    rw [new_queue, List.nil_append]
    exact I.split i s hs

/-- A process that subscribes misses what was published before. -/
theorem GOK.late {W : Type u} (P : Bytes → List Bytes) (subjects : List Bytes) {hist : W → List Bytes} (ws : List W) (hh : ∀ w ∈ ws, hist w = []) :
    GOK P subjects hist ⟨subjects.map fun subj => ⟨subj, [], P subj⟩, [⟨start subjects.length ws.length, ws⟩], []⟩ where
  subs := by rw [List.map_map]; exact List.map_id' _
  run := fun x hx => by rw [List.mem_singleton.1 hx]; exact .refl
  got := fun x hx => by rw [List.mem_singleton.1 hx]; exact new_got _ ws hh
  split := by
    intro i s hs
    dsimp only at hs
    rw [List.getElem?_map] at hs
    cases hc : subjects[i]? with
    | none => rw [hc] at hs; cases hs
    | some t =>
      rw [hc] at hs
      injection hs with hs
      subst hs
      show (([(⟨start subjects.length ws.length, ws⟩ : Member W)].flatMap fun x : Member W => (x.queue.arrived[i]?).getD []) ++ [] ++ P t).Perm (P t)
      rw [List.flatMap_cons, List.flatMap_nil]
      dsimp only
      rw [new_queue]
      exact .refl _

/-- The invariant when nothing is published. -/
theorem Inv.of_perm {s s' : State d} (ho : s'.out.Perm s.out)
    (hl : ∀ x ∈ s'.sources, LOK x) (hf : GOK (fun subj => onSubj subj s.out) [d.lsub] FComp.taken s'.filters)
    (hr : ∀ f ∈ s'.filters.workers, filterRun d.S (FWorker.new d.delta d.rules d.junk) (FStats.init d.rules.length) f.past = .ok (f.w, f.st, f.pubss))
    (hd : ∀ x ∈ s'.downs, GOK (fun subj => onSubj subj s.out) [x.subject] (fun k => messagesIn k.evs) x.inp ∧
      ∃ q k, x.inp.all = [⟨q, [k]⟩] ∧ DWorker.run d.S (DWorker.new d.fo x.period x.now0) k.evs = .ok k.w)
    (hw : ∀ x ∈ s'.writers, GOK (fun subj => onSubj subj s.out) x.subjects (fun k => received k.hist) x.inp ∧ ∀ k ∈ x.inp.workers, WRun x.conf k) :
    Inv s' :=
  ⟨hl, hf.mono fun subj => onSubj_perm subj ho, hr, fun x hx => ⟨(hd x hx).1.mono fun subj => onSubj_perm subj ho, (hd x hx).2⟩,
    fun x hx => ⟨(hw x hx).1.mono fun subj => onSubj_perm subj ho, (hw x hx).2⟩⟩

theorem new_listener {x : LComp} (h : x.New) : LOK x ∧ x.l.pubs = [] := by
  obtain ⟨c, t0, rfl | rfl⟩ := h
  · exact ⟨.udp c t0 _ [] rfl (fun e he => by cases he) rfl, rfl⟩
  · exact ⟨.http c t0 _ [] [] [] rfl (fun e he => by cases he) (fun e he => by cases he) (.refl _), rfl⟩

theorem join_workers {W : Type u} (c : Group W) (ws : List W) : (c.join ws).workers.Perm (ws ++ c.workers) := flatMap_perm _ (Group.join_all c ws)

theorem inv_change (I : Inv s) (h : Change d s s') : Inv s' := by
  cases h with
  | listenerStarts x h =>
    obtain ⟨h1, h2⟩ := new_listener h
    have hp : ({ s with listeners := s.listeners ++ [x] } : State d).sources.Perm (x :: s.sources) := by
      unfold State.sources
      dsimp only
      rw [List.append_assoc]
      exact List.perm_middle
    refine Inv.of_perm ?_ ?_ I.filters I.fran I.downs I.writers
    · unfold State.out
      refine ((flatMap_perm _ hp).trans (List.Perm.of_eq ?_)).append_right _ |>.append_right _
      rw [List.flatMap_cons, h2]; rfl
    · intro y hy
      rcases List.mem_cons.1 (hp.mem_iff.1 hy) with rfl | hy
      · exact h1
      · exact I.listeners y hy
  | listenerEnds pre post x h =>
    have hp : ({ s with listeners := pre ++ post, crashed := x :: s.crashed } : State d).sources.Perm s.sources := by
      unfold State.sources
      dsimp only
      rw [h, List.append_assoc, List.append_assoc, List.cons_append]
      exact List.perm_middle.append_left _
    refine Inv.of_perm ?_ (fun y hy => I.listeners y (hp.mem_iff.1 hy)) I.filters I.fran I.downs I.writers
    exact ((flatMap_perm _ hp).append_right _).append_right _
  | filterStarts ws h =>
    refine Inv.of_perm ?_ I.listeners (I.filters.join ws fun f hf => by rw [h f hf]; rfl) ?_ I.downs I.writers
    · unfold State.out
      refine (((flatMap_perm _ (join_workers s.filters ws)).trans (List.Perm.of_eq ?_)).append_left _).append_right _
      rw [List.flatMap_append, List.flatMap_eq_nil_iff.2, List.nil_append]
      intro f hf
      rw [h f hf]; rfl
    · intro f hf
      rcases List.mem_append.1 ((join_workers s.filters ws).mem_iff.1 hf) with hf | hf
      · rw [h f hf]; rfl
      · exact I.fran f hf
  | filterEnds c h =>
    refine Inv.of_perm ?_ I.listeners (I.filters.ended h) (fun f hf => I.fran f (h.workers.mem_iff.1 hf)) I.downs I.writers
    exact ((flatMap_perm _ h.workers).append_left _).append_right _
  | downStarts subject out period now0 =>
    refine Inv.of_perm ?_ I.listeners I.filters I.fran ?_ I.writers
    · unfold State.out
      refine List.Perm.append_left _ (List.Perm.of_eq ?_)
      dsimp only
      rw [List.flatMap_append, List.flatMap_cons, List.flatMap_nil]
      show _ ++ ([] ++ []) = _
      rw [List.append_nil, List.append_nil]
    · intro x hx
      rcases List.mem_append.1 hx with hx | hx
      · exact I.downs x hx
      · rw [List.mem_singleton.1 hx]
        refine ⟨GOK.late (fun subj => onSubj subj s.out) [subject] [(⟨DWorker.new d.fo period now0, []⟩ : DState d.fo)] ?_, _, _, rfl, rfl⟩
        intro k hk
        rw [List.mem_singleton.1 hk]; rfl
  | downEnds i x c hx h =>
    obtain ⟨h1, q, k, h2, h3⟩ := I.downs x (get_mem hx)
    refine Inv.of_perm ?_ I.listeners I.filters I.fran (all_set I.downs ⟨h1.ended h, q, k, ?_, h3⟩) I.writers
    · unfold State.out
      refine List.Perm.append_left _ ?_
      have := flatMap_set (l := s.downs) { x with inp := c } (fun x => x.inp.workers.flatMap fun k => outOn x.out k.w.pubs) [] hx
        (by rw [List.append_nil]; exact flatMap_perm _ h.workers)
      rwa [List.append_nil] at this
    · have := h.all
      rw [h2] at this
      exact List.perm_singleton.1 this
  | writerStarts subjects conf ws h =>
    refine Inv.of_perm (.refl _) I.listeners I.filters I.fran I.downs ?_
    intro x hx
    rcases List.mem_append.1 hx with hx | hx
    · exact I.writers x hx
    · rw [List.mem_singleton.1 hx]
      refine ⟨GOK.late (fun subj => onSubj subj s.out) subjects ws ?_, ?_⟩
      · intro k hk
        obtain ⟨pages, now, rfl⟩ := h k hk
        rfl
      · intro k hk
        obtain ⟨y, hy, hk⟩ := Group.mem_workers.1 hk
        rw [List.mem_singleton.1 hy] at hk
        obtain ⟨pages, now, rfl⟩ := h k hk
        exact ⟨pages, now, .refl _⟩
  | writerJoins i x ws hx h =>
    obtain ⟨h1, h2⟩ := I.writers x (get_mem hx)
    refine Inv.of_perm (.refl _) I.listeners I.filters I.fran I.downs (all_set I.writers ⟨h1.join ws ?_, ?_⟩)
    · intro k hk
      obtain ⟨pages, now, rfl⟩ := h k hk
      rfl
    · intro k hk
      rcases List.mem_append.1 ((join_workers x.inp ws).mem_iff.1 hk) with hk | hk
      · obtain ⟨pages, now, rfl⟩ := h k hk
        exact ⟨pages, now, .refl _⟩
      · exact h2 k hk
  | writerEnds i x c hx h =>
    obtain ⟨h1, h2⟩ := I.writers x (get_mem hx)
    exact Inv.of_perm (.refl _) I.listeners I.filters I.fran I.downs (all_set I.writers ⟨h1.ended h, fun k hk => h2 k (h.workers.mem_iff.1 hk)⟩)

theorem inv_reach {s0 : State d} (h0 : Start d s0) (h : Reach d s0 s) : Inv s := by
  induction h with
  | refl => exact inv_start h0
  | step _ h ih => exact inv_step ih h
  | change _ h ih => exact inv_change ih h

end Spout.Deploy
