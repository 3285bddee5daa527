import Verif.Props.Deployment

/-! # Messages get through to the workers of a group (used by C95) -/

set_option linter.unusedSimpArgs false

namespace Spout.Deploy
open Spout Spout.Listener Spout.Pool Spout.Spec Spout.Delivery

universe u
variable {W : Type u} {c c' : Group W}

/-! ## Specification -/

/-- The workers of the processes that are running. -/
def Group.live (c : Group W) : List W := c.members.flatMap (·.workers)

/-- The processes that are running are not stopped and have workers. -/
structure Group.Running (c : Group W) : Prop where
  workers : ∀ x ∈ c.members, x.workers ≠ []
  stop : ∀ x ∈ c.members, x.queue.stop = false

/-- NATS has passed on all messages (if any process is running), and all queues are empty. -/
structure Group.Empty (c : Group W) : Prop where
  pending : c.members ≠ [] → ∀ s ∈ c.subs, s.pending = []
  queues : inQueues (c.members.map (·.queue)) = []

/-- The messages NATS has dropped or that were published before the subscription. -/
def Group.dropped (c : Group W) : List Bytes := c.subs.flatMap (·.lost)

/-! ## Proofs -/

theorem sum_set {α : Type u} (f : α → Nat) : ∀ {l : List α} {i : Nat} {a : α} (b : α), l[i]? = some a →
    ((l.set i b).map f).sum + f a = (l.map f).sum + f b
  | [], _, _, _, h => by simp at h
  | x :: l, 0, a, b, h => by
    simp only [List.getElem?_cons_zero, Option.some.injEq] at h
    subst h
    simp only [List.set_cons_zero, List.map_cons, List.sum_cons]
    omega
  | x :: l, i + 1, a, b, h => by
    simp only [List.getElem?_cons_succ] at h
    have := sum_set f b h
    simp only [List.set_cons_succ, List.map_cons, List.sum_cons]
    omega

theorem sum_pos {α : Type u} (f : α → Nat) : ∀ {l : List α}, 0 < (l.map f).sum → ∃ (i : Nat) (a : α), l[i]? = some a ∧ 0 < f a
  | [], h => by simp at h
  | x :: l, h => by
    by_cases hx : 0 < f x
    · exact ⟨0, x, rfl, hx⟩
    · simp only [List.map_cons, List.sum_cons] at h
      obtain ⟨i, a, h1, h2⟩ := sum_pos f (l := l) (by omega)
      exact ⟨i + 1, a, h1, h2⟩

theorem sum_zero {α : Type u} (f : α → Nat) {l : List α} (h : (l.map f).sum = 0) : ∀ a ∈ l, f a = 0 := by
  induction l with
  | nil => intro a ha; cases ha
  | cons x l ih =>
    simp only [List.map_cons, List.sum_cons] at h
    intro a ha
    rcases List.mem_cons.1 ha with rfl | ha
    · omega
    · exact ih (by omega) a ha

/-- Steps in front of the workers that are left for a queue. -/
def queueWeight (q : Pool) : Nat := 2 * (q.todo.map List.length).sum + q.jobs.length

/-- The same for a group. -/
def Group.weight (c : Group W) : Nat := 3 * (c.subs.map fun s => s.pending.length).sum + (c.members.map fun x => queueWeight x.queue).sum

/-- A sum over the workers. -/
def Group.count (c : Group W) (f : W → Nat) : Nat := (c.members.map fun x => (x.workers.map f).sum).sum

theorem Group.mem_live {w : W} : w ∈ c.live ↔ ∃ x ∈ c.members, w ∈ x.workers := List.mem_flatMap

theorem Group.live_mem {w : W} (h : w ∈ c.live) : w ∈ c.workers := by
  obtain ⟨x, hx, hw⟩ := Group.mem_live.1 h
  exact Group.mem_workers.2 ⟨x, List.mem_append_left _ hx, hw⟩

theorem Group.all_live {g : Nat} {x : Member W} (h : c.members[g]? = some x) : x ∈ c.all := List.mem_append_left _ (get_mem h)

theorem Group.count_zero {f : W → Nat} (h : c.count f = 0) : ∀ k ∈ c.live, f k = 0 := by
  intro k hk
  obtain ⟨x, hx, hk⟩ := Group.mem_live.1 hk
  exact sum_zero f (sum_zero _ h x hx) k hk

/-- Worker `w` of process `g`. -/
def Group.At (c : Group W) (g w : Nat) (a : W) : Prop := ∃ x, c.members[g]? = some x ∧ x.workers[w]? = some a

/-- The next message in the queue of process `g`. -/
def Group.Job (c : Group W) (g : Nat) (m : Bytes) : Prop := ∃ x ms, c.members[g]? = some x ∧ x.queue.jobs = m :: ms

theorem Group.count_pos {f : W → Nat} (h : 0 < c.count f) : ∃ g w a, c.At g w a ∧ 0 < f a := by
  obtain ⟨g, x, h1, h2⟩ := sum_pos _ h
  obtain ⟨w, a, h3, h4⟩ := sum_pos f h2
  exact ⟨g, w, a, ⟨x, h1, h3⟩, h4⟩

theorem Group.weight_zero (h : c.weight = 0) : c.Empty := by
  unfold Group.weight at h
  constructor
  · intro _ s hs
    have := sum_zero (fun s : Sub => s.pending.length) (by omega) s hs
    exact List.length_eq_zero_iff.1 this
  · unfold inQueues
    rw [List.flatMap_map, List.flatMap_eq_nil_iff]
    intro x hx
    have := sum_zero (fun x : Member W => queueWeight x.queue) (by omega) x hx
    unfold queueWeight at this
    have h1 : x.queue.jobs = [] := List.length_eq_zero_iff.1 (by omega)
    have h2 : x.queue.todo.flatten = [] := by
      rw [List.flatten_eq_nil_iff]
      intro l hl
      exact List.length_eq_zero_iff.1 (sum_zero List.length (by omega) l hl)
    simp [h1, h2]

/-- If no process is running, the queues are empty. -/
theorem Group.nobody (h : c.members = []) : c.Empty ∧ c.live = [] := by
  refine ⟨⟨fun hn => absurd h hn, ?_⟩, ?_⟩
  · rw [h]; rfl
  · unfold Group.live; rw [h]; rfl

theorem Group.Running.set {subs : List Sub} {dead : List (Member W)} {g : Nat} {x y : Member W} (R : c.Running) (hx : c.members[g]? = some x)
    (hw : y.workers.length = x.workers.length) (hs : y.queue.stop = x.queue.stop) : Group.Running ⟨subs, c.members.set g y, dead⟩ := by
  refine ⟨?_, ?_⟩
  · refine all_set R.workers ?_
    intro h
    rw [h] at hw
    exact R.workers x (get_mem hx) (List.length_eq_zero_iff.1 hw.symm)
  · exact all_set R.stop (hs.trans (R.stop x (get_mem hx)))

theorem Group.Running.add (R : c.Running) (ms : List (Bytes × Bytes)) : (c.add ms).Running := ⟨R.workers, R.stop⟩

theorem Group.dropped_set {i : Nat} {s t : Sub} {ms dead : List (Member W)} (h : c.subs[i]? = some s) (he : t.lost = s.lost) :
    Group.dropped ⟨c.subs.set i t, ms, dead⟩ = c.dropped := flatMap_set_same t (·.lost) h he

theorem Group.dropped_add (ms : List (Bytes × Bytes)) : (c.add ms).dropped = c.dropped := by
  unfold Group.dropped Group.add
  dsimp only
  rw [List.flatMap_map]
  rfl

theorem Group.add_none {ms : List (Bytes × Bytes)} (h : ∀ s ∈ c.subs, onSubj s.subject ms = []) : c.add ms = c := by
  have : (c.subs.map fun s => s.add ms) = c.subs := by
    conv => rhs; rw [← List.map_id c.subs]
    apply List.map_congr_left
    intro s hs
    have := h s hs
    unfold Sub.add
    show ({ s with pending := s.pending ++ onSubj s.subject ms } : Sub) = s
    rw [this, List.append_nil]
  unfold Group.add
  rw [this]

theorem Group.Take.live {m : Bytes} {a b : W} (h : c.Take m a b c') : ∀ Q : W → Prop, (∀ k ∈ c.live, Q k) → Q b → ∀ k ∈ c'.live, Q k := by
  cases h with
  | mk g w x ms l hx ha hl hj hg => exact fun Q hQ hb => mem_workers_set hx hQ hb

theorem Group.Work.live {a b : W} (h : c.Work a b c') : ∀ Q : W → Prop, (∀ k ∈ c.live, Q k) → Q b → ∀ k ∈ c'.live, Q k := by
  cases h with
  | mk g w x hx ha => exact fun Q hQ hb => mem_workers_set hx hQ hb

theorem Group.step_live (h : Group.Step c c') : c'.live = c.live := by
  cases h with
  | deliver g i x s pre post m as ms hx hs hp ha ht => exact members_set hx rfl
  | drop => rfl
  | queue g x q hx hst ha hg => exact members_set hx rfl

theorem Group.step_dead (h : Group.Step c c') : c'.dead = c.dead ∧ c'.members.length = c.members.length := by
  cases h with
  | deliver g i x s pre post m as ms hx hs hp ha ht => exact ⟨rfl, List.length_set⟩
  | drop => exact ⟨rfl, rfl⟩
  | queue g x q hx hst ha hg => exact ⟨rfl, List.length_set⟩

theorem Group.members_ne {c c' : Group W} (h : c'.members.length = c.members.length) : c'.members ≠ [] ↔ c.members ≠ [] := by
  rw [← List.length_pos_iff, ← List.length_pos_iff, h]

/-- A worker changes without a message. -/
theorem Group.work_at {g w : Nat} {a : W} (b : W) (R : c.Running) (h : c.At g w a) :
    ∃ c', c.Work a b c' ∧ c'.At g w b ∧ (∀ m, c.Job g m → c'.Job g m) ∧ c'.weight = c.weight ∧ c'.Running ∧ c'.subs = c.subs ∧
      (∀ f, c'.count f + f a = c.count f + f b) := by
  obtain ⟨x, hx, ha⟩ := h
  have hg := (List.getElem?_eq_some_iff.1 hx).1
  have hw := (List.getElem?_eq_some_iff.1 ha).1
  refine ⟨_, .mk g w x hx ha, ⟨_, List.getElem?_set_self hg, List.getElem?_set_self hw⟩, ?_, ?_, ?_, rfl, ?_⟩
  · rintro m ⟨y, ms, hy, hm⟩
    rw [hx] at hy
    injection hy with hy
    subst hy
    exact ⟨_, ms, List.getElem?_set_self hg, hm⟩
  · unfold Group.weight
    have := sum_set (fun x : Member W => queueWeight x.queue) { x with workers := x.workers.set w b } hx
    dsimp only at this ⊢
    omega
  · exact R.set hx (by rw [List.length_set]) rfl
  · intro f
    have h1 := sum_set f b ha
    have h2 := sum_set (fun x : Member W => (x.workers.map f).sum) { x with workers := x.workers.set w b } hx
    unfold Group.count
    dsimp only at h2 ⊢
    omega

variable {P : Bytes → List Bytes} {subjects : List Bytes} {hist : W → List Bytes}

/-- A worker receives the next message. -/
theorem Group.take_at {g w : Nat} {a : W} {m : Bytes} (b : W) (I : GOK P subjects hist c) (R : c.Running) (h : c.At g w a) (hj : c.Job g m) :
    ∃ c', c.Take m a b c' ∧ c'.weight < c.weight ∧ c'.Running ∧ c'.subs = c.subs ∧ (∀ f, c'.count f + f a = c.count f + f b) := by
  obtain ⟨x, hx, ha⟩ := h
  obtain ⟨y, ms, hy, hm⟩ := hj
  rw [hx] at hy
  injection hy with hy
  subst hy
  have hg := (List.getElem?_eq_some_iff.1 hx).1
  have hw := (List.getElem?_eq_some_iff.1 ha).1
  have hl : x.queue.live[w]? = some true := C86_running_until_stop (I.run x (Group.all_live hx)) (R.stop x (get_mem hx)) w hw
  have hgot : x.queue.got[w]? = some (hist a) := by rw [I.got x (Group.all_live hx), List.getElem?_map, ha]; rfl
  refine ⟨_, .mk g w x ms _ hx ha hl hm hgot, ?_, ?_, rfl, ?_⟩
  · unfold Group.weight
    have := sum_set (fun x : Member W => queueWeight x.queue) ⟨{ x.queue with jobs := ms, got := x.queue.got.set w (hist a ++ [m]) }, x.workers.set w b⟩ hx
    dsimp only [queueWeight] at this ⊢
    rw [hm, List.length_cons] at this
    omega
  · exact R.set hx (by rw [List.length_set]) rfl
  · intro f
    have h1 := sum_set f b ha
    have h2 := sum_set (fun x : Member W => (x.workers.map f).sum) ⟨{ x.queue with jobs := ms, got := x.queue.got.set w (hist a ++ [m]) }, x.workers.set w b⟩ hx
    unfold Group.count
    dsimp only at h2 ⊢
    omega

/-- If anything is left in front of the workers, it can move on, or a worker can receive it. -/
theorem Group.front (I : GOK P subjects hist c) (R : c.Running) (hm : c.members ≠ []) (hw : c.weight ≠ 0) :
    (∃ c', Group.Step c c' ∧ c'.weight < c.weight ∧ c'.Running ∧ c'.dropped = c.dropped ∧ ∀ f, c'.count f = c.count f) ∨
      ∃ g w a m, c.At g w a ∧ c.Job g m := by
  by_cases h1 : ∃ (g : Nat) (x : Member W), c.members[g]? = some x ∧ x.queue.jobs ≠ []
  · right
    obtain ⟨g, x, hx, hj⟩ := h1
    obtain ⟨m, ms, hm⟩ := List.exists_cons_of_ne_nil hj
    obtain ⟨a, as, ha⟩ := List.exists_cons_of_ne_nil (R.workers x (get_mem hx))
    exact ⟨g, 0, a, m, ⟨x, hx, by rw [ha]; rfl⟩, ⟨x, ms, hx, hm⟩⟩
  · left
    have hjobs : ∀ (g : Nat) (x : Member W), c.members[g]? = some x → x.queue.jobs = [] := by
      intro g x hx
      exact Classical.byContradiction fun h => h1 ⟨g, x, hx, h⟩
    by_cases h2 : 0 < (c.members.map fun x => queueWeight x.queue).sum
    · obtain ⟨g, x, hx, hq⟩ := sum_pos _ h2
      unfold queueWeight at hq
      rw [hjobs g x hx] at hq
      simp only [List.length_nil] at hq
      obtain ⟨i, l, hi, hl⟩ := sum_pos List.length (l := x.queue.todo) (by omega)
      obtain ⟨m, ms, rfl⟩ := List.exists_cons_of_length_pos hl
      refine ⟨_, .queue c g x _ hx (.push x.queue i m ms hi (by rw [hjobs g x hx]; decide)) rfl rfl, ?_, ?_, rfl, ?_⟩
      · unfold Group.weight
        have h3 := sum_set (fun x : Member W => queueWeight x.queue)
          { x with queue := { x.queue with todo := x.queue.todo.set i ms, jobs := x.queue.jobs ++ [m] } } hx
        have h4 := sum_set List.length ms hi
        rw [List.length_cons] at h4
        dsimp only [queueWeight] at h3 ⊢
        rw [List.length_append, List.length_singleton] at h3
        omega
      · exact R.set hx rfl rfl
      · intro f
        have h3 := sum_set (fun x : Member W => (x.workers.map f).sum)
          { x with queue := { x.queue with todo := x.queue.todo.set i ms, jobs := x.queue.jobs ++ [m] } } hx
        unfold Group.count
        dsimp only at h3 ⊢
        omega
    · unfold Group.weight at hw
      obtain ⟨i, s, hs, hp⟩ := sum_pos (fun s : Sub => s.pending.length) (l := c.subs) (by omega)
      obtain ⟨x, xs, hx⟩ := List.exists_cons_of_ne_nil hm
      obtain ⟨m, ms, hm⟩ := List.exists_cons_of_length_pos hp
      have hx : c.members[0]? = some x := by rw [hx]; rfl
      have hi : i < subjects.length := by
        rw [← I.subs, List.length_map]; exact (List.getElem?_eq_some_iff.1 hs).1
      have hlen := arrived_length (I.run x (Group.all_live hx))
      have ha := List.getElem?_eq_getElem (l := x.queue.arrived) (i := i) (by rw [hlen.1]; exact hi)
      have ht := List.getElem?_eq_getElem (l := x.queue.todo) (i := i) (by rw [hlen.2]; exact hi)
      refine ⟨_, .deliver c 0 i x s [] ms m _ _ hx hs hm ha ht, ?_, ?_, ?_, ?_⟩
      · unfold Group.weight
        have h3 := sum_set (fun x : Member W => queueWeight x.queue)
          { x with queue := { x.queue with arrived := x.queue.arrived.set i (x.queue.arrived[i] ++ [m]), todo := x.queue.todo.set i (x.queue.todo[i] ++ [m]) } } hx
        have h4 := sum_set List.length (x.queue.todo[i] ++ [m]) ht
        have h5 := sum_set (fun s : Sub => s.pending.length) { s with pending := [] ++ ms } hs
        rw [List.length_append, List.length_singleton] at h4
        dsimp only [queueWeight] at h3 h5 ⊢
        rw [hm, List.length_cons] at h5
        rw [List.nil_append] at h5 ⊢
        omega
      · exact R.set hx rfl rfl
      · exact Group.dropped_set hs rfl
      · intro f
        have h3 := sum_set (fun x : Member W => (x.workers.map f).sum)
          { x with queue := { x.queue with arrived := x.queue.arrived.set i (x.queue.arrived[i] ++ [m]), todo := x.queue.todo.set i (x.queue.todo[i] ++ [m]) } } hx
        unfold Group.count
        dsimp only at h3 ⊢
        omega

end Spout.Deploy
