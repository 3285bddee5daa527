import Verif.Props.DeploymentLive
import Verif.Props.WriterRecovery

/-! # What is left to do (used by C101) -/

set_option linter.unusedSimpArgs false

namespace Spout.Deploy
open Spout Spout.Listener Spout.Pool Spout.Spec Spout.Delivery

universe u

/-! ## Specification -/

/-- What is left to do for a listener: the data in its batch, and how many steps are left of each request. -/
def LComp.left : LComp → Bytes × List Nat
  | .udp l _ => (l.batch.bytes, [])
  | .http l reqs _ _ => (l.batch.bytes, reqs.map fun r => r.todo.length)

/-- The messages on their way to the workers of a group: with NATS, in the callbacks and in the channels. -/
def Group.waiting {W : Type u} (c : Group W) : List (List Bytes) × List (List (List Bytes) × List Bytes) :=
  (c.subs.map (·.pending), c.members.map fun x => (x.queue.todo, x.queue.jobs))

/-- What is left to do for the worker of a writer: the data not yet sent, the chunks on their way to the retry queue, and the number of those in it. -/
def workLeft (k : WSys) : Bytes × List (Nat × Bytes) × Nat := (unsentBytes k, transit k.phase k.ch, k.queue.length)

/-! ## Listeners -/

theorem sendBatch_settles {l l' : Listener} {fail : Nat → Bool} {now : Int} (h : l.sendBatch fail now = .ok l') :
    l' = l ∨ (l.batch.bytes ≠ [] ∧ l'.batch.bytes = []) := by
  rcases sendBatch_spec l fail now with ⟨-, h1⟩ | ⟨he, ps, h1, -⟩
  · rw [h1] at h; injection h with h; exact Or.inl h.symm
  · rw [h1] at h; injection h with h; subst h; exact Or.inr ⟨he, rfl⟩

theorem maybeSend_settles {l l' : Listener} {fail : Nat → Bool} {t now : Int} (h : l.maybeSendBatch t fail now = .ok l') :
    l' = l ∨ (l.batch.bytes ≠ [] ∧ l'.batch.bytes = []) := by
  unfold Listener.maybeSendBatch at h
  split at h
  · exact sendBatch_settles h
  · injection h with h; exact Or.inl h.symm

theorem udpStep_settles {l l' : Listener} {e : UDPEvent} (h : l.udpStep e = .ok l') (he : e.data = []) :
    (l'.batch.bytes = l.batch.bytes ∧ l'.pubs = l.pubs) ∨ (l.batch.bytes ≠ [] ∧ l'.batch.bytes = []) := by
  unfold Listener.udpStep at h
  cases hb : l.batch.readOnceFrom e.data e.tRead with
  | panic => rw [hb] at h; cases h
  | ok r =>
    obtain ⟨b, n⟩ := r
    rw [hb, Go.ok_bind] at h
    have hbn : b.bytes = l.batch.bytes ∧ n = 0 := by
      unfold Batch.readOnceFrom at hb
      rw [he] at hb
      cases hg : l.batch.growIfLow with
      | panic => rw [hg] at hb; cases hb
      | ok b1 =>
        rw [hg, Go.ok_bind] at hb
        simp only [List.take_nil, List.length_nil, Nat.lt_irrefl, if_false, gt_iff_lt] at hb
        injection hb with hb
        injection hb with h1 h2
        refine ⟨?_, h2.symm⟩
        rw [← h1]
        unfold Batch.growIfLow Batch.grow at hg
        split at hg
        · generalize (if l.batch.cap * 2 < maxReadSize then l.batch.cap + maxReadSize else l.batch.cap * 2) = m at hg
          dsimp only at hg
          split at hg
          · injection hg with hg; rw [← hg]; rfl
          · cases hg
        · injection hg with hg; rw [← hg]
    obtain ⟨h1, rfl⟩ := hbn
    dsimp only at h
    generalize hl1 : (if e.readErr = true then ({ { l with batch := b } with stats := { l.stats with readErrors := l.stats.readErrors + 1 } } : Listener)
      else { l with batch := b }) = l1 at h
    have e1 : l1.pubs = l.pubs := by subst hl1; split <;> rfl
    have e2 : l1.batch = b := by subst hl1; split <;> rfl
    simp only [gt_iff_lt, Nat.lt_irrefl, if_false, Go.ok_bind] at h
    rcases maybeSend_settles h with rfl | ⟨h2, h3⟩
    · exact Or.inl ⟨by rw [e2, h1], e1⟩
    · exact Or.inr ⟨by rw [← h1, ← e2]; exact h2, h3⟩

theorem oldBatch_settles {l l' : Listener} {t t2 : Int} {fail : Nat → Bool} (h : l.httpStep (.oldBatch t fail t2) = .ok l') :
    l' = l ∨ (l.batch.bytes ≠ [] ∧ l'.batch.bytes = []) := by
  simp only [Listener.httpStep] at h
  split at h
  · exact sendBatch_settles h
  · injection h with h; exact Or.inl h.symm

/-- The measure of a listener. -/
def LComp.todo : LComp → Nat
  | .udp l _ => if l.batch.bytes = [] then 0 else 1
  | .http l reqs _ _ => 2 * (reqs.map fun r => r.todo.length).sum + if l.batch.bytes = [] then 0 else 1

/-! ## Windows -/

variable {fo : FloatOps}

/-- The measure of the windows a downsampler holds. -/
def windowsLeft (a : Assigner fo) : Nat :=
  (if a.prev.lines.isEmpty then 0 else 1) + (if a.curr.lines.isEmpty then 0 else 2) + if a.next.lines.isEmpty then 0 else 3

theorem order_nil (ord : MapOrder) {α : Type} : ord.order ([] : List α) = [] := (ord.perm []).eq_nil

theorem timeout_settles {S : Sorter} {w w' : DWorker fo} {now : Int} {ord : MapOrder} {fail : Nat → Bool} (h : w.step S ⟨.timeout, now, ord, fail⟩ = .ok w') :
    windowsLeft w'.a < windowsLeft w.a ∨ (windowsLeft w'.a = windowsLeft w.a ∧ w'.pubs = w.pubs) := by
  unfold DWorker.step DWorker.receive at h
  rw [Go.ok_bind] at h
  unfold DWorker.emit at h
  generalize hb : w.a.bytes S ord now = r at h
  obtain ⟨a, buf⟩ := r
  dsimp only at h
  have ha : w'.a = a := by
    split at h
    · cases hc : splitAll buf maxNATSMsgSize with
      | panic => rw [hc] at h; cases h
      | ok cs => rw [hc] at h; injection h with h; rw [← h]
    · injection h with h; rw [← h]
  unfold Assigner.bytes at hb
  split at hb
  · injection hb with h1 h2
    right
    refine ⟨by rw [ha, ← h1], ?_⟩
    rw [← h2] at h
    injection h with h
    rw [← h]
  · injection hb with h1 h2
    have hlt : windowsLeft a + (if w.a.prev.lines.isEmpty then 0 else 1) + (if w.a.curr.lines.isEmpty then 0 else 1) + (if w.a.next.lines.isEmpty then 0 else 1) = windowsLeft w.a := by
      rw [← h1]
      unfold windowsLeft
      dsimp only
      have : (Bucket.new fo (nextT w.a.period w.a.next.ts)).lines.isEmpty = true := rfl
      rw [this]
      cases w.a.prev.lines.isEmpty <;> cases w.a.curr.lines.isEmpty <;> cases w.a.next.lines.isEmpty <;> simp
    by_cases hp : w.a.prev.lines = []
    · have hbuf : buf = [] := by
        rw [← h2]; unfold Bucket.bytes; rw [hp, order_nil]; rfl
      have hpubs : w'.pubs = w.pubs := by
        rw [hbuf] at h
        injection h with h
        rw [← h]
      rw [ha]
      by_cases he : windowsLeft a = windowsLeft w.a
      · exact Or.inr ⟨he, hpubs⟩
      · exact Or.inl (by omega)
    · left
      rw [ha]
      rw [if_neg (by rw [List.isEmpty_iff]; exact hp)] at hlt
      omega

/-! ## Workers of writers -/

/-- The measure of the worker of a writer. -/
def workTodo (k : WSys) : Nat := 3 * (unsentBytes k).length + 2 * (transit k.phase k.ch).length + k.queue.length

theorem queueAdd_length {m ttl now : Int} {q q' : List RItem} {k : Nat} {buf : Bytes} {gone : Option RItem} (h : queueAdd m ttl now q k buf = (q', gone)) :
    q'.length ≤ q.length + 1 := by
  obtain ⟨q0, rfl, hs⟩ := queueAdd_sublist h
  have := hs.length_le
  simp
  omega

theorem finishRetry_length (c : WConf) (s : WSys) (r : Resp) : (s.finishRetry c r).queue.length ≤ s.queue.length := by
  have h1 : (dropFront s.queue).length ≤ s.queue.length := by cases s.queue <;> simp [dropFront]
  have h2 : (cycleFront s.queue).length ≤ s.queue.length := by cases s.queue <;> simp [cycleFront]
  unfold WSys.finishRetry
  cases writeError r with
  | none => exact h1
  | some e =>
    dsimp only
    unfold WSys.reportError
    cases isPermanentError (some e) <;> simp only [Bool.false_eq_true, if_false, if_true] <;> split <;> assumption

/-- If nothing but the queue changes. -/
theorem settles_queue {k k' : WSys} (h1 : unsentBytes k' = unsentBytes k) (h2 : transit k'.phase k'.ch = transit k.phase k.ch) (h3 : k'.queue.length ≤ k.queue.length)
    (h4 : firstData k'.hist = firstData k.hist := by simp [firstData]) :
    workTodo k' < workTodo k ∨ (workTodo k' = workTodo k ∧ workLeft k' = workLeft k ∧ firstData k'.hist = firstData k.hist) := by
  unfold workTodo workLeft
  rw [h1, h2]
  by_cases h : k'.queue.length = k.queue.length
  · right; rw [h]; exact ⟨rfl, rfl, h4⟩
  · left; omega

theorem worker_settles {c : WConf} (hc : 1 ≤ c.batchMaxSize) {k k' : WSys} (hr : WRun c k) (h : WStep c k k') (hm : received k'.hist = received k.hist) :
    workTodo k' < workTodo k ∨ (workTodo k' = workTodo k ∧ workLeft k' = workLeft k ∧ firstData k'.hist = firstData k.hist) := by
  cases h with
  | tick t ht => exact settles_queue rfl rfl (Nat.le_refl _)
  | stop => exact settles_queue rfl rfl (Nat.le_refl _)
  | recv w data b hp hb =>
    exfalso
    have hm : received (k.hist ++ [.recv data k.now]) = received k.hist := hm
    unfold received at hm
    rw [List.flatMap_append] at hm
    have := congrArg List.length hm
    simp at this
  | gotWrite w n hp hn => exact settles_queue (by simp [unsentBytes, hp]) (by simp [transit, hp]) (Nat.le_refl _)
  | gotError w n hp hn => exact settles_queue (by simp [unsentBytes, hp]) (by simp [transit, hp]) (Nat.le_refl _)
  | wake w hp hw => exact settles_queue (by simp [unsentBytes, hp]) (by simp [transit, hp]) (Nat.le_refl _)
  | quit w hp hs => exact settles_queue (by simp [unsentBytes, hp]) (by simp [transit, hp]) (Nat.le_refl _)
  | keep hp h => exact settles_queue (by simp [unsentBytes, hp]) (by simp [transit, hp]) (Nat.le_refl _)
  | flush chunks hp h hcs =>
    obtain ⟨cs, h1, h2, -⟩ := splitAll_spec k.batch.bytes c.batchMaxSize hc
    rw [h1] at hcs
    injection hcs with hcs
    subst hcs
    exact settles_queue (by simp [unsentBytes, hp, h2]) (by simp [transit, hp]) (Nat.le_refl _)
  | firstOk chunk rest r hp hr' =>
    have hne := ((hr.binv.sizes hc).2 chunk (by rw [hp]; simp [unsent])).1
    have := List.length_pos_iff.2 hne
    left
    simp [workTodo, unsentBytes, transit, hp]
    omega
  | firstFail chunk rest r e hp hr' =>
    have hne := ((hr.binv.sizes hc).2 chunk (by rw [hp]; simp [unsent])).1
    have := List.length_pos_iff.2 hne
    left
    by_cases hrb : c.retryBatches > 0 <;> simp [workTodo, unsentBytes, transit, hp, hrb] <;> omega
  | handoff i chunk rest hp hch => exact settles_queue (by simp [unsentBytes, hp]) (by simp [transit, hp, hch]) (Nat.le_refl _)
  | sent hp => exact settles_queue (by simp [unsentBytes, hp, Batch.reset, Batch.bytes]) (by simp [transit, hp]) (Nat.le_refl _)
  | arm hp => exact settles_queue rfl rfl (Nat.le_refl _)
  | input i buf q gone hp hch hq =>
    have := queueAdd_length hq
    left
    unfold workTodo transit
    rw [hch]
    simp only [Option.toList_some, Option.toList_none, List.length_append, List.length_singleton, List.length_nil]
    have hu : unsentBytes { k with rphase := .top, ch := none, queue := q, hist := k.hist ++ (gone.toList.map fun g => .evicted g.id k.now) ++ [.queued i k.now] } = unsentBytes k := rfl
    rw [hu]
    omega
  | fireEmpty d gone hp hd ht hf => exact settles_queue rfl rfl (Nat.zero_le _)
  | fire d gone b q hp hd ht hf =>
    obtain ⟨hq, -, -⟩ := queueFront_spec _ _ _ _ hf
    have hl : (b :: q).length ≤ k.queue.length := by rw [hq, List.length_append]; omega
    unfold WSys.reportWrite
    split
    · exact settles_queue rfl rfl hl
    · exact settles_queue rfl rfl hl
  | finish i r hp =>
    obtain ⟨f1, f2, f3, f4, f5, -⟩ := finishRetry_same c { k with rphase := .top, hist := k.hist ++ [.result i r k.now] } r
    refine settles_queue ?_ (by rw [f1, f5]) (finishRetry_length c _ r) (by rw [f2]; simp [firstData])
    unfold unsentBytes
    rw [f1, f3]
  | retryQuit hp hw => exact settles_queue rfl rfl (Nat.le_refl _)

/-! ## Groups -/

variable {W : Type u} {c c' : Group W}

theorem waiting_set {g : Nat} {x y : Member W} {subs : List Sub} {dead : List (Member W)} (hx : c.members[g]? = some x) (hs : subs.map (·.pending) = c.subs.map (·.pending))
    (ht : y.queue.todo = x.queue.todo) (hj : y.queue.jobs = x.queue.jobs) : Group.waiting ⟨subs, c.members.set g y, dead⟩ = c.waiting := by
  unfold Group.waiting
  dsimp only
  rw [hs, map_set_same y (fun x : Member W => (x.queue.todo, x.queue.jobs)) hx (by rw [ht, hj])]

theorem weight_set {g : Nat} {x y : Member W} {dead : List (Member W)} (hx : c.members[g]? = some x) :
    Group.weight ⟨c.subs, c.members.set g y, dead⟩ + queueWeight x.queue = c.weight + queueWeight y.queue := by
  have := sum_set (fun x : Member W => queueWeight x.queue) y hx
  unfold Group.weight
  dsimp only at this ⊢
  omega

theorem count_set {g : Nat} {x y : Member W} {subs : List Sub} {dead : List (Member W)} {f : W → Nat} (hx : c.members[g]? = some x) :
    Group.count ⟨subs, c.members.set g y, dead⟩ f + (x.workers.map f).sum = c.count f + (y.workers.map f).sum := by
  have := sum_set (fun x : Member W => (x.workers.map f).sum) y hx
  unfold Group.count
  dsimp only at this ⊢
  omega

theorem Group.step_settles (h : Group.Step c c') : c'.weight < c.weight ∨ (c'.weight = c.weight ∧ c'.waiting = c.waiting) := by
  cases h with
  | deliver g i x s pre post m as ms hx hs hp ha ht =>
    left
    have h1 := sum_set (fun s : Sub => s.pending.length) { s with pending := pre ++ post } hs
    have h2 := sum_set (fun x : Member W => queueWeight x.queue)
      { x with queue := { x.queue with arrived := x.queue.arrived.set i (as ++ [m]), todo := x.queue.todo.set i (ms ++ [m]) } } hx
    have h3 := sum_set List.length (ms ++ [m]) ht
    unfold Group.weight
    dsimp only [queueWeight] at h1 h2 h3 ⊢
    rw [hp] at h1
    simp only [List.length_append, List.length_cons, List.length_nil] at h1 h3
    omega
  | drop i s pre post m hs hp =>
    left
    have h1 := sum_set (fun s : Sub => s.pending.length) { s with pending := pre ++ post, lost := s.lost ++ [m] } hs
    unfold Group.weight
    dsimp only at h1 ⊢
    rw [hp] at h1
    simp only [List.length_append, List.length_cons] at h1
    omega
  | queue g x q hx hst ha hg =>
    have hw := weight_set (c := c) (y := { x with queue := q }) (dead := c.dead) hx
    cases hst with
    | arrive i as ms m ha' h =>
      exfalso
      dsimp only at ha
      have := congrArg (fun l => l[i]?) ha
      rw [List.getElem?_set_self (List.getElem?_eq_some_iff.1 ha').1, ha'] at this
      injection this with this
      have := congrArg List.length this
      simp at this
    | push i m ms h hc =>
      left
      have h3 := sum_set List.length ms h
      rw [List.length_cons] at h3
      dsimp only [queueWeight] at hw
      rw [List.length_append, List.length_singleton] at hw
      omega
    | pop w m ms l hl hj hg' =>
      exfalso
      dsimp only at hg
      have := congrArg (fun l => l[w]?) hg
      rw [List.getElem?_set_self (List.getElem?_eq_some_iff.1 hg').1, hg'] at this
      injection this with this
      have := congrArg List.length this
      simp at this
    | close h => exact Or.inr ⟨by dsimp only [queueWeight] at hw; omega, waiting_set hx rfl rfl rfl⟩
    | quit w hl hs => exact Or.inr ⟨by dsimp only [queueWeight] at hw; omega, waiting_set hx rfl rfl rfl⟩

theorem Group.step_count {f : W → Nat} (h : Group.Step c c') : c'.count f = c.count f := by
  cases h with
  | deliver g i x s pre post m as ms hx hs hp ha ht =>
    have := count_set (c := c) (f := f) (subs := c.subs.set i { s with pending := pre ++ post }) (dead := c.dead)
      (y := { x with queue := { x.queue with arrived := x.queue.arrived.set i (as ++ [m]), todo := x.queue.todo.set i (ms ++ [m]) } }) hx
    dsimp only at this ⊢
    omega
  | drop => rfl
  | queue g x q hx hst ha hg =>
    have := count_set (c := c) (f := f) (subs := c.subs) (dead := c.dead) (y := { x with queue := q }) hx
    dsimp only at this ⊢
    omega

theorem Group.Take.settles {m : Bytes} {a b : W} (h : c.Take m a b c') : c'.weight < c.weight ∧ ∀ f, c'.count f + f a = c.count f + f b := by
  cases h with
  | mk g w x ms l hx ha hl hj hg =>
    refine ⟨?_, ?_⟩
    · have := weight_set (c := c) (y := ⟨{ x.queue with jobs := ms, got := x.queue.got.set w (l ++ [m]) }, x.workers.set w b⟩) (dead := c.dead) hx
      refine Nat.lt_of_add_lt_add_right (Nat.lt_of_le_of_lt (Nat.le_of_eq this) ?_)
      dsimp only [queueWeight]
      rw [hj, List.length_cons]
      omega
    · intro f
      have h1 := sum_set f b ha
      have h2 := count_set (c := c) (f := f) (subs := c.subs) (dead := c.dead) (y := ⟨{ x.queue with jobs := ms, got := x.queue.got.set w (l ++ [m]) }, x.workers.set w b⟩) hx
      dsimp only at h2 ⊢
      omega

theorem Group.Work.settles {a b : W} (h : c.Work a b c') : c'.weight = c.weight ∧ c'.waiting = c.waiting ∧ (∀ f, c'.count f + f a = c.count f + f b) ∧
    ∀ {β : Type} (f : W → β), f b = f a → c'.live.map f = c.live.map f := by
  cases h with
  | mk g w x hx ha =>
    refine ⟨?_, waiting_set hx rfl rfl rfl, ?_, ?_⟩
    · have := weight_set (c := c) (y := { x with workers := x.workers.set w b }) (dead := c.dead) hx
      dsimp only at this
      omega
    · intro f
      have h1 := sum_set f b ha
      have h2 := count_set (c := c) (f := f) (subs := c.subs) (dead := c.dead) (y := { x with workers := x.workers.set w b }) hx
      dsimp only at h2
      omega
    · intro β f hf
      unfold Group.live
      rw [List.map_flatMap, List.map_flatMap]
      exact flatMap_set_same _ (fun x : Member W => x.workers.map f) hx (map_set_same b f ha hf)

end Spout.Deploy
