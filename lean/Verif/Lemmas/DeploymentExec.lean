import Verif.Model.Deployment
import Verif.Lemmas.WriterExec
import Verif.Props.DownsamplerBucket

/-! # An executor for deployments, for concrete examples

`dAct` makes one step of a deployment chosen by a `DAct`; `dAct_sound` proves that it is a step of the model. -/

namespace Spout.Deploy
open Spout Spout.Listener Spout.Pool Spout.Spec

universe u

/-- A choice of the environment. -/
inductive DAct where
  /-- a UDP listener makes an iteration -/
  | udp (i : Nat) (e : UDPEvent)
  /-- a request to an HTTP listener begins -/
  | request (i : Nat) (q : HTTPReq)
  /-- a step of a request -/
  | http (i j : Nat)
  /-- the sender of old batches wakes up -/
  | wake (i : Nat) (t t2 : Int) (fail : Nat → Bool)
  /-- NATS passes the `n`-th message pending for subscription `i` to process `g` -/
  | filterDeliver (g i n : Nat)
  | filterPush (g i : Nat)
  | filterTake (g w : Nat)
  | filterDo (g w : Nat) (now : Int) (fail : Nat → Bool)
  | downDeliver (j g i n : Nat)
  | downPush (j g i : Nat)
  | downTake (j g w : Nat) (clk : Nat → Int) (now : Int) (fail : Nat → Bool)
  | downTimeout (j g w : Nat) (now : Int) (fail : Nat → Bool)
  | writerDeliver (j g i n : Nat)
  | writerPush (j g i : Nat)
  | writerTake (j g w : Nat)
  | writer (j g w : Nat) (a : WAct)
  /-- NATS drops a message for writer `j` -/
  | writerDrop (j i n : Nat)

/-- The result of a panic-free computation. -/
def ofGo {α : Type u} : Go α → Option α
  | .ok a => some a
  | .panic => none

theorem ofGo_some {α : Type u} {g : Go α} {a : α} (h : ofGo g = some a) : g = .ok a := by
  cases g with
  | ok b => injection h with h; rw [h]
  | panic => cases h

/-- NATS passes a message on. -/
def Group.doDeliver {W : Type u} (c : Group W) (g i n : Nat) : Option (Group W) :=
  c.members[g]?.bind fun x => c.subs[i]?.bind fun s => s.pending[n]?.bind fun m => x.queue.arrived[i]?.bind fun as => x.queue.todo[i]?.bind fun ms =>
    some { c with subs := c.subs.set i { s with pending := s.pending.take n ++ s.pending.drop (n + 1) }, members := c.members.set g { x with queue :=
        { x.queue with arrived := x.queue.arrived.set i (as ++ [m]), todo := x.queue.todo.set i (ms ++ [m]) } } }

/-- NATS drops a message. -/
def Group.doDrop {W : Type u} (c : Group W) (i n : Nat) : Option (Group W) :=
  c.subs[i]?.bind fun s => s.pending[n]?.bind fun m =>
    some { c with subs := c.subs.set i { s with pending := s.pending.take n ++ s.pending.drop (n + 1), lost := s.lost ++ [m] } }

/-- A message enters the queue. -/
def Group.doPush {W : Type u} (c : Group W) (g i : Nat) : Option (Group W) :=
  c.members[g]?.bind fun x => match x.queue.todo[i]? with
    | some (m :: ms) => if x.queue.jobs.length < capacity then
        some { c with members := c.members.set g { x with queue := { x.queue with todo := x.queue.todo.set i ms, jobs := x.queue.jobs ++ [m] } } } else none
    | _ => none

/-- A worker receives a message. -/
def Group.doTake {W : Type u} (c : Group W) (g w : Nat) (f : W → Bytes → Option W) : Option (W × Bytes × W × Group W) :=
  c.members[g]?.bind fun x => x.workers[w]?.bind fun a => x.queue.got[w]?.bind fun l => match x.queue.jobs with
    | m :: ms => if x.queue.live[w]? = some true then (f a m).bind fun b =>
        some (a, m, b, { c with members := (c.members.set g ⟨{ x.queue with jobs := ms, got := x.queue.got.set w (l ++ [m]) }, x.workers.set w b⟩) }) else none
    | [] => none

/-- A worker makes a step of its own. -/
def Group.doWork {W : Type u} (c : Group W) (g w : Nat) (f : W → Option W) : Option (W × W × Group W) :=
  c.members[g]?.bind fun x => x.workers[w]?.bind fun a => (f a).bind fun b =>
    some (a, b, { c with members := c.members.set g { x with workers := x.workers.set w b } })

theorem split_at {α : Type u} {l : List α} {n : Nat} {m : α} (h : l[n]? = some m) : l = l.take n ++ m :: l.drop (n + 1) := by
  obtain ⟨h1, h2⟩ := List.getElem?_eq_some_iff.1 h
  subst h2
  rw [← List.drop_eq_getElem_cons h1, List.take_append_drop]

theorem Group.doDeliver_sound {W : Type u} {c c' : Group W} {g i n : Nat} (h : c.doDeliver g i n = some c') : Group.Step c c' := by
  unfold Group.doDeliver at h
  simp only [Option.bind_eq_some_iff] at h
  obtain ⟨x, hx, s, hs, m, hm, as, ha, ms, ht, h⟩ := h
  injection h with h
  subst h
  exact .deliver c g i x s _ _ m as ms hx hs (split_at hm) ha ht

theorem Group.doDrop_sound {W : Type u} {c c' : Group W} {i n : Nat} (h : c.doDrop i n = some c') : Group.Step c c' := by
  unfold Group.doDrop at h
  simp only [Option.bind_eq_some_iff] at h
  obtain ⟨s, hs, m, hm, h⟩ := h
  injection h with h
  subst h
  exact .drop c i s _ _ m hs (split_at hm)

theorem Group.doPush_sound {W : Type u} {c c' : Group W} {g i : Nat} (h : c.doPush g i = some c') : Group.Step c c' := by
  unfold Group.doPush at h
  simp only [Option.bind_eq_some_iff] at h
  obtain ⟨x, hx, h⟩ := h
  split at h
  · rename_i m ms ht
    split at h
    · rename_i hc
      injection h with h
      subst h
      exact .queue c g x _ hx (.push x.queue i m ms ht hc) rfl rfl
    · cases h
  · cases h

theorem Group.doTake_sound {W : Type u} {c c' : Group W} {g w : Nat} {f : W → Bytes → Option W} {a b : W} {m : Bytes} (h : c.doTake g w f = some (a, m, b, c')) :
    f a m = some b ∧ c.Take m a b c' := by
  unfold Group.doTake at h
  simp only [Option.bind_eq_some_iff] at h
  obtain ⟨x, hx, a', ha, l, hg, h⟩ := h
  split at h
  · rename_i m' ms hj
    split at h
    · rename_i hl
      simp only [Option.bind_eq_some_iff] at h
      obtain ⟨b', hb, h⟩ := h
      simp only [Option.some.injEq, Prod.mk.injEq] at h
      obtain ⟨rfl, rfl, rfl, rfl⟩ := h
      exact ⟨hb, .mk g w x ms l hx ha hl hj hg⟩
    · cases h
  · cases h

theorem Group.doWork_sound {W : Type u} {c c' : Group W} {g w : Nat} {f : W → Option W} {a b : W} (h : c.doWork g w f = some (a, b, c')) : f a = some b ∧ c.Work a b c' := by
  unfold Group.doWork at h
  simp only [Option.bind_eq_some_iff] at h
  obtain ⟨x, hx, a', ha, b', hb, h⟩ := h
  simp only [Option.some.injEq, Prod.mk.injEq] at h
  obtain ⟨rfl, rfl, rfl⟩ := h
  exact ⟨hb, .mk g w x hx ha⟩

variable {d : Setup}

/-- The filter worker after its message. -/
def FComp.process (d : Setup) (f : FComp) (now : Int) (fail : Nat → Bool) : Option FComp :=
  f.working.bind fun m => (ofGo (f.w.processBatch d.S f.st now fail m)).bind fun r =>
    some ⟨r.1, r.2.1, none, f.past ++ [⟨now, fail, m⟩], f.pubss ++ [r.2.2]⟩

/-- One step. -/
def dAct (s : State d) : DAct → Option (State d)
  | .udp i e => match s.listeners[i]? with
    | some (.udp l got) => if e.data.length ≤ 65507 then (ofGo (l.udpStep e)).bind fun l' =>
        some (({ s with listeners := s.listeners.set i (.udp l' (got ++ [e])) } : State d).publish (outOn d.lsub (l'.pubs.drop l.pubs.length))) else none
    | _ => none
  | .request i q => match s.listeners[i]? with
    | some (.http l reqs wakeups order) => (ofGo (requestSteps q)).bind fun steps =>
        some { s with listeners := s.listeners.set i (.http l (reqs ++ [⟨q, [], steps⟩]) wakeups order) }
    | _ => none
  | .http i j => match s.listeners[i]? with
    | some (.http l reqs wakeups order) => match reqs[j]? with
      | some ⟨q, done, e :: todo⟩ => (ofGo (l.httpStep e)).bind fun l' =>
          some (({ s with listeners := s.listeners.set i (.http l' (reqs.set j ⟨q, done ++ [e], todo⟩) wakeups (order ++ [e])) } : State d).publish
            (outOn d.lsub (l'.pubs.drop l.pubs.length)))
      | _ => none
    | _ => none
  | .wake i t t2 fail => match s.listeners[i]? with
    | some (.http l reqs wakeups order) => (ofGo (l.httpStep (.oldBatch t fail t2))).bind fun l' =>
        some (({ s with listeners := s.listeners.set i (.http l' reqs (wakeups ++ [.oldBatch t fail t2]) (order ++ [.oldBatch t fail t2])) } : State d).publish
          (outOn d.lsub (l'.pubs.drop l.pubs.length)))
    | _ => none
  | .filterDeliver g i n => (s.filters.doDeliver g i n).bind fun c => some { s with filters := c }
  | .filterPush g i => (s.filters.doPush g i).bind fun c => some { s with filters := c }
  | .filterTake g w => (s.filters.doTake g w fun f m => if f.working = none then some { f with working := some m } else none).bind fun r => some { s with filters := r.2.2.2 }
  | .filterDo g w now fail => (s.filters.doWork g w fun f => f.process d now fail).bind fun r =>
      some (({ s with filters := r.2.2 } : State d).publish (outF (r.2.1.pubss.getLast?.getD [])))
  | .downDeliver j g i n => s.downs[j]?.bind fun x => (x.inp.doDeliver g i n).bind fun c => some { s with downs := s.downs.set j { x with inp := c } }
  | .downPush j g i => s.downs[j]?.bind fun x => (x.inp.doPush g i).bind fun c => some { s with downs := s.downs.set j { x with inp := c } }
  | .downTake j g w clk now fail => s.downs[j]?.bind fun x =>
      (x.inp.doTake g w fun k m => (ofGo (k.w.step d.S ⟨.msg m clk, now, idOrder, fail⟩)).bind fun w' => some ⟨w', k.evs ++ [⟨.msg m clk, now, idOrder, fail⟩]⟩).bind fun r =>
        some (({ s with downs := s.downs.set j { x with inp := r.2.2.2 } } : State d).publish (outOn x.out (r.2.2.1.w.pubs.drop r.1.w.pubs.length)))
  | .downTimeout j g w now fail => s.downs[j]?.bind fun x =>
      (x.inp.doWork g w fun k => (ofGo (k.w.step d.S ⟨.timeout, now, idOrder, fail⟩)).bind fun w' => some ⟨w', k.evs ++ [⟨.timeout, now, idOrder, fail⟩]⟩).bind fun r =>
        some (({ s with downs := s.downs.set j { x with inp := r.2.2 } } : State d).publish (outOn x.out (r.2.1.w.pubs.drop r.1.w.pubs.length)))
  | .writerDeliver j g i n => s.writers[j]?.bind fun x => (x.inp.doDeliver g i n).bind fun c => some { s with writers := s.writers.set j { x with inp := c } }
  | .writerDrop j i n => s.writers[j]?.bind fun x => (x.inp.doDrop i n).bind fun c => some { s with writers := s.writers.set j { x with inp := c } }
  | .writerPush j g i => s.writers[j]?.bind fun x => (x.inp.doPush g i).bind fun c => some { s with writers := s.writers.set j { x with inp := c } }
  | .writerTake j g w => s.writers[j]?.bind fun x =>
      (x.inp.doTake g w fun k m => (wAct x.conf k (.recv m)).bind fun k' => if k'.hist = k.hist ++ [.recv m k.now] then some k' else none).bind fun r =>
        some { s with writers := s.writers.set j { x with inp := r.2.2.2 } }
  | .writer j g w a => s.writers[j]?.bind fun x =>
      (x.inp.doWork g w fun k => (wAct x.conf k a).bind fun k' => if received k'.hist = received k.hist then some k' else none).bind fun r =>
        some { s with writers := s.writers.set j { x with inp := r.2.2 } }

theorem dAct_sound {s s' : State d} {a : DAct} (h : dAct s a = some s') : Step d s s' := by
  cases a with
  | udp i e =>
    simp only [dAct] at h
    split at h
    · rename_i l got hl
      split at h
      · rename_i hlen
        simp only [Option.bind_eq_some_iff] at h
        obtain ⟨l', hr, h⟩ := h
        injection h with h
        subst h
        exact .udp s i l l' got e hl hlen (ofGo_some hr)
      · cases h
    · cases h
  | request i q =>
    simp only [dAct] at h
    split at h
    · rename_i l reqs wakeups order hl
      simp only [Option.bind_eq_some_iff] at h
      obtain ⟨steps, hr, h⟩ := h
      injection h with h
      subst h
      exact .request s i l reqs wakeups order steps q hl (ofGo_some hr)
    · cases h
  | http i j =>
    simp only [dAct] at h
    split at h
    · rename_i l reqs wakeups order hl
      split at h
      · rename_i q done e todo hj
        simp only [Option.bind_eq_some_iff] at h
        obtain ⟨l', hr, h⟩ := h
        injection h with h
        subst h
        exact .http s i j l l' reqs wakeups order todo ⟨q, done, e :: todo⟩ e hl hj rfl (ofGo_some hr)
      · cases h
    · cases h
  | wake i t t2 fail =>
    simp only [dAct] at h
    split at h
    · rename_i l reqs wakeups order hl
      simp only [Option.bind_eq_some_iff] at h
      obtain ⟨l', hr, h⟩ := h
      injection h with h
      subst h
      exact .wake s i l l' reqs wakeups order t t2 fail hl (ofGo_some hr)
    · cases h
  | filterDeliver g i n =>
    simp only [dAct, Option.bind_eq_some_iff] at h
    obtain ⟨c, hc, h⟩ := h
    injection h with h
    subst h
    exact .filterIn s c (Group.doDeliver_sound hc)
  | filterPush g i =>
    simp only [dAct, Option.bind_eq_some_iff] at h
    obtain ⟨c, hc, h⟩ := h
    injection h with h
    subst h
    exact .filterIn s c (Group.doPush_sound hc)
  | filterTake g w =>
    simp only [dAct, Option.bind_eq_some_iff] at h
    obtain ⟨⟨f, m, f', c⟩, hc, h⟩ := h
    injection h with h
    subst h
    obtain ⟨h1, h2⟩ := Group.doTake_sound hc
    split at h1
    · rename_i hw
      injection h1 with h1
      subst h1
      exact .filterTake s f m c hw h2
    · cases h1
  | filterDo g w now fail =>
    simp only [dAct, Option.bind_eq_some_iff] at h
    obtain ⟨⟨f, f', c⟩, hc, h⟩ := h
    injection h with h
    subst h
    obtain ⟨h1, h2⟩ := Group.doWork_sound hc
    simp only [FComp.process, Option.bind_eq_some_iff] at h1
    obtain ⟨m, hm, ⟨w', st', pubs⟩, hr, h1⟩ := h1
    injection h1 with h1
    subst h1
    have := Step.filterDo s f m now fail w' st' pubs c hm (ofGo_some hr) h2
    simpa using this
  | downDeliver j g i n =>
    simp only [dAct, Option.bind_eq_some_iff] at h
    obtain ⟨x, hx, c, hc, h⟩ := h
    injection h with h
    subst h
    exact .downIn s j x c hx (Group.doDeliver_sound hc)
  | downPush j g i =>
    simp only [dAct, Option.bind_eq_some_iff] at h
    obtain ⟨x, hx, c, hc, h⟩ := h
    injection h with h
    subst h
    exact .downIn s j x c hx (Group.doPush_sound hc)
  | downTake j g w clk now fail =>
    simp only [dAct, Option.bind_eq_some_iff] at h
    obtain ⟨x, hx, ⟨k, m, k', c⟩, hc, h⟩ := h
    injection h with h
    subst h
    obtain ⟨h1, h2⟩ := Group.doTake_sound hc
    simp only [Option.bind_eq_some_iff] at h1
    obtain ⟨w', hr, h1⟩ := h1
    injection h1 with h1
    subst h1
    exact .downTake s j x m c clk now idOrder fail k w' hx (ofGo_some hr) h2
  | downTimeout j g w now fail =>
    simp only [dAct, Option.bind_eq_some_iff] at h
    obtain ⟨x, hx, ⟨k, k', c⟩, hc, h⟩ := h
    injection h with h
    subst h
    obtain ⟨h1, h2⟩ := Group.doWork_sound hc
    simp only [Option.bind_eq_some_iff] at h1
    obtain ⟨w', hr, h1⟩ := h1
    injection h1 with h1
    subst h1
    exact .downTimeout s j x c now idOrder fail k w' hx (ofGo_some hr) h2
  | writerDeliver j g i n =>
    simp only [dAct, Option.bind_eq_some_iff] at h
    obtain ⟨x, hx, c, hc, h⟩ := h
    injection h with h
    subst h
    exact .writerIn s j x c hx (Group.doDeliver_sound hc)
  | writerDrop j i n =>
    simp only [dAct, Option.bind_eq_some_iff] at h
    obtain ⟨x, hx, c, hc, h⟩ := h
    injection h with h
    subst h
    exact .writerIn s j x c hx (Group.doDrop_sound hc)
  | writerPush j g i =>
    simp only [dAct, Option.bind_eq_some_iff] at h
    obtain ⟨x, hx, c, hc, h⟩ := h
    injection h with h
    subst h
    exact .writerIn s j x c hx (Group.doPush_sound hc)
  | writerTake j g w =>
    simp only [dAct, Option.bind_eq_some_iff] at h
    obtain ⟨x, hx, ⟨k, m, k', c⟩, hc, h⟩ := h
    injection h with h
    subst h
    obtain ⟨h1, h2⟩ := Group.doTake_sound hc
    simp only [Option.bind_eq_some_iff] at h1
    obtain ⟨k'', hr, h1⟩ := h1
    split at h1
    · rename_i hh
      injection h1 with h1
      subst h1
      exact .writerTake s j x m c k k'' hx (wAct_sound hr) hh h2
    · cases h1
  | writer j g w a =>
    simp only [dAct, Option.bind_eq_some_iff] at h
    obtain ⟨x, hx, ⟨k, k', c⟩, hc, h⟩ := h
    injection h with h
    subst h
    obtain ⟨h1, h2⟩ := Group.doWork_sound hc
    simp only [Option.bind_eq_some_iff] at h1
    obtain ⟨k'', hr, h1⟩ := h1
    split at h1
    · rename_i hh
      injection h1 with h1
      subst h1
      exact .writer s j x c k k'' hx (wAct_sound hr) hh h2
    · cases h1

/-- A schedule. -/
def dActs (s : State d) : List DAct → Option (State d)
  | [] => some s
  | a :: as => (dAct s a).bind fun s => dActs s as

theorem dActs_sound {s0 s s' : State d} {as : List DAct} (h0 : Run d s0 s) (h : dActs s as = some s') : Run d s0 s' := by
  induction as generalizing s with
  | nil => simp only [dActs] at h; injection h with h; subst h; exact h0
  | cons a as ih =>
    simp only [dActs] at h
    cases ha : dAct s a with
    | none => rw [ha] at h; cases h
    | some s1 => rw [ha] at h; exact ih (h0.step (dAct_sound ha)) h

end Spout.Deploy
