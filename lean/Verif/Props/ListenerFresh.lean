import Verif.Props.ListenerAge
import Verif.Props.ListenerLines
import Verif.Props.Freshness

/-! # C125: how long a line sent over HTTP takes to InfluxDB -/

set_option linter.unusedSimpArgs false

namespace Spout
open Listener

theorem tr_trans {D : Int} {a b c : Timed} (h1 : TReach D a b) (h2 : TReach D b c) : TReach D a c := by
  induction h2 with
  | refl => exact h1
  | step _ hs ih => exact .step ih hs

/-- A step adds to the batch, or sends all of it and takes no time. -/
def KeepOrSend (a b : Timed) : Prop :=
  (b.l.pubs = a.l.pubs ∧ ∃ x, b.l.batch.buf = a.l.batch.buf ++ x ∧ (0 < a.l.batch.writes → b.l.batch.created = a.l.batch.created)) ∨
  (b.now = a.now ∧ b.l.batch.buf = [] ∧ ∃ ps, b.l.pubs = a.l.pubs ++ ps ∧ (ps.map (·.data)).flatten = a.l.batch.buf)

theorem send_keep {l l' : Listener} {fail : Nat → Bool} {t : Int} (h : l.sendBatch fail t = .ok l') :
    l' = l ∨ (l'.batch.buf = [] ∧ ∃ ps, l'.pubs = l.pubs ++ ps ∧ (ps.map (·.data)).flatten = l.batch.buf) := by
  unfold Listener.sendBatch at h
  split at h
  · injection h with h
    exact Or.inl h.symm
  · right
    obtain ⟨cs, c1, c2, -⟩ := splitAll_spec l.batch.bytes maxNATSMsgSize (by decide)
    rw [c1, Go.ok_bind] at h
    injection h with h
    subst h
    refine ⟨rfl, _, rfl, ?_⟩
    rw [List.map_map]
    show (cs.zipIdx.map fun x => x.1).flatten = _
    rw [List.zipIdx_map_fst 0 cs, c2]
    rfl

theorem t_step {D : Int} {a b : Timed} (h : TInv D a) (hs : TStep D a b) : KeepOrSend a b := by
  cases hs with
  | tick t ht hd => exact Or.inl ⟨rfl, [], by simp, fun _ => rfl⟩
  | body r l' h' =>
    left
    obtain ⟨c, -, -, h3⟩ := Batch.readLoop_spec a.now r.steps a.l.batch r 0 h.inv.wf (Nat.le_refl _)
    rw [show a.l.httpStep (.body r a.now) = (Batch.readLoop a.now r.steps a.l.batch r 0 >>= fun x =>
      .ok { a.l with batch := x.1 }) from rfl, h3] at h'
    by_cases hr : r.pieces.flatten ++ r.last = []
    · rw [if_pos (by rw [hr]; rfl), Go.ok_bind] at h'
      injection h' with h'
      subst h'
      exact ⟨rfl, [], by simp, fun _ => rfl⟩
    · have hlen := List.length_pos_iff.2 hr
      rw [if_neg (by omega), Go.ok_bind] at h'
      injection h' with h'
      subst h'
      refine ⟨rfl, r.pieces.flatten ++ r.last, rfl, ?_⟩
      intro hw
      show (if _ then _ else _) = _
      rw [if_neg (by omega)]
  | line d l' hne h' =>
    left
    obtain ⟨c, h3, -⟩ := Batch.append_spec a.l.batch h.inv.wf d a.now
    rw [show a.l.httpStep (.line d a.now) = (a.l.batch.append d a.now >>= fun b => .ok { a.l with batch := b }) from rfl, h3] at h'
    rw [Go.ok_bind] at h'
    injection h' with h'
    subst h'
    refine ⟨rfl, d, rfl, ?_⟩
    intro hw
    simp only
    rw [if_neg (by omega)]
  | maybeSend fail l' h' =>
    rw [show a.l.httpStep (.maybeSend a.now fail a.now) =
      ({ a.l with stats := { a.l.stats with received := a.l.stats.received + 1 } } : Listener).maybeSendBatch a.now fail a.now from rfl] at h'
    unfold Listener.maybeSendBatch at h'
    split at h'
    · rcases send_keep h' with e | ⟨e1, e2⟩
      · rw [e]; exact Or.inl ⟨rfl, [], by simp, fun _ => rfl⟩
      · exact Or.inr ⟨rfl, e1, e2⟩
    · injection h' with h'
      subst h'
      exact Or.inl ⟨rfl, [], by simp, fun _ => rfl⟩
  | readErr l' h' =>
    injection h' with h'
    subst h'
    exact Or.inl ⟨rfl, [], by simp, fun _ => rfl⟩
  | arm f hp => exact Or.inl ⟨rfl, [], by simp, fun _ => rfl⟩
  | fire d fail l' hp hd h' =>
    rw [show a.l.httpStep (.oldBatch a.now fail a.now) =
      if a.l.batch.age a.now ≥ a.l.conf.batchMaxAge then a.l.sendBatch fail a.now else .ok a.l from rfl] at h'
    split at h'
    · rcases send_keep h' with e | ⟨e1, e2⟩
      · rw [e]; exact Or.inl ⟨rfl, [], by simp, fun _ => rfl⟩
      · exact Or.inr ⟨rfl, e1, e2⟩
    · injection h' with h'
      subst h'
      exact Or.inl ⟨rfl, [], by simp, fun _ => rfl⟩

theorem counted_pos {D : Int} {s : Timed} (h : TInv D s) (hne : s.l.batch.buf ≠ []) : 0 < s.l.batch.writes := by
  rcases Nat.eq_zero_or_pos s.l.batch.writes with hw | hw
  · exact absurd (h.counted.1 hw) hne
  · exact hw

theorem t_pubs {D : Int} (hD : 0 ≤ D) {c : LConf} (hA : 0 ≤ c.batchMaxAge) {t0 : Int} {a b : Timed} (ha : TReach D (timedStart c t0) a) (h : TReach D a b) : a.l.pubs <+: b.l.pubs := by
  induction h with
  | refl => exact List.prefix_refl _
  | step h hs ih =>
    refine ih.trans ?_
    rcases t_step (tinv_reach hD hA (tr_trans ha h)).1 hs with ⟨e, -⟩ | ⟨-, -, ps, e, -⟩
    · rw [e]; exact List.prefix_refl _
    · rw [e]; exact List.prefix_append _ _

/-- A run of the HTTP listener: the states it is in, one after the other. `D` bounds the delay of the goroutine that sends old batches. -/
structure HRun (D : Int) (c : LConf) (t0 : Int) (tr : List Timed) : Prop where
  start : tr[0]? = some (timedStart c t0)
  steps : ∀ (i : Nat) (a b : Timed), tr[i]? = some a → tr[i + 1]? = some b → TStep D a b

theorem hr_between {D : Int} {c : LConf} {t0 : Int} {tr : List Timed} (R : HRun D c t0 tr) {i : Nat} {a : Timed} (ha : tr[i]? = some a) :
    ∀ (n : Nat) (b : Timed), tr[i + n]? = some b → TReach D a b := by
  intro n
  induction n with
  | zero =>
    intro b hb
    have : a = b := by simpa [ha] using hb
    subst this
    exact .refl _
  | succ n ih =>
    intro b hb
    have hlt : i + n + 1 < tr.length := (List.getElem?_eq_some_iff.1 hb).1
    exact .step (ih (tr[i + n]'(by omega)) (List.getElem?_eq_getElem (by omega))) (R.steps (i + n) _ b (List.getElem?_eq_getElem (by omega)) hb)

theorem hr_le {D : Int} {c : LConf} {t0 : Int} {tr : List Timed} (R : HRun D c t0 tr) {i j : Nat} {a b : Timed} (ha : tr[i]? = some a) (hb : tr[j]? = some b) (hij : i ≤ j) : TReach D a b := by
  obtain ⟨n, rfl⟩ : ∃ n, j = i + n := ⟨j - i, by omega⟩
  exact hr_between R ha n b hb

theorem hr_reach {D : Int} {c : LConf} {t0 : Int} {tr : List Timed} (R : HRun D c t0 tr) {i : Nat} {a : Timed} (ha : tr[i]? = some a) : TReach D (timedStart c t0) a :=
  hr_le R R.start ha (Nat.zero_le _)

/-- What is batched is sent, or still waits and is not older than the batch was. -/
theorem t_path {D : Int} (hD : 0 ≤ D) {c : LConf} (hA : 0 ≤ c.batchMaxAge) {t0 : Int} {tr : List Timed} (R : HRun D c t0 tr) {i : Nat} {a : Timed} (ha : tr[i]? = some a) (hne : a.l.batch.buf ≠ []) :
    ∀ (n : Nat) (b : Timed), tr[i + n]? = some b →
    (∃ k m, i ≤ k ∧ k ≤ i + n ∧ tr[k]? = some m ∧ m.now ≤ a.now + c.batchMaxAge + 2 * D ∧ ∃ ps, m.l.pubs = a.l.pubs ++ ps ∧ a.l.batch.buf <+: (ps.map (·.data)).flatten) ∨
    (b.l.pubs = a.l.pubs ∧ a.l.batch.buf <+: b.l.batch.buf ∧ b.l.batch.created = a.l.batch.created) := by
  intro n
  induction n with
  | zero =>
    intro b hb
    have : a = b := by simpa [ha] using hb
    subst this
    exact Or.inr ⟨rfl, List.prefix_refl _, rfl⟩
  | succ n ih =>
    intro b hb
    have hlt : i + n + 1 < tr.length := (List.getElem?_eq_some_iff.1 hb).1
    obtain ⟨b', hb'⟩ : ∃ b', tr[i + n]? = some b' := ⟨_, List.getElem?_eq_getElem (by omega)⟩
    have hs : TStep D b' b := R.steps (i + n) _ b hb' hb
    rcases ih b' hb' with ⟨k, m, m0, m1, m2⟩ | ⟨e1, e2, e3⟩
    · exact Or.inl ⟨k, m, m0, by omega, m2⟩
    · have hne' : b'.l.batch.buf ≠ [] := by
        intro h0
        rw [h0] at e2
        exact hne (List.prefix_nil.1 e2)
      have I := (tinv_reach hD hA (hr_reach R hb')).1
      rcases t_step I hs with ⟨k1, x, k2, k3⟩ | ⟨k1, k2, ps, k3, k4⟩
      · right
        refine ⟨k1.trans e1, ?_, (k3 (counted_pos I hne')).trans e3⟩
        rw [k2]
        exact e2.trans (List.prefix_append _ _)
      · left
        refine ⟨i + (n + 1), b, by omega, by omega, hb, ?_, ps, by rw [k3, e1], by rw [k4]; exact e2⟩
        have h1 := C52_age_bound_partial D hD c hA t0 b' (hr_reach R hb') hne'
        have h2 := (tinv_reach hD hA (hr_reach R ha)).1.past (counted_pos (tinv_reach hD hA (hr_reach R ha)).1 hne)
        unfold Batch.age at h1
        rw [if_neg (by have := counted_pos I hne'; omega)] at h1
        omega

/-- **C125 (listener).** If the goroutine that sends old batches is never delayed by more than `D`, whatever requests come: everything that is in the batch of the HTTP listener at a time `t` has been published, whole and in order, by `t + batch_max_age + 2 * D`: there is
a state of the run, between the two, in which the clock shows no more than that and the messages have been published. -/
theorem C125_listener (D : Int) (hD : 0 ≤ D) (c : LConf) (hA : 0 ≤ c.batchMaxAge) (t0 : Int) (tr : List Timed) (R : HRun D c t0 tr) (i j : Nat) (a b : Timed) (ha : tr[i]? = some a) (hb : tr[j]? = some b) (hij : i ≤ j)
    (hne : a.l.batch.bytes ≠ []) (hlate : a.now + c.batchMaxAge + 2 * D < b.now) :
    ∃ k m, i ≤ k ∧ k ≤ j ∧ tr[k]? = some m ∧ m.now ≤ a.now + c.batchMaxAge + 2 * D ∧ ∃ ps, m.l.pubs = a.l.pubs ++ ps ∧ a.l.batch.bytes <+: (ps.map (·.data)).flatten := by
  obtain ⟨n, rfl⟩ : ∃ n, j = i + n := ⟨j - i, by omega⟩
  rcases t_path hD hA R ha hne n b hb with h1 | ⟨e1, e2, e3⟩
  · exact h1
  · exfalso
    have hne' : b.l.batch.buf ≠ [] := by
      intro h0
      rw [h0] at e2
      exact hne (List.prefix_nil.1 e2)
    have I := (tinv_reach hD hA (hr_reach R hb)).1
    have h1 := C52_age_bound_partial D hD c hA t0 b (hr_reach R hb) hne'
    have h2 := (tinv_reach hD hA (hr_reach R ha)).1.past (counted_pos (tinv_reach hD hA (hr_reach R ha)).1 hne)
    unfold Batch.age at h1
    rw [if_neg (by have := counted_pos I hne'; omega)] at h1
    omega

/-- The clock does not go back. -/
theorem t_now {D : Int} {a b : Timed} (h : TReach D a b) : a.now ≤ b.now := by
  induction h with
  | refl => exact Int.le_refl _
  | step _ hs ih =>
    refine Int.le_trans ih ?_
    cases hs with
    | tick t ht hd => exact ht
    | _ => exact Int.le_refl _

/-- In the run `tr`, the message `q` was published when the clock showed `t`. -/
def PublishedAt (tr : List Timed) (q : LPub) (t : Int) : Prop :=
  ∃ (i : Nat) (m m' : Timed) (ps : List LPub), tr[i]? = some m ∧ tr[i + 1]? = some m' ∧ m'.l.pubs = m.l.pubs ++ ps ∧ q ∈ ps ∧ m.now = t

/-- The message `q` that was published between two states of a run was published at a moment between them. -/
theorem published_between {D : Int} (hD : 0 ≤ D) {c : LConf} (hA : 0 ≤ c.batchMaxAge) {t0 : Int} {tr : List Timed} (R : HRun D c t0 tr) {i : Nat} {a : Timed} (ha : tr[i]? = some a) :
    ∀ (n : Nat) (m : Timed) (ps : List LPub) (q : LPub), tr[i + n]? = some m → m.l.pubs = a.l.pubs ++ ps → q ∈ ps → ∃ t, PublishedAt tr q t ∧ a.now ≤ t ∧ t ≤ m.now := by
  intro n
  induction n with
  | zero =>
    intro m ps q hm hps hq
    have : a = m := by simpa [ha] using hm
    subst this
    have : ps = [] := by simpa using hps
    rw [this] at hq
    cases hq
  | succ n ih =>
    intro m ps q hm hps hq
    have hlt : i + n + 1 < tr.length := (List.getElem?_eq_some_iff.1 hm).1
    obtain ⟨b, hb⟩ : ∃ b, tr[i + n]? = some b := ⟨_, List.getElem?_eq_getElem (by omega)⟩
    have hs : TStep D b m := R.steps (i + n) b m hb hm
    have hbm : b.now ≤ m.now := t_now (.step (.refl _) hs)
    obtain ⟨ps1, e1⟩ := t_pubs hD hA (hr_reach R ha) (hr_between R ha n b hb)
    obtain ⟨ps2, e2⟩ := t_pubs hD hA (hr_reach R hb) (.step (.refl _) hs)
    rw [← e2, ← e1, List.append_assoc] at hps
    have hps := List.append_cancel_left hps
    subst hps
    rcases List.mem_append.1 hq with hq | hq
    · obtain ⟨t, t1, t2, t3⟩ := ih b ps1 q hb e1.symm hq
      exact ⟨t, t1, t2, by omega⟩
    · exact ⟨b.now, ⟨i + n, b, m, ps2, hb, hm, e2.symm, hq, rfl⟩, t_now (hr_between R ha n b hb), hbm⟩

/-- **C125 (lines).** In particular every line of the batch is in a message that is published between `t` and then, if the batch ends with a newline and no message was cut within a line (`C51_http_whole_lines`: none is, if all lines fit). -/
theorem C125_line (D : Int) (hD : 0 ≤ D) (c : LConf) (hA : 0 ≤ c.batchMaxAge) (t0 : Int) (tr : List Timed) (R : HRun D c t0 tr) (i j : Nat) (a b : Timed) (ha : tr[i]? = some a) (hb : tr[j]? = some b) (hij : i ≤ j)
    (hend : a.l.batch.bytes.getLast? = some NL) (hwhole : ∀ q ∈ b.l.pubs, q.data.getLast? = some NL) (hlate : a.now + c.batchMaxAge + 2 * D < b.now)
    (line : Bytes) (hline : line ∈ linesOf a.l.batch.bytes) :
    ∃ q t, PublishedAt tr q t ∧ line ∈ linesOf q.data ∧ a.now ≤ t ∧ t ≤ a.now + c.batchMaxAge + 2 * D := by
  obtain ⟨k, m, m0, m1, m2, m3, ps, m4, m5⟩ := C125_listener D hD c hA t0 tr R i j a b ha hb hij (by intro h0; rw [h0] at hend; cases hend) hlate
  have hps : ∀ q ∈ ps, q.data.getLast? = some NL := by
    intro q hq
    refine hwhole q ((t_pubs hD hA (hr_reach R m2) (hr_le R m2 hb m1)).subset ?_)
    rw [m4]
    exact List.mem_append_right _ hq
  have hl : line ∈ linesOf (ps.map (·.data)).flatten := Delivery.mem_linesOf_prefix m5 (Or.inr hend) line hline
  rw [linesOf_flatten_complete _ (by
    intro x hx
    obtain ⟨q, hq, rfl⟩ := List.mem_map.1 hx
    exact Or.inr (hps q hq))] at hl
  obtain ⟨x, hx, hl⟩ := List.mem_flatMap.1 hl
  obtain ⟨q, hq, rfl⟩ := List.mem_map.1 hx
  obtain ⟨n, rfl⟩ : ∃ n, k = i + n := ⟨k - i, by omega⟩
  obtain ⟨t, t1, t2, t3⟩ := published_between hD hA R ha n m ps q m2 m4 hq
  exact ⟨q, t, t1, hl, t2, by omega⟩

/-- **C125 (posted).** What a request adds to the batch at a time `t`, the body of a request or one of its lines, has been published, in one piece of the stream, by `t + batch_max_age + 2 * D`. -/
theorem C125_posted (D : Int) (hD : 0 ≤ D) (c : LConf) (hA : 0 ≤ c.batchMaxAge) (t0 : Int) (tr : List Timed) (R : HRun D c t0 tr) (i j : Nat) (a b : Timed) (ha : tr[i]? = some a)
    (e : HTTPEvent) (l' : Listener) (he : (∃ r, e = .body r a.now) ∨ (∃ d, d ≠ [] ∧ e = .line d a.now)) (hl : a.l.httpStep e = .ok l') (ha' : tr[i + 1]? = some { a with l := l' })
    (hb : tr[j]? = some b) (hij : i < j) (hlate : a.now + c.batchMaxAge + 2 * D < b.now) :
    ∃ k m, i < k ∧ k ≤ j ∧ tr[k]? = some m ∧ m.now ≤ a.now + c.batchMaxAge + 2 * D ∧ contrib e <:+: (m.l.pubs.map (·.data)).flatten := by
  have I := (tinv_reach hD hA (hr_reach R ha)).1
  have hbuf : l'.batch.buf = a.l.batch.buf ++ contrib e := by
    rcases he with ⟨r, rfl⟩ | ⟨d, hd, rfl⟩
    · obtain ⟨c, -, -, h3⟩ := Batch.readLoop_spec a.now r.steps a.l.batch r 0 I.inv.wf (Nat.le_refl _)
      rw [show a.l.httpStep (.body r a.now) = (Batch.readLoop a.now r.steps a.l.batch r 0 >>= fun x =>
        .ok { a.l with batch := x.1 }) from rfl, h3] at hl
      by_cases hr : r.pieces.flatten ++ r.last = []
      · rw [if_pos (by rw [hr]; rfl), Go.ok_bind] at hl
        injection hl with hl
        subst hl
        show _ = _ ++ (r.pieces.flatten ++ r.last)
        rw [hr, List.append_nil]
      · have hlen := List.length_pos_iff.2 hr
        rw [if_neg (by omega), Go.ok_bind] at hl
        injection hl with hl
        subst hl
        rfl
    · obtain ⟨c, h3, -⟩ := Batch.append_spec a.l.batch I.inv.wf d a.now
      rw [show a.l.httpStep (.line d a.now) = (a.l.batch.append d a.now >>= fun b => .ok { a.l with batch := b }) from rfl, h3] at hl
      rw [Go.ok_bind] at hl
      injection hl with hl
      subst hl
      rfl
  by_cases hc : contrib e = []
  · exact ⟨i + 1, _, by omega, by omega, ha', by show a.now ≤ _; omega, by rw [hc]; exact ⟨[], (l'.pubs.map (·.data)).flatten, rfl⟩⟩
  · obtain ⟨k, m, m0, m1, m2, m3, ps, m4, m5⟩ := C125_listener D hD c hA t0 tr R (i + 1) j { a with l := l' } b ha' hb (by omega) (by
      show l'.batch.buf ≠ []
      rw [hbuf]
      intro h0
      exact hc (List.append_eq_nil_iff.1 h0).2) hlate
    refine ⟨k, m, by omega, m1, m2, m3, ?_⟩
    obtain ⟨y, hy⟩ := m5
    refine ⟨(l'.pubs.map (·.data)).flatten ++ a.l.batch.buf, y, ?_⟩
    rw [m4, List.map_append, List.flatten_append, ← hy]
    show _ = (l'.pubs.map (·.data)).flatten ++ (l'.batch.buf ++ y)
    rw [hbuf]
    simp only [List.append_assoc]

/-- While something waits, there was a moment at which nothing waited, nothing has been sent since, and the age is counted from then. -/
theorem t_since {D : Int} (hD : 0 ≤ D) {c : LConf} (hA : 0 ≤ c.batchMaxAge) {t0 : Int} {tr : List Timed} (R : HRun D c t0 tr) :
    ∀ (j : Nat) (s : Timed), tr[j]? = some s → s.l.batch.buf ≠ [] → ∃ i a, i ≤ j ∧ tr[i]? = some a ∧ a.l.batch.buf = [] ∧ a.l.pubs = s.l.pubs ∧ s.l.batch.created ≤ a.now := by
  intro j
  induction j with
  | zero =>
    intro s hs hne
    rw [R.start] at hs
    injection hs with hs
    subst hs
    exact absurd rfl hne
  | succ j ih =>
    intro b hb hne
    have hlt : j + 1 < tr.length := (List.getElem?_eq_some_iff.1 hb).1
    obtain ⟨b', hb'⟩ : ∃ b', tr[j]? = some b' := ⟨_, List.getElem?_eq_getElem (by omega)⟩
    have hs : TStep D b' b := R.steps j _ b hb' hb
    have I := (tinv_reach hD hA (hr_reach R hb')).1
    have I2 := (tinv_reach hD hA (hr_reach R hb)).1
    rcases t_step I hs with ⟨k1, x, k2, k3⟩ | ⟨k1, k2, -⟩
    · by_cases hbb : b'.l.batch.buf = []
      · refine ⟨j, b', by omega, hb', hbb, k1.symm, ?_⟩
        have h1 := I2.past (counted_pos I2 hne)
        have h2 : b.now = b'.now := by
          cases hs with
          | tick t ht hd => exact absurd hbb hne
          | _ => rfl
        omega
      · obtain ⟨i, a, a1, a2, a3, a4, a5⟩ := ih b' hb' hbb
        exact ⟨i, a, by omega, a2, a3, a4.trans k1.symm, by rw [k3 (counted_pos I hbb)]; exact a5⟩
    · exact absurd k2 hne

/-- **C125 (no older).** Conversely, what the HTTP listener publishes is not old: when a batch is sent, there was a moment in the run, at most `batch_max_age + 2 * D` earlier, at which nothing was waiting, and nothing has been sent since; so all of it was posted after that moment. -/
theorem C125_no_older (D : Int) (hD : 0 ≤ D) (c : LConf) (hA : 0 ≤ c.batchMaxAge) (t0 : Int) (tr : List Timed) (R : HRun D c t0 tr) (j : Nat) (m m' : Timed) (hm : tr[j]? = some m) (hm' : tr[j + 1]? = some m') (hp : m'.l.pubs ≠ m.l.pubs) :
    ∃ i a, i ≤ j ∧ tr[i]? = some a ∧ a.l.batch.bytes = [] ∧ a.l.pubs = m.l.pubs ∧ m.now ≤ a.now + c.batchMaxAge + 2 * D ∧
      ∃ ps, m'.l.pubs = m.l.pubs ++ ps ∧ (ps.map (·.data)).flatten = m.l.batch.bytes := by
  have I := (tinv_reach hD hA (hr_reach R hm)).1
  rcases t_step I (R.steps j m m' hm hm') with ⟨k1, -⟩ | ⟨-, -, hps⟩
  · exact absurd k1 hp
  · by_cases hb : m.l.batch.buf = []
    · exact ⟨j, m, Nat.le_refl _, hm, hb, rfl, by omega, hps⟩
    · obtain ⟨i, a, a1, a2, a3, a4, a5⟩ := t_since hD hA R j m hm hb
      have h1 := C52_age_bound_partial D hD c hA t0 m (hr_reach R hm) hb
      unfold Batch.age at h1
      rw [if_neg (by have := counted_pos I hb; omega)] at h1
      exact ⟨i, a, a1, a2, a3, a4, by omega, hps⟩

end Spout

namespace Spout.Delivery
open Spout Spout.Listener

/-- An HTTP listener, a filter and the workers of a writer. -/
structure HPipeline (S : Sorter) (D : Int) (lc : LConf) (t0 : Int) (delta : Int) (rules : List Rule) (junk : Bytes) (wc : WConf) where
  /-- the run of the listener -/
  tr : List Timed
  ms : List FMsg
  pubss : List (List Pub)
  writers : List WSys
  listened : HRun D lc t0 tr
  whole : ∀ s ∈ tr, ∀ q ∈ s.l.pubs, q.data.getLast? = some NL
  filtered : ∃ w st, filterRun S (FWorker.new delta rules junk) (FStats.init rules.length) ms = .ok (w, st, pubss)
  norules : wc.rules = []

variable {S : Sorter} {D : Int} {lc : LConf} {t0 delta : Int} {rules : List Rule} {junk : Bytes} {wc : WConf}

/-- Each message that the listener publishes at a time `t` is taken up by the filter between `t` and `t + N`. -/
def HPipeline.FilterWithin (p : HPipeline S D lc t0 delta rules junk wc) (N : Int) : Prop :=
  ∀ q t, PublishedAt p.tr q t → ∃ f ∈ p.ms, f.data = q.data ∧ t ≤ f.now ∧ f.now ≤ t + N

/-- Each message that the filter publishes on `sub` is taken up by one of the writer's workers after that and within `N` of the time at which the filter took up the message it came from. -/
def HPipeline.WriterWithin (p : HPipeline S D lc t0 delta rules junk wc) (sub : Bytes) (N : Int) : Prop :=
  ∀ (i : Nat) (f : FMsg) (pubs : List Pub), p.ms[i]? = some f → p.pubss[i]? = some pubs →
    ∀ q ∈ pubs, q.subject = sub → ∃ s ∈ p.writers, ∃ r, WEv.recv q.data r ∈ s.hist ∧ f.now ≤ r ∧ r ≤ f.now + N

/-- The clock of the filter and the timestamps of the lines. -/
def HPipeline.Timely (p : HPipeline S D lc t0 delta rules junk wc) : Prop :=
  0 < delta ∧ ∀ m ∈ p.ms, InInt64 (m.now - delta) ∧ InInt64 (m.now + delta) ∧ ∀ line ∈ linesOf m.data, Delivery.Timely m.now delta line

/-- Every worker of the writer is scheduled promptly, is running, and its clock is past `t`. -/
def HPipeline.PromptPast (p : HPipeline S D lc t0 delta rules junk wc) (t : Int) : Prop :=
  ∀ s ∈ p.writers, (∃ pages start, Prompt wc (WSys.start wc pages start) s) ∧ s.phase ≠ .stopped ∧ t < s.now

/-- **C125.** If the goroutine that sends old batches is never delayed by more than `D`, a message takes at most `N1` to the filter and from there at most `N2` to a worker of the writer, then each line that is in the batch of the HTTP listener at time `a.now`, belongs to
`sub` and is timely when the filter sees it, is in a batch that the writer starts to send between `a.now` and `a.now + batch_max_age of the listener + 2 * D + N1 + N2 + batch_max_age of the writer + 1 s`. -/
theorem C125_end_to_end (hD : 0 ≤ D) (N1 N2 : Int) (p : HPipeline S D lc t0 delta rules junk wc) (sub : Bytes) (hA : 0 ≤ lc.batchMaxAge) (hW : 0 ≤ wc.batchMaxAge)
    (i j : Nat) (a b : Timed) (ha : p.tr[i]? = some a) (hb : p.tr[j]? = some b) (hij : i ≤ j) (hend : a.l.batch.bytes.getLast? = some NL) (hlate : a.now + lc.batchMaxAge + 2 * D < b.now)
    (ht : p.Timely) (hf : p.FilterWithin N1) (hw : p.WriterWithin sub N2)
    (hs : p.PromptPast (a.now + lc.batchMaxAge + 2 * D + N1 + N2 + wc.batchMaxAge + 1000000000))
    (line txt : Bytes) (hline : line ∈ linesOf a.l.batch.bytes) (hx : textTo S rules junk sub line = some txt) :
    ∃ s ∈ p.writers, ∃ batch t, WEv.flush batch t ∈ s.hist ∧ txt <:+: batch ∧ a.now ≤ t ∧
      t ≤ a.now + lc.batchMaxAge + 2 * D + N1 + N2 + wc.batchMaxAge + 1000000000 := by
  obtain ⟨q, u, hq, hlq, u1, u2⟩ := C125_line D hD lc hA t0 p.tr p.listened i j a b ha hb hij hend (p.whole b (List.mem_of_getElem? hb)) hlate line hline
  obtain ⟨f, hfm, hfd, hf1, hft⟩ := hf q u hq
  obtain ⟨w, st, hfr⟩ := p.filtered
  obtain ⟨t1, t2, t3⟩ := ht.2 f hfm
  rw [← hfd] at hlq
  obtain ⟨i, pubs, g1, g2, q2, g3, g4, g5⟩ := filter_line delta rules junk sub p.ms w st p.pubss hfr f hfm ht.1 t1 t2
    line txt hlq (t3 line hlq) hx
  obtain ⟨s, hsw, r, hr, hr1, hrt⟩ := hw i f pubs g1 g2 q2 g3 g4
  obtain ⟨⟨pages, start, hpr⟩, hph, hnow⟩ := hs s hsw
  obtain ⟨batch, t, k1, k2, k3, k4⟩ := C109_writer wc hW p.norules pages start s hpr hph q2.data r hr (by omega)
  exact ⟨s, hsw, batch, t, k1, g5.trans k2, by omega, by omega⟩

/-- The listener when a line has come in, and later, when the age limit has been reached and the line has been sent. -/
def exHttpA : Timed := ⟨⟨⟨5, 1000, 1048576⟩, ⟨b!"cpu f=1\n", 1048576, 1, 0⟩, ⟨0, 0, 0, 0⟩, []⟩, 0, .waiting 1000⟩

def exHttpL : Listener := ⟨⟨5, 1000, 1048576⟩, ⟨[], 1048576, 0, 1000⟩, ⟨0, 1, 0, 0⟩, [⟨b!"cpu f=1\n", false⟩]⟩

def exHttpB : Timed := ⟨exHttpL, 1500, .waiting 2000⟩

/-- The run: the timer is started, the line comes in, time passes, the batch is sent, the timer is started again, time passes. -/
def exHttpTr : List Timed := [timedStart ⟨5, 1000, 1048576⟩ 0, ⟨Listener.new ⟨5, 1000, 1048576⟩ 0, 0, .waiting 1000⟩, exHttpA, { exHttpA with now := 1000 },
  ⟨exHttpL, 1000, .arming 1000⟩, ⟨exHttpL, 1000, .waiting 2000⟩, exHttpB]

theorem exHttp_run : HRun 0 ⟨5, 1000, 1048576⟩ 0 exHttpTr := by
  refine ⟨rfl, ?_⟩
  intro i a b h1 h2
  match i with
  | 0 => injection h1 with h1; injection h2 with h2; subst h1; subst h2; exact TStep.arm (timedStart ⟨5, 1000, 1048576⟩ 0) 0 rfl
  | 1 => injection h1 with h1; injection h2 with h2; subst h1; subst h2; exact TStep.line ⟨Listener.new ⟨5, 1000, 1048576⟩ 0, 0, .waiting 1000⟩ b!"cpu f=1\n" exHttpA.l (by decide) rfl
  | 2 => injection h1 with h1; injection h2 with h2; subst h1; subst h2; exact TStep.tick exHttpA 1000 (by decide) (by show (1000 : Int) ≤ 1000 + 0; decide)
  | 3 => injection h1 with h1; injection h2 with h2; subst h1; subst h2; exact TStep.fire { exHttpA with now := 1000 } 1000 (fun _ => false) exHttpL rfl (by decide) (by decide +kernel)
  | 4 => injection h1 with h1; injection h2 with h2; subst h1; subst h2; exact TStep.arm ⟨exHttpL, 1000, .arming 1000⟩ 1000 rfl
  | 5 => injection h1 with h1; injection h2 with h2; subst h1; subst h2; exact TStep.tick ⟨exHttpL, 1000, .waiting 2000⟩ 1500 (by decide) (by show (1500 : Int) ≤ 2000 + 0; decide)
  | n + 6 => simp [exHttpTr] at h2

theorem exHttp_published {q : LPub} {t : Int} (h : PublishedAt exHttpTr q t) : q.data = b!"cpu f=1\n" ∧ t = 1000 := by
  obtain ⟨i, m, m', ps, h1, h2, h3, h4, rfl⟩ := h
  match i with
  | 0 | 1 | 2 | 4 | 5 =>
    injection h1 with h1; injection h2 with h2; subst h1; subst h2
    have : ps = [] := by
      have := congrArg List.length h3
      rw [List.length_append] at this
      exact List.length_eq_zero_iff.1 (by
        first
        | exact (Nat.add_left_cancel (show 0 + 0 = 0 + ps.length from this)).symm
        | exact (Nat.add_left_cancel (show 1 + 0 = 1 + ps.length from this)).symm)
    rw [this] at h4
    cases h4
  | 3 =>
    injection h1 with h1; injection h2 with h2; subst h1; subst h2
    have h3 : [⟨b!"cpu f=1\n", false⟩] = [] ++ ps := h3
    rw [List.nil_append] at h3
    rw [← h3, List.mem_singleton] at h4
    subst h4
    exact ⟨rfl, rfl⟩
  | n + 6 => simp [exHttpTr] at h2

/-- The hypotheses of `C125_end_to_end` can be met: a line waits for the age limit of the listener and for that of the writer. -/
example : ∃ (p : HPipeline insertionSorter 0 ⟨5, 1000, 1048576⟩ 0 1000 exRules b!"junk" exFreshConf) (i j : Nat) (a b : Timed),
    p.tr[i]? = some a ∧ p.tr[j]? = some b ∧ i ≤ j ∧ a.l.batch.bytes.getLast? = some NL ∧ a.now + 1000 + 2 * 0 < b.now ∧
    p.Timely ∧ p.FilterWithin 1050 ∧ p.WriterWithin b!"cpu-subject" 100 ∧ p.PromptPast (a.now + 1000 + 2 * 0 + 1050 + 100 + 10 + 1000000000) ∧
    b!"cpu f=1\n" ∈ linesOf a.l.batch.bytes ∧ textTo insertionSorter exRules b!"junk" b!"cpu-subject" b!"cpu f=1\n" = some b!"cpu f=1\n" := by
  obtain ⟨s, hs, hs2⟩ := pActs_hist
    (fun s => decide (WEv.recv b!"cpu f=1\n" 2100 ∈ s.hist) && decide (s.now = 1500000000) &&
      (match s.phase with | .stopped => false | _ => true))
    (c := exFreshConf) (s0 := WSys.start exFreshConf 100000 0) (as := exFreshActs) (by decide +kernel)
  simp only [Bool.and_eq_true, decide_eq_true_eq] at hs2
  obtain ⟨⟨r1, r2⟩, r3⟩ := hs2
  have hf : (match filterRun insertionSorter (FWorker.new 1000 exRules b!"junk") (FStats.init exRules.length) exFreshMs with
      | .ok (_, _, x) => some x | .panic => none) = some exFreshPubss := by decide +kernel
  have hf2 : ∃ w st, filterRun insertionSorter (FWorker.new 1000 exRules b!"junk") (FStats.init exRules.length) exFreshMs =
      .ok (w, st, exFreshPubss) := by
    cases hc : filterRun insertionSorter (FWorker.new 1000 exRules b!"junk") (FStats.init exRules.length) exFreshMs with
    | panic => rw [hc] at hf; cases hf
    | ok x =>
      obtain ⟨w, st, y⟩ := x
      rw [hc] at hf
      injection hf with hf
      subst hf
      exact ⟨w, st, rfl⟩
  refine ⟨⟨exHttpTr, exFreshMs, exFreshPubss, [s], exHttp_run, by decide, hf2, rfl⟩, 2, 6, exHttpA, exHttpB, rfl, rfl, by decide,
    by decide, by decide, ?_, ?_, ?_, ?_, by decide, by decide +kernel⟩
  · refine ⟨by decide, ?_⟩
    show ∀ m ∈ exFreshMs, _
    unfold exFreshMs
    intro m hm
    rcases List.mem_cons.1 hm with rfl | hm
    · refine ⟨by decide, by decide, ?_⟩
      intro line hline
      right
      intro v off hts
      have h1 : extractTimestamp line = .ok (-1, -1) := by
        clear hts
        revert line
        decide +kernel
      have := extractTimestamp_some hts
      rw [h1] at this
      injection this with this
      injection this with _ this
      obtain ⟨-, pre, ts, -, -, -, -, e⟩ := hts
      omega
    · cases hm
  · intro q t hq
    obtain ⟨k1, rfl⟩ := exHttp_published hq
    exact ⟨_, List.mem_cons_self .., k1.symm, by decide, by decide⟩
  · intro i m pubs h1 h2 q hq _
    match i with
    | 0 =>
      have h1 : exFreshMs[0]? = some m := h1
      have h2 : exFreshPubss[0]? = some pubs := h2
      simp only [exFreshMs, exFreshPubss, List.getElem?_cons_zero, Option.some.injEq] at h1 h2
      subst h1
      subst h2
      have hq2 : q = ⟨b!"cpu-subject", b!"cpu f=1\n", false⟩ := by simpa using hq
      subst hq2
      exact ⟨s, List.mem_cons_self .., 2100, r1, by decide, by decide⟩
    | i + 1 =>
      have h1 : exFreshMs[i + 1]? = some m := h1
      simp [exFreshMs] at h1
  · intro s' hs'
    have : s' = s := by simpa using hs'
    subst this
    refine ⟨⟨100000, 0, hs⟩, ?_, by rw [r2]; decide⟩
    intro h
    rw [h] at r3
    cases r3

/-- The hypotheses of `C125_no_older` are met by the step that sends the line. -/
example : HRun 0 ⟨5, 1000, 1048576⟩ 0 exHttpTr ∧ exHttpTr[3]? = some { exHttpA with now := 1000 } ∧ exHttpTr[3 + 1]? = some ⟨exHttpL, 1000, .arming 1000⟩ ∧ exHttpL.pubs ≠ exHttpA.l.pubs :=
  ⟨exHttp_run, rfl, rfl, by decide⟩

end Spout.Delivery
