import Verif.Props.WayThere
import Verif.Props.ListenerFresh

/-! # C128: the way to the downsampler from an HTTP listener

What an HTTP listener publishes was posted not long before; so nothing is refused by the downsampler if the way is shorter than a period (as C126 for UDP). -/

set_option linter.unusedSimpArgs false

namespace Spout.Delivery
open Spout Spout.Listener Spout.Spec

/-! ## Specification -/

/-- A request adds its body, or one of its lines, to the batch. -/
def Posting (a : Timed) (e : HTTPEvent) (l' : Listener) : Prop :=
  ((∃ r, e = .body r a.now) ∨ ∃ d, d ≠ [] ∧ e = .line d a.now) ∧ contrib e ≠ [] ∧ a.l.httpStep e = .ok l'

/-- In the run `tr`, `d` was added to the batch by a request when the clock showed `t`. -/
def PostedAt (tr : List Timed) (d : Bytes) (t : Int) : Prop :=
  ∃ (i : Nat) (a : Timed) (e : HTTPEvent) (l' : Listener), tr[i]? = some a ∧ Posting a e l' ∧ tr[i + 1]? = some { a with l := l' } ∧ contrib e = d ∧ a.now = t

/-- Requests consist of complete lines that fit a message. -/
def PostsWhole (tr : List Timed) : Prop :=
  ∀ d t, PostedAt tr d t → d.getLast? = some NL ∧ ∀ x ∈ linesOf d, x.length ≤ 1048577

/-- Each message that the filter takes up was published by the listener at most `N` earlier. -/
def HTTPFilterGets (tr : List Timed) (ms : List FMsg) (N : Int) : Prop :=
  ∀ m ∈ ms, ∃ q t, PublishedAt tr q t ∧ m.data = q.data ∧ t ≤ m.now ∧ m.now ≤ t + N

/-- The lines that the clients post and that belong to `sub` are measurements with a time that is at most `K` before they are added to the batch. -/
def PostsStamp (S : Sorter) (rules : List Rule) (junk sub : Bytes) (tr : List Timed) (K : Int) : Prop :=
  ∀ d t, PostedAt tr d t → ∀ line ∈ linesOf d, ∀ txt, textTo S rules junk sub line = some txt → ∃ pt : Point, pt.WF ∧ txt = pt.text ∧ t - K ≤ pt.ts ∧ pt.ts ≤ t

/-! ## The listener -/

/-- What a step does to the batch. -/
theorem post_step {D : Int} {a b : Timed} (h : TInv D a) (hs : TStep D a b) :
    (b.l.batch.buf = a.l.batch.buf ∧ b.l.batch.created = a.l.batch.created ∧ b.l.pubs = a.l.pubs) ∨
    (b.l.batch.buf = [] ∧ ∃ ps, b.l.pubs = a.l.pubs ++ ps ∧ (ps.map (·.data)).flatten = a.l.batch.buf) ∨
    ∃ e l', b = { a with l := l' } ∧ Posting a e l' ∧ l'.batch.buf = a.l.batch.buf ++ contrib e ∧ l'.pubs = a.l.pubs ∧
      (l'.batch.created = a.l.batch.created ∨ (a.l.batch.buf = [] ∧ l'.batch.created = a.now)) := by
  cases hs with
  | tick t ht hd => exact Or.inl ⟨rfl, rfl, rfl⟩
  | body r l' h' =>
    have h0 := h'
    obtain ⟨c, -, -, h3⟩ := Batch.readLoop_spec a.now r.steps a.l.batch r 0 h.inv.wf (Nat.le_refl _)
    rw [show a.l.httpStep (.body r a.now) = (Batch.readLoop a.now r.steps a.l.batch r 0 >>= fun x =>
      .ok { a.l with batch := x.1 }) from rfl, h3] at h'
    by_cases hr : r.pieces.flatten ++ r.last = []
    · rw [if_pos (by rw [hr]; rfl), Go.ok_bind] at h'
      injection h' with h'
      subst h'
      exact Or.inl ⟨rfl, rfl, rfl⟩
    · have hlen := List.length_pos_iff.2 hr
      rw [if_neg (by omega), Go.ok_bind] at h'
      injection h' with h'
      refine Or.inr (Or.inr ⟨_, l', rfl, ⟨Or.inl ⟨r, rfl⟩, hr, h0⟩, ?_⟩)
      subst h'
      refine ⟨rfl, rfl, ?_⟩
      by_cases hw : a.l.batch.writes = 0
      · exact Or.inr ⟨h.counted.1 hw, by simp [hw]⟩
      · exact Or.inl (by simp [hw])
  | line d l' hne h' =>
    have h0 := h'
    obtain ⟨c, h3, -⟩ := Batch.append_spec a.l.batch h.inv.wf d a.now
    rw [show a.l.httpStep (.line d a.now) = (a.l.batch.append d a.now >>= fun b => .ok { a.l with batch := b }) from rfl, h3] at h'
    rw [Go.ok_bind] at h'
    injection h' with h'
    refine Or.inr (Or.inr ⟨_, l', rfl, ⟨Or.inr ⟨d, hne, rfl⟩, hne, h0⟩, ?_⟩)
    subst h'
    refine ⟨rfl, rfl, ?_⟩
    by_cases hw : a.l.batch.writes = 0
    · exact Or.inr ⟨h.counted.1 hw, by simp [hw]⟩
    · exact Or.inl (by simp [hw])
  | maybeSend fail l' h' =>
    rw [show a.l.httpStep (.maybeSend a.now fail a.now) =
      ({ a.l with stats := { a.l.stats with received := a.l.stats.received + 1 } } : Listener).maybeSendBatch a.now fail a.now from rfl] at h'
    unfold Listener.maybeSendBatch at h'
    split at h'
    · rcases send_keep h' with e | ⟨e1, e2⟩
      · rw [e]; exact Or.inl ⟨rfl, rfl, rfl⟩
      · exact Or.inr (Or.inl ⟨e1, e2⟩)
    · injection h' with h'
      subst h'
      exact Or.inl ⟨rfl, rfl, rfl⟩
  | readErr l' h' =>
    injection h' with h'
    subst h'
    exact Or.inl ⟨rfl, rfl, rfl⟩
  | arm f hp => exact Or.inl ⟨rfl, rfl, rfl⟩
  | fire d fail l' hp hd h' =>
    rw [show a.l.httpStep (.oldBatch a.now fail a.now) =
      if a.l.batch.age a.now ≥ a.l.conf.batchMaxAge then a.l.sendBatch fail a.now else .ok a.l from rfl] at h'
    split at h'
    · rcases send_keep h' with e | ⟨e1, e2⟩
      · rw [e]; exact Or.inl ⟨rfl, rfl, rfl⟩
      · exact Or.inr (Or.inl ⟨e1, e2⟩)
    · injection h' with h'
      subst h'
      exact Or.inl ⟨rfl, rfl, rfl⟩

/-- What waits is made of what was posted since the age is counted. -/
theorem posted_pending {D : Int} (hD : 0 ≤ D) {c : LConf} (hA : 0 ≤ c.batchMaxAge) {t0 : Int} {tr : List Timed} (R : HRun D c t0 tr) :
    ∀ (j : Nat) (s : Timed), tr[j]? = some s → ∃ P : List (Bytes × Int), s.l.batch.buf = (P.map (·.1)).flatten ∧ ∀ z ∈ P, PostedAt tr z.1 z.2 ∧ s.l.batch.created ≤ z.2 ∧ z.2 ≤ s.now := by
  intro j
  induction j with
  | zero =>
    intro s hs
    rw [R.start] at hs
    injection hs with hs
    subst hs
    exact ⟨[], rfl, by simp⟩
  | succ j ih =>
    intro b hb
    have hlt : j + 1 < tr.length := (List.getElem?_eq_some_iff.1 hb).1
    obtain ⟨a, ha⟩ : ∃ a, tr[j]? = some a := ⟨_, List.getElem?_eq_getElem (by omega)⟩
    have hs : TStep D a b := R.steps j a b ha hb
    obtain ⟨P, h1, h2⟩ := ih a ha
    have I := (tinv_reach hD hA (hr_reach R ha)).1
    have I2 := (tinv_reach hD hA (hr_reach R hb)).1
    have hn : a.now ≤ b.now := t_now (.step (.refl _) hs)
    rcases post_step I hs with ⟨e1, e2, -⟩ | ⟨e1, -⟩ | ⟨e, l', rfl, p1, p2, -, p3⟩
    · refine ⟨P, e1.trans h1, ?_⟩
      intro z hz
      obtain ⟨g1, g2, g3⟩ := h2 z hz
      exact ⟨g1, by omega, by omega⟩
    · exact ⟨[], e1, by simp⟩
    · have hnew : PostedAt tr (contrib e) a.now := ⟨j, a, e, l', ha, p1, hb, rfl, rfl⟩
      rcases p3 with p3 | ⟨p3, p4⟩
      · by_cases hbb : a.l.batch.buf = []
        · refine ⟨[(contrib e, a.now)], by rw [p2, hbb]; simp, ?_⟩
          intro z hz
          rw [List.mem_singleton.1 hz]
          refine ⟨hnew, ?_, Int.le_refl _⟩
          refine I2.past (counted_pos I2 ?_)
          show l'.batch.buf ≠ []
          rw [p2, hbb]
          exact p1.2.1
        · refine ⟨P ++ [(contrib e, a.now)], by show l'.batch.buf = _; rw [p2, h1]; simp, ?_⟩
          intro z hz
          rcases List.mem_append.1 hz with hz | hz
          · obtain ⟨g1, g2, g3⟩ := h2 z hz
            exact ⟨g1, by show l'.batch.created ≤ _; omega, g3⟩
          · rw [List.mem_singleton.1 hz]
            refine ⟨hnew, ?_, Int.le_refl _⟩
            show l'.batch.created ≤ a.now
            rw [p3]
            exact I.past (counted_pos I hbb)
      · refine ⟨[(contrib e, a.now)], by show l'.batch.buf = _; rw [p2, p3]; simp, ?_⟩
        intro z hz
        rw [List.mem_singleton.1 hz]
        exact ⟨hnew, by show l'.batch.created ≤ a.now; omega, Int.le_refl _⟩

theorem reach_whole {D : Int} (hD : 0 ≤ D) {c : LConf} (hA : 0 ≤ c.batchMaxAge) {t0 : Int} {tr : List Timed} (R : HRun D c t0 tr) (hw : PostsWhole tr) : ∀ (j : Nat) (s : Timed), tr[j]? = some s → WholeL s.l := by
  intro j
  induction j with
  | zero =>
    intro s hs
    rw [R.start] at hs
    injection hs with hs
    subst hs
    refine ⟨Or.inl rfl, ?_, fun p hp => by cases hp⟩
    intro x hx
    rw [show linesOf (timedStart c t0).l.batch.bytes = [] from linesOf_nil] at hx
    cases hx
  | succ j ih =>
    intro b hb
    have hlt : j + 1 < tr.length := (List.getElem?_eq_some_iff.1 hb).1
    obtain ⟨a, ha⟩ : ∃ a, tr[j]? = some a := ⟨_, List.getElem?_eq_getElem (by omega)⟩
    have hs : TStep D a b := R.steps j a b ha hb
    have w := ih a ha
    have I := (tinv_reach hD hA (hr_reach R ha)).1
    cases hs with
    | tick t ht hd => exact w
    | body r l' h' =>
      by_cases hc : contrib (.body r a.now) = []
      · exact http_step_whole I.inv h' w (Or.inl hc) (by rw [hc, linesOf_nil]; simp)
      · have := hw (contrib (.body r a.now)) a.now ⟨j, a, _, l', ha, ⟨Or.inl ⟨r, rfl⟩, hc, h'⟩, hb, rfl, rfl⟩
        exact http_step_whole I.inv h' w (Or.inr this.1) this.2
    | line d l' hne h' =>
      have := hw (contrib (.line d a.now)) a.now ⟨j, a, _, l', ha, ⟨Or.inr ⟨d, hne, rfl⟩, hne, h'⟩, hb, rfl, rfl⟩
      exact http_step_whole I.inv h' w (Or.inr this.1) this.2
    | maybeSend fail l' h' => exact http_step_whole I.inv h' w (Or.inl rfl) (by rw [show contrib (.maybeSend a.now fail a.now) = [] from rfl, linesOf_nil]; simp)
    | readErr l' h' => exact http_step_whole I.inv h' w (Or.inl rfl) (by rw [show contrib .readErr = [] from rfl, linesOf_nil]; simp)
    | arm f hp => exact w
    | fire d fail l' hp hd h' => exact http_step_whole I.inv h' w (Or.inl rfl) (by rw [show contrib (.oldBatch a.now fail a.now) = [] from rfl, linesOf_nil]; simp)

/-- **C128 (listener).** If the goroutine that sends old batches is never delayed by more than `D` and requests consist of complete lines that fit a message, then each line of each message that the HTTP listener publishes is a line that a request added to the batch at most
`batch_max_age + 2 * D` earlier. -/
theorem C128_listener {D : Int} (hD : 0 ≤ D) {c : LConf} (hA : 0 ≤ c.batchMaxAge) {t0 : Int} {tr : List Timed} (R : HRun D c t0 tr) (hw : PostsWhole tr) {q : LPub} {t : Int} (h : PublishedAt tr q t) :
    ∀ line ∈ linesOf q.data, ∃ d s, PostedAt tr d s ∧ line ∈ linesOf d ∧ s ≤ t ∧ t ≤ s + c.batchMaxAge + 2 * D := by
  obtain ⟨i, m, m', ps, h1, h2, h4, h5, rfl⟩ := h
  intro line hl
  have I := (tinv_reach hD hA (hr_reach R h1)).1
  have w := reach_whole hD hA R hw (i + 1) m' h2
  have noPubs : m'.l.pubs = m.l.pubs → False := by
    intro e
    rw [e] at h4
    have : ps = [] := by simpa using h4
    rw [this] at h5
    cases h5
  rcases post_step I (R.steps i m m' h1 h2) with ⟨-, -, e⟩ | ⟨-, ps', e1, e2⟩ | ⟨_, _, he, _, _, e, _⟩
  · exact (noPubs e).elim
  · rw [e1] at h4
    have h4 := List.append_cancel_left h4
    subst h4
    have hin : line ∈ linesOf m.l.batch.buf := by
      rw [← e2, linesOf_flatten_complete _ (by
        intro d hd
        obtain ⟨q', hq', rfl⟩ := List.mem_map.1 hd
        exact Or.inr (w.pubs q' (by rw [e1]; exact List.mem_append_right _ hq')))]
      exact List.mem_flatMap.2 ⟨q.data, List.mem_map.2 ⟨q, h5, rfl⟩, hl⟩
    obtain ⟨P, p1, p2⟩ := posted_pending hD hA R i m h1
    have hne : m.l.batch.buf ≠ [] := by
      intro h0
      rw [h0, linesOf_nil] at hin
      cases hin
    rw [p1, linesOf_flatten_complete _ (by
      intro d hd
      obtain ⟨z, hz, rfl⟩ := List.mem_map.1 hd
      exact Or.inr (hw _ _ (p2 z hz).1).1)] at hin
    obtain ⟨d, hd, hld⟩ := List.mem_flatMap.1 hin
    obtain ⟨z, hz, rfl⟩ := List.mem_map.1 hd
    obtain ⟨g1, g2, g3⟩ := p2 z hz
    refine ⟨z.1, z.2, g1, hld, g3, ?_⟩
    have h6 := C52_age_bound_partial D hD c hA t0 m (hr_reach R h1) hne
    unfold Batch.age at h6
    rw [if_neg (by have := counted_pos I hne; omega)] at h6
    omega
  · refine (noPubs ?_).elim
    rw [he]
    exact e

/-- After a posting, the batch is made of complete lines, and those posted are among them. -/
theorem posted_in_batch {D : Int} (hD : 0 ≤ D) {c : LConf} (hA : 0 ≤ c.batchMaxAge) {t0 : Int} {tr : List Timed} (R : HRun D c t0 tr) (hw : PostsWhole tr) {i : Nat} {a : Timed} {e : HTTPEvent} {l' : Listener}
    (ha : tr[i]? = some a) (hp : Posting a e l') (ha' : tr[i + 1]? = some { a with l := l' }) :
    l'.batch.bytes.getLast? = some NL ∧ ∀ line ∈ linesOf (contrib e), line ∈ linesOf l'.batch.bytes := by
  have I := (tinv_reach hD hA (hr_reach R ha)).1
  have w := reach_whole hD hA R hw i a ha
  have w' := reach_whole hD hA R hw (i + 1) _ ha'
  have hne := hp.2.1
  obtain ⟨l2, g1, -, -, g2, -⟩ := http_step a.l e I.inv
  rw [hp.2.2] at g1
  injection g1 with g1
  subst g1
  have hpubs : l'.pubs = a.l.pubs := by
    have h' := hp.2.2
    rcases hp.1 with ⟨r, rfl⟩ | ⟨d, -, rfl⟩
    · obtain ⟨c, -, -, h3⟩ := Batch.readLoop_spec a.now r.steps a.l.batch r 0 I.inv.wf (Nat.le_refl _)
      rw [show a.l.httpStep (.body r a.now) = (Batch.readLoop a.now r.steps a.l.batch r 0 >>= fun x =>
        .ok { a.l with batch := x.1 }) from rfl, h3] at h'
      split at h' <;> (rw [Go.ok_bind] at h'; injection h' with h'; subst h'; rfl)
    · obtain ⟨c, h3, -⟩ := Batch.append_spec a.l.batch I.inv.wf d a.now
      rw [show a.l.httpStep (.line d a.now) = (a.l.batch.append d a.now >>= fun b => .ok { a.l with batch := b }) from rfl, h3] at h'
      rw [Go.ok_bind] at h'
      injection h' with h'
      subst h'
      rfl
  have hbuf : l'.batch.bytes = a.l.batch.bytes ++ contrib e := by
    unfold Listener.published at g2
    rw [hpubs, List.append_assoc] at g2
    exact List.append_cancel_left g2
  refine ⟨?_, ?_⟩
  · rcases w'.batch with h0 | h0
    · exfalso
      have h0 : l'.batch.bytes = [] := h0
      rw [hbuf] at h0
      exact hne (List.append_eq_nil_iff.1 h0).2
    · exact h0
  · intro line hl
    rw [hbuf, linesOf_append _ _ w.batch]
    exact List.mem_append_right _ hl

/-- **C128 (no later).** Conversely, each line that is posted at a time `t` is in a message that is published between `t` and `t + batch_max_age + 2 * D`, once the clock of the run is past that. -/
theorem C128_posted_line {D : Int} (hD : 0 ≤ D) {c : LConf} (hA : 0 ≤ c.batchMaxAge) {t0 : Int} {tr : List Timed} (R : HRun D c t0 tr) (hw : PostsWhole tr) {d : Bytes} {t : Int} (h : PostedAt tr d t)
    {b : Timed} (hb : b ∈ tr) (hlate : t + c.batchMaxAge + 2 * D < b.now) :
    ∀ line ∈ linesOf d, ∃ q s, PublishedAt tr q s ∧ line ∈ linesOf q.data ∧ t ≤ s ∧ s ≤ t + c.batchMaxAge + 2 * D := by
  obtain ⟨i, a, e, l', h1, h2, h3, rfl, rfl⟩ := h
  obtain ⟨j, hj⟩ := List.getElem?_of_mem hb
  intro line hl
  obtain ⟨b1, b2⟩ := posted_in_batch hD hA R hw h1 h2 h3
  have hij : i < j := by
    rcases Nat.lt_or_ge i j with h | h
    · exact h
    · have := t_now (hr_le R hj h1 h)
      omega
  obtain ⟨k, m, m0, m1, m2, m3, ps, m4, m5⟩ := C125_listener D hD c hA t0 tr R (i + 1) j { a with l := l' } b h3 hj (by omega) (by
    intro h0
    rw [show l'.batch.bytes = [] from h0] at b1
    cases b1) hlate
  have wm := reach_whole hD hA R hw k m m2
  have hl2 : line ∈ linesOf (ps.map (·.data)).flatten := mem_linesOf_prefix m5 (Or.inr b1) line (b2 line hl)
  rw [linesOf_flatten_complete _ (by
    intro x hx
    obtain ⟨q, hq, rfl⟩ := List.mem_map.1 hx
    exact Or.inr (wm.pubs q (by rw [m4]; exact List.mem_append_right _ hq)))] at hl2
  obtain ⟨x, hx, hlx⟩ := List.mem_flatMap.1 hl2
  obtain ⟨q, hq, rfl⟩ := List.mem_map.1 hx
  obtain ⟨n, rfl⟩ : ∃ n, k = (i + 1) + n := ⟨k - (i + 1), by omega⟩
  obtain ⟨s, s1, s2, s3⟩ := published_between hD hA R h3 n m ps q m2 m4 hq
  have s2 : a.now ≤ s := s2
  have m3 : m.now ≤ a.now + c.batchMaxAge + 2 * D := m3
  exact ⟨q, s, s1, hlx, s2, by omega⟩

/-- **C125 (the client's view).** Each timely line of a request that is added to the batch at a time `t` and belongs to `sub` is in a batch that the writer starts to send at `t + batch_max_age of the listener + 2 * D + N1 + N2 + batch_max_age of the writer + 1 s` at the latest. -/
theorem C125_client {S : Sorter} {D : Int} {lc : LConf} {t0 delta : Int} {rules : List Rule} {junk : Bytes} {wc : WConf} (hD : 0 ≤ D) (N1 N2 : Int) (p : HPipeline S D lc t0 delta rules junk wc) (sub : Bytes)
    (hA : 0 ≤ lc.batchMaxAge) (hW : 0 ≤ wc.batchMaxAge) (hp : PostsWhole p.tr) {d : Bytes} {t : Int} (h : PostedAt p.tr d t) {b : Timed} (hb : b ∈ p.tr) (hlate : t + lc.batchMaxAge + 2 * D < b.now)
    (ht : p.Timely) (hf : p.FilterWithin N1) (hw : p.WriterWithin sub N2) (hs : p.PromptPast (t + lc.batchMaxAge + 2 * D + N1 + N2 + wc.batchMaxAge + 1000000000))
    (line txt : Bytes) (hline : line ∈ linesOf d) (hx : textTo S rules junk sub line = some txt) :
    ∃ s ∈ p.writers, ∃ batch u, WEv.flush batch u ∈ s.hist ∧ txt <:+: batch ∧ t ≤ u ∧ u ≤ t + lc.batchMaxAge + 2 * D + N1 + N2 + wc.batchMaxAge + 1000000000 := by
  obtain ⟨i, a, e, l', h1, h2, h3, rfl, rfl⟩ := h
  obtain ⟨j, hj⟩ := List.getElem?_of_mem hb
  obtain ⟨b1, b2⟩ := posted_in_batch hD hA p.listened hp h1 h2 h3
  have hij : i < j := by
    rcases Nat.lt_or_ge i j with h | h
    · exact h
    · have := t_now (hr_le p.listened hj h1 h)
      omega
  exact C125_end_to_end hD N1 N2 p sub hA hW (i + 1) j { a with l := l' } b h3 hj (by omega) b1 hlate ht hf hw hs line txt (b2 line hline) hx

/-! ## The downsampler -/

/-- If the measurements in the messages that the filter takes up are at most `B` old, the downsampler gets them on time. -/
theorem on_time_of {S : Sorter} {B N2 p : Int} {ms : List FMsg} {delta : Int} {rules : List Rule} {junk sub : Bytes} {w : FWorker} {st : FStats} {pubss : List (List Pub)}
    (hr : filterRun S (FWorker.new delta rules junk) (FStats.init rules.length) ms = .ok (w, st, pubss)) {evs : List DEvent} (hg : DownsamplerGets ms pubss sub evs N2)
    (hB : ∀ m ∈ ms, ∀ line ∈ linesOf m.data, ∀ txt, textTo S rules junk sub line = some txt → ∃ pt : Point, pt.WF ∧ pt.text = txt ∧ m.now ≤ pt.ts + B ∧ pt.ts ≤ m.now) (hp : B + N2 ≤ p) : AllOnTime p (evs.flatMap evOps) := by
  intro now l ts body hm hne hst
  obtain ⟨ev, hev, hop⟩ := List.mem_flatMap.1 hm
  unfold evOps at hop
  cases hin : ev.input with
  | timeout => rw [hin] at hop; simp at hop
  | msg text clk =>
    rw [hin] at hop
    simp only [List.mem_append, List.mem_map, List.mem_singleton, reduceCtorEq, or_false, AOp.line.injEq] at hop
    obtain ⟨⟨l', k⟩, hk, hk1, hk2⟩ := hop
    simp only at hk1 hk2
    subst hk1
    subst hk2
    obtain ⟨i, m, pubs, q, a1, a2, a3, a4, a5, a6⟩ := hg ev hev text clk hin
    obtain ⟨-, hklt, -⟩ := List.mem_zipIdx hk
    have hb := a6 k (by omega)
    obtain ⟨g, g1, g2⟩ := filter_from hr a1 a2 a3 a4
    have key : ∀ t ∈ g, ∃ pt : Point, pt.WF ∧ pt.text = t ∧ m.now ≤ pt.ts + B ∧ pt.ts ≤ m.now := by
      intro t ht
      obtain ⟨line, hl, hx⟩ := g2 t ht
      exact hB m (List.mem_of_getElem? a1) line hl t hx
    have hpts : ∃ pts : List Point, g = pts.map Point.text ∧ ∀ pt ∈ pts, pt.WF ∧ m.now ≤ pt.ts + B ∧ pt.ts ≤ m.now := by
      clear g1 g2
      induction g with
      | nil => exact ⟨[], rfl, by simp⟩
      | cons t g ih =>
        obtain ⟨pts, h1, h2⟩ := ih (fun t ht => key t (List.mem_cons_of_mem _ ht))
        obtain ⟨pt, p1, p2, p3⟩ := key t List.mem_cons_self
        refine ⟨pt :: pts, by rw [h1, List.map_cons, p2], ?_⟩
        intro x hx
        rcases List.mem_cons.1 hx with rfl | hx
        · exact ⟨p1, p3⟩
        · exact h2 x hx
    obtain ⟨pts, h1, h2⟩ := hpts
    have hlm : l' ∈ (splitNL (pts.map Point.text).flatten).filter (fun l => decide (l ≠ [])) := by
      rw [← h1, ← g1, a5]
      exact List.mem_filter.2 ⟨List.fst_mem_of_mem_zipIdx hk, by simpa using hne⟩
    rw [split_points pts (fun q hq => (h2 q hq).1)] at hlm
    obtain ⟨pt, hpt, rfl⟩ := List.mem_map.1 hlm
    obtain ⟨w1, w2, w3⟩ := h2 pt hpt
    rw [(bare_stamped w1 hst).1]
    omega

/-- **C128 (on time).** If the goroutine of the HTTP listener that sends old batches is never delayed by more than `D`, a message takes at most `N1` to the filter and from there at most `N2` to the downsampler, clients post measurements at most `K` after their time, and
`batch_max_age of the listener + 2 * D + N1 + N2 + K` is at most the period, then every measurement reaches the downsampler at most a period late, and not early. -/
theorem C128_on_time {S : Sorter} {D N1 N2 K p : Int} (hD : 0 ≤ D) {lc : LConf} (hA : 0 ≤ lc.batchMaxAge) {t0 : Int} {tr : List Timed} (R : HRun D lc t0 tr) (hwh : PostsWhole tr) {ms : List FMsg} (hf : HTTPFilterGets tr ms N1)
    {delta : Int} {rules : List Rule} {junk sub : Bytes} {w : FWorker} {st : FStats} {pubss : List (List Pub)}
    (hr : filterRun S (FWorker.new delta rules junk) (FStats.init rules.length) ms = .ok (w, st, pubss)) {evs : List DEvent} (hg : DownsamplerGets ms pubss sub evs N2)
    (hc : PostsStamp S rules junk sub tr K) (hp : lc.batchMaxAge + 2 * D + N1 + N2 + K ≤ p) : AllOnTime p (evs.flatMap evOps) := by
  refine on_time_of (B := lc.batchMaxAge + 2 * D + N1 + K) hr hg ?_ (by omega)
  intro m hm line hl txt hx
  obtain ⟨q, t, q1, q2, q3, q4⟩ := hf m hm
  rw [q2] at hl
  obtain ⟨d, s, d1, d2, d3, d4⟩ := C128_listener hD hA R hwh q1 line hl
  obtain ⟨pt, p1, p2, p3, p4⟩ := hc d s d1 line d2 txt hx
  exact ⟨pt, p1, p2.symm, by omega, by omega⟩

/-- **C128.** Under these conditions a downsampler that keeps its timer refuses no measurement. -/
theorem C128_none_refused {S : Sorter} {D N1 N2 K p : Int} (hD : 0 ≤ D) {lc : LConf} (hA : 0 ≤ lc.batchMaxAge) {t0 : Int} {tr : List Timed} (R : HRun D lc t0 tr) (hwh : PostsWhole tr) {ms : List FMsg} (hf : HTTPFilterGets tr ms N1)
    {delta : Int} {rules : List Rule} {junk sub : Bytes} {w : FWorker} {st : FStats} {pubss : List (List Pub)}
    (hr : filterRun S (FWorker.new delta rules junk) (FStats.init rules.length) ms = .ok (w, st, pubss)) {evs : List DEvent} (hg : DownsamplerGets ms pubss sub evs N2)
    (hc : PostsStamp S rules junk sub tr K) (hp : lc.batchMaxAge + 2 * D + N1 + N2 + K ≤ p) (fo : FloatOps) {now0 d1 d2 : Int} (hp0 : 0 < p) (hd1 : 0 ≤ d1) (hdd : d1 + d2 ≤ p)
    (hs : Steady now0 (evs.flatMap evOps)) (hk : TimerKept S fo p now0 d1 d2 evs) :
    ∃ dw : DWorker fo, DWorker.run S (DWorker.new fo p now0) evs = .ok dw ∧ dw.stats.invalidTimestamps = 0 := by
  obtain ⟨dw, -, -, -, -, a1, -, -, -, -, -, a2⟩ := C124_in_time S fo p now0 d1 d2 hp0 hd1 hdd evs hs hk
  exact ⟨dw, a1, a2 (C128_on_time hD hA R hwh hf hr hg hc hp)⟩

/-- **C128 (the archive).** And the row with the aggregated values is in a batch that a writer of the downsampler's output starts to send at `q.ts + 3 * period + N + batch_max_age + 1 s` at the latest (as in C123). -/
theorem C128_archived {S : Sorter} {D N1 N2 K p : Int} (hD : 0 ≤ D) {lc : LConf} (hA : 0 ≤ lc.batchMaxAge) {t0 : Int} {tr : List Timed} (R : HRun D lc t0 tr) (hwh : PostsWhole tr) {ms : List FMsg} (hf : HTTPFilterGets tr ms N1)
    {delta : Int} {rules : List Rule} {junk sub : Bytes} {w : FWorker} {st : FStats} {pubss : List (List Pub)}
    (hr : filterRun S (FWorker.new delta rules junk) (FStats.init rules.length) ms = .ok (w, st, pubss)) {evs : List DEvent} (hg : DownsamplerGets ms pubss sub evs N2)
    (hc : PostsStamp S rules junk sub tr K) (hway : lc.batchMaxAge + 2 * D + N1 + N2 + K ≤ p) {fo : FloatOps} (hpl : PlainFloats fo) {now0 d1 d2 : Int} (hp : 0 < p) (hd1 : 0 ≤ d1) (hdd : d1 + d2 ≤ p)
    (hst : Steady now0 (evs.flatMap evOps)) (hk : TimerKept S fo p now0 d1 d2 evs) {pts : List Point}
    (hlines : (messagesIn evs).flatMap (fun m => (splitNL m).filter (fun l => decide (l ≠ []))) = pts.map Point.bare)
    (hu : ∀ w, DWorker.run S (DWorker.new fo p now0) evs = .ok w → ∀ m ∈ w.pubs, m.data.getLast? = some NL)
    (hw : ∀ q ∈ pts, q.WF) (C : OneKind fo (pts.map (·.line))) {wc : WConf} (hwr : wc.rules = []) (hage : 0 ≤ wc.batchMaxAge) {ws : List WSys} {N : Int} (hN : TakenWithin S fo p now0 evs ws N)
    {q : Point} (hq : q ∈ pts) (hW : endOf p q.ts < 9223372036854775808) (h1 : now0 < endOf p q.ts + p) (h2 : endOf p q.ts + p ≤ lastLook now0 (evs.flatMap evOps))
    (hs : PromptPastAll wc ws (q.ts + 3 * p + N + wc.batchMaxAge + 1000000000)) :
    ∃ r : SLine, r.key = q.line.key ∧ (r.fields.map (·.1)).Pairwise (fun a b => bytesLt a b = true) ∧
      (∀ n v, (n, v) ∈ r.fields ↔ samplesOf r.key n (inWindow p (endOf p q.ts) pts) ≠ [] ∧ v = aggSample fo (samplesOf r.key n (inWindow p (endOf p q.ts) pts))) ∧
      ∃ s ∈ ws, ∃ batch t, WEv.flush batch t ∈ s.hist ∧ Point.text ⟨r, endOf p q.ts⟩ <:+: batch ∧ t ≤ q.ts + 3 * p + N + wc.batchMaxAge + 1000000000 :=
  C124_archived hp hpl hd1 hdd hst hk (C128_on_time hD hA R hwh hf hr hg hc hway) hlines hu hw C hwr hage hN hq hW h1 h2 hs

/-! ## A case -/

/-- A measurement of 112 is posted at 112; the batch is sent when it is as old as the limit, at 113; the filter takes it up at 114 and the downsampler of C124's example at 115. -/
def whConf : LConf := ⟨5, 1, 1048576⟩

def whA : Timed := ⟨⟨whConf, ⟨b!"a f=4i 112\n", 1048576, 1, 112⟩, ⟨0, 0, 0, 0⟩, []⟩, 112, .waiting 113⟩

def whL : Listener := ⟨whConf, ⟨[], 1048576, 0, 113⟩, ⟨0, 1, 0, 0⟩, [⟨b!"a f=4i 112\n", false⟩]⟩

def whTr : List Timed := [timedStart whConf 112, ⟨Listener.new whConf 112, 112, .waiting 113⟩, whA, { whA with now := 113 }, ⟨whL, 113, .arming 113⟩, ⟨whL, 113, .waiting 114⟩, ⟨whL, 114, .waiting 114⟩]

theorem wh_run : HRun 0 whConf 112 whTr := by
  refine ⟨rfl, ?_⟩
  intro i a b h1 h2
  match i with
  | 0 => injection h1 with h1; injection h2 with h2; subst h1; subst h2; exact TStep.arm (timedStart whConf 112) 112 rfl
  | 1 => injection h1 with h1; injection h2 with h2; subst h1; subst h2; exact TStep.body ⟨Listener.new whConf 112, 112, .waiting 113⟩ ⟨[b!"a f=4i"], b!" 112\n"⟩ whA.l (by decide +kernel)
  | 2 => injection h1 with h1; injection h2 with h2; subst h1; subst h2; exact TStep.tick whA 113 (by decide) (by show (113 : Int) ≤ 113 + 0; decide)
  | 3 => injection h1 with h1; injection h2 with h2; subst h1; subst h2; exact TStep.fire { whA with now := 113 } 113 (fun _ => false) whL rfl (by decide) (by decide +kernel)
  | 4 => injection h1 with h1; injection h2 with h2; subst h1; subst h2; exact TStep.arm ⟨whL, 113, .arming 113⟩ 113 rfl
  | 5 => injection h1 with h1; injection h2 with h2; subst h1; subst h2; exact TStep.tick ⟨whL, 113, .waiting 114⟩ 114 (by decide) (by show (114 : Int) ≤ 114 + 0; decide)
  | n + 6 => simp [whTr] at h2

theorem wh_published : PublishedAt whTr ⟨b!"a f=4i 112\n", false⟩ 113 := ⟨3, _, _, [⟨b!"a f=4i 112\n", false⟩], rfl, rfl, rfl, List.mem_singleton.2 rfl, rfl⟩

/-- The measurement is all that is posted, at 112. -/
theorem wh_posted {d : Bytes} {t : Int} (h : PostedAt whTr d t) : d = b!"a f=4i 112\n" ∧ t = 112 := by
  obtain ⟨i, a, e, l', h1, ⟨h2, h3, h4⟩, h5, rfl, rfl⟩ := h
  have key : Inv a.l → l'.published ++ l'.batch.buf = a.l.published ++ a.l.batch.buf ++ contrib e := by
    intro I
    obtain ⟨l2, g1, -, -, g2, -⟩ := http_step a.l e I
    rw [h4] at g1
    injection g1 with g1
    subst g1
    exact g2
  have I : Inv a.l := (tinv_reach (D := 0) (by decide) (by decide) (hr_reach wh_run h1)).1.inv
  have key := key I
  match i with
  | 0 =>
    injection h1 with h1; injection h5 with h5; subst h1
    have h6 : l' = Listener.new whConf 112 := (congrArg Timed.l h5).symm
    subst h6
    exact absurd (by simpa [Listener.published, timedStart, Listener.new] using key.symm) h3
  | 1 =>
    injection h1 with h1; injection h5 with h5; subst h1
    have h6 : l' = whA.l := (congrArg Timed.l h5).symm
    subst h6
    exact ⟨key.symm, rfl⟩
  | 2 =>
    injection h1 with h1; injection h5 with h5; subst h1
    exact absurd (show (113 : Int) = 112 from congrArg Timed.now h5) (by decide)
  | 3 =>
    injection h1 with h1; injection h5 with h5; subst h1
    exact absurd (show SPhase.arming 113 = SPhase.waiting 113 from congrArg Timed.phase h5) (by decide)
  | 4 =>
    injection h1 with h1; injection h5 with h5; subst h1
    exact absurd (show SPhase.waiting 114 = SPhase.arming 113 from congrArg Timed.phase h5) (by decide)
  | 5 =>
    injection h1 with h1; injection h5 with h5; subst h1
    exact absurd (show (114 : Int) = 113 from congrArg Timed.now h5) (by decide)
  | n + 6 => simp [whTr] at h5

/-- All hypotheses of `C128_none_refused` are met. -/
example : HRun 0 whConf 112 whTr ∧ PostsWhole whTr ∧ HTTPFilterGets whTr wtMs 1 ∧
    (∃ w st, filterRun insertionSorter (FWorker.new 1000 wtRules b!"junk") (FStats.init wtRules.length) wtMs = .ok (w, st, wtPubss)) ∧ DownsamplerGets wtMs wtPubss b!"as" tkEvents 1 ∧
    PostsStamp insertionSorter wtRules b!"junk" b!"as" whTr 0 ∧ whConf.batchMaxAge + 2 * 0 + 1 + 1 + 0 ≤ 10 ∧ TimerKept insertionSorter wholeFloats 10 115 1 5 tkEvents ∧ Steady 115 (tkEvents.flatMap evOps) := by
  refine ⟨wh_run, ?_, ?_, wt_filtered, ?_, ?_, by decide, tk_kept, ?_⟩
  · intro d t h
    rw [(wh_posted h).1]
    exact ⟨by decide, by decide +kernel⟩
  · intro m hm
    rw [List.mem_singleton.1 hm]
    exact ⟨_, _, wh_published, rfl, by decide, by decide⟩
  · intro ev hev text clk hin
    unfold tkEvents at hev
    simp only [List.mem_cons, List.not_mem_nil, or_false] at hev
    rcases hev with rfl | rfl | rfl
    · simp only [DInput.msg.injEq] at hin
      obtain ⟨rfl, rfl⟩ := hin
      exact ⟨0, _, _, _, rfl, rfl, List.mem_singleton.2 rfl, rfl, rfl, fun k _ => (by decide : (114 : Int) ≤ 115 ∧ (115 : Int) ≤ 114 + 1)⟩
    · cases hin
    · cases hin
  · intro d t h line hl txt ht
    obtain ⟨rfl, rfl⟩ := wh_posted h
    have hl : line ∈ [b!"a f=4i 112\n"] := hl
    rw [List.mem_singleton.1 hl] at ht
    rw [show textTo insertionSorter wtRules b!"junk" b!"as" b!"a f=4i 112\n" = some b!"a f=4i 112\n" by decide +kernel] at ht
    injection ht with ht
    subst ht
    exact ⟨wtPt, wt_wf, by decide +kernel, by decide, by decide⟩
  · have e : tkEvents.flatMap evOps = [.line 115 b!"a f=4i 112", .line 115 [], .tick 116 idOrder, .tick 122 idOrder, .tick 131 idOrder] := rfl
    rw [e]
    unfold Steady
    simp [AOp.now]

/-- The hypotheses of `C128_posted_line` and those of `C125_client` on the listener are met by this run: the measurement is posted at 112 and the clock gets past 113. -/
example : PostedAt whTr b!"a f=4i 112\n" 112 ∧ ∃ b ∈ whTr, 112 + whConf.batchMaxAge + 2 * 0 < b.now :=
  ⟨⟨1, _, .body ⟨[b!"a f=4i"], b!" 112\n"⟩ 112, whA.l, rfl, ⟨Or.inl ⟨_, rfl⟩, by decide, by decide +kernel⟩, rfl, rfl, rfl⟩, ⟨whL, 114, .waiting 114⟩, by simp [whTr], by decide⟩

/-- In the run of C125's example, its line is all that is posted, at 0. -/
theorem exHttp_posted {d : Bytes} {t : Int} (h : PostedAt exHttpTr d t) : d = b!"cpu f=1\n" ∧ t = 0 := by
  obtain ⟨i, a, e, l', h1, ⟨h2, h3, h4⟩, h5, rfl, rfl⟩ := h
  have key : l'.published ++ l'.batch.buf = a.l.published ++ a.l.batch.buf ++ contrib e := by
    obtain ⟨l2, g1, -, -, g2, -⟩ := http_step a.l e (tinv_reach (D := 0) (by decide) (by decide) (hr_reach exHttp_run h1)).1.inv
    rw [h4] at g1
    injection g1 with g1
    subst g1
    exact g2
  match i with
  | 0 =>
    injection h1 with h1; injection h5 with h5; subst h1
    have h6 : l' = Listener.new ⟨5, 1000, 1048576⟩ 0 := (congrArg Timed.l h5).symm
    subst h6
    exact absurd (by simpa [Listener.published, timedStart, Listener.new] using key.symm) h3
  | 1 =>
    injection h1 with h1; injection h5 with h5; subst h1
    have h6 : l' = exHttpA.l := (congrArg Timed.l h5).symm
    subst h6
    exact ⟨key.symm, rfl⟩
  | 2 =>
    injection h1 with h1; injection h5 with h5; subst h1
    exact absurd (show (1000 : Int) = 0 from congrArg Timed.now h5) (by decide)
  | 3 =>
    injection h1 with h1; injection h5 with h5; subst h1
    exact absurd (show SPhase.arming 1000 = SPhase.waiting 1000 from congrArg Timed.phase h5) (by decide)
  | 4 =>
    injection h1 with h1; injection h5 with h5; subst h1
    exact absurd (show SPhase.waiting 2000 = SPhase.arming 1000 from congrArg Timed.phase h5) (by decide)
  | 5 =>
    injection h1 with h1; injection h5 with h5; subst h1
    exact absurd (show (1500 : Int) = 1000 from congrArg Timed.now h5) (by decide)
  | n + 6 => simp [exHttpTr] at h5

/-- The hypotheses of `C125_client` on the listener are met by the run of the example of `C125_end_to_end`, which meets the others. -/
example : PostsWhole exHttpTr ∧ PostedAt exHttpTr b!"cpu f=1\n" 0 ∧ ∃ b ∈ exHttpTr, 0 + 1000 + 2 * 0 < b.now := by
  refine ⟨?_, ⟨1, _, .line b!"cpu f=1\n" 0, exHttpA.l, rfl, ⟨Or.inr ⟨_, by decide, rfl⟩, by decide, rfl⟩, rfl, rfl, rfl⟩, exHttpB, by simp [exHttpTr], by decide⟩
  intro d t h
  rw [(exHttp_posted h).1]
  exact ⟨by decide, by decide +kernel⟩

end Spout.Delivery
