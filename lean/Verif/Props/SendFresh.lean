import Verif.Props.FreshWindow
import Verif.Props.WayThereHTTP

/-! # C130: what is sent to InfluxDB was received not long before

The converse of C109 and C125: every batch that the writer starts to send is put together from lines that clients sent, each not longer before than the limits of listener and writer and the two ways between them add up to. -/

set_option linter.unusedSimpArgs false

namespace Spout.Delivery
open Spout Spout.Listener Spout.Spec Spout.Deploy

/-! ## Specification -/

/-- Each message that the worker `s` of the writer takes up was published by the filter on `sub`, at most `N` after the filter took up the message it came from. -/
def WriterGets (ms : List FMsg) (pubss : List (List Pub)) (sub : Bytes) (s : WSys) (N : Int) : Prop :=
  ∀ d r, WEv.recv d r ∈ s.hist → ∃ (i : Nat) (m : FMsg) (pubs : List Pub) (q : Pub), ms[i]? = some m ∧ pubss[i]? = some pubs ∧ q ∈ pubs ∧ q.subject = sub ∧ q.data = d ∧ m.now ≤ r ∧ r ≤ m.now + N

/-! ## The writer -/

/-- Without rules, what is waiting was received. -/
theorem pending_received (h : List WEv) (z : Bytes × Int) (hz : z ∈ pending [] h) : WEv.recv z.1 z.2 ∈ h := by
  have key : ∀ g : List WEv, z ∈ pending [] g.reverse → WEv.recv z.1 z.2 ∈ g.reverse := by
    intro g
    induction g with
    | nil => intro hm; cases hm
    | cons e g ih =>
      intro hm
      rw [List.reverse_cons] at hm ⊢
      rw [pending_snoc] at hm
      cases e with
      | flush d t => cases hm
      | recv d t =>
        rcases List.mem_append.1 hm with hm | hm
        · exact List.mem_append_left _ (ih hm)
        · have : z = (d, t) := by simpa [pieces] using hm
          subst this
          exact List.mem_append_right _ (List.mem_singleton.2 rfl)
      | _ => exact List.mem_append_left _ (ih hm)
  simpa using key h.reverse (by simpa using hz)

/-- **C130 (writer).** A batch that a promptly scheduled worker starts to send at `u` consists of messages that it took up at most `batch_max_age + 1 s` before. -/
theorem C130_writer (wc : WConf) (hage : 0 ≤ wc.batchMaxAge) (hr : wc.rules = []) (pages : Nat) (start : Int) (s : WSys)
    (h : Prompt wc (WSys.start wc pages start) s) (batch : Bytes) (u : Int) (hu : WEv.flush batch u ∈ s.hist) :
    ∃ P : List (Bytes × Int), batch = (P.map (·.1)).flatten ∧ ∀ z ∈ P, WEv.recv z.1 z.2 ∈ s.hist ∧ z.2 ≤ u ∧ u ≤ z.2 + wc.batchMaxAge + 1000000000 := by
  obtain ⟨h1, h2, e1⟩ := List.append_of_mem hu
  obtain ⟨g1, -, -⟩ := C35_sent_at_limit wc s ⟨pages, start, h.reach⟩ h1 h2 batch u e1
  obtain ⟨a, b, p1, p2, p3, p4⟩ := prompt_flush h rfl h1 h2 batch u e1
  have hf : b.hist = a.hist ++ [.flush batch u] := by rw [p4, p3]
  rw [hr] at g1
  refine ⟨pending [] h1, g1, ?_⟩
  intro z hz
  have h3 := C69_sent_in_time wc hage pages start a b p1 p2 batch u hf z (by rw [hr, p3]; exact hz)
  have h4 := (pending_sorted ⟨pages, start, p1.reach⟩).1 z (by rw [hr, p3]; exact hz)
  have h5 := flush_now p2 hf
  refine ⟨by rw [e1]; exact List.mem_append_left _ (pending_received h1 z hz), by omega, by omega⟩

/-! ## Requests -/

theorem mem_flatten_infix {d : Bytes} {cs : List Bytes} (h : d ∈ cs) : d <:+: cs.flatten := by
  obtain ⟨a, b, rfl⟩ := List.append_of_mem h
  exact ⟨a.flatten, b.flatten, by simp⟩

/-- What is being sent, and what was sent, is part of a batch that was begun before. -/
structure SendInv (s : WSys) : Prop where
  past : ∀ batch u, WEv.flush batch u ∈ s.hist → u ≤ s.now
  again : ∀ i d t, WEv.attempt i d t ∈ s.hist → ∃ batch u, WEv.flush batch u ∈ s.hist ∧ u ≤ t ∧ d <:+: batch
  done : ∀ i d r t, WEv.first i d r t ∈ s.hist → ∃ batch u, WEv.flush batch u ∈ s.hist ∧ u ≤ t ∧ d <:+: batch
  now : ∀ cs, (s.phase = .sending cs ∨ ∃ i d, s.phase = .handoff i d cs) → ∃ batch u, WEv.flush batch u ∈ s.hist ∧ u ≤ s.now ∧ ∀ d ∈ cs, d <:+: batch

theorem sendInv_of {s s' : WSys} (I : SendInv s) (es : List WEv) (h1 : s'.hist = s.hist ++ es) (h2 : (∀ i d r t, WEv.first i d r t ∉ es) ∧ (∀ batch u, WEv.flush batch u ∉ es) ∧ ∀ i d t, WEv.attempt i d t ∈ es → ∃ batch u, WEv.flush batch u ∈ s.hist ∧ u ≤ t ∧ d <:+: batch) (h3 : s.now ≤ s'.now)
    (h4 : s'.phase = s.phase ∨ ∀ cs, ¬ (s'.phase = .sending cs ∨ ∃ i d, s'.phase = .handoff i d cs)) : SendInv s' := by
  refine ⟨?_, ?_, ?_, ?_⟩
  · intro batch u h
    rw [h1] at h
    rcases List.mem_append.1 h with h | h
    · have := I.past batch u h
      omega
    · exact absurd h (h2.2.1 batch u)
  · intro i d t h
    rw [h1] at h
    obtain ⟨batch, u, g1, g2⟩ : ∃ batch u, WEv.flush batch u ∈ s.hist ∧ u ≤ t ∧ d <:+: batch := by
      rcases List.mem_append.1 h with h | h
      · exact I.again i d t h
      · exact h2.2.2 i d t h
    exact ⟨batch, u, by rw [h1]; exact List.mem_append_left _ g1, g2⟩
  · intro i d r t h
    rw [h1] at h
    rcases List.mem_append.1 h with h | h
    · obtain ⟨batch, u, g1, g2⟩ := I.done i d r t h
      exact ⟨batch, u, by rw [h1]; exact List.mem_append_left _ g1, g2⟩
    · exact absurd h (h2.1 i d r t)
  · intro cs hcs
    rcases h4 with h4 | h4
    · rw [h4] at hcs
      obtain ⟨batch, u, g1, g2, g3⟩ := I.now cs hcs
      exact ⟨batch, u, by rw [h1]; exact List.mem_append_left _ g1, by omega, g3⟩
    · exact absurd hcs (h4 cs)

theorem sendInv_step {c : WConf} {s s' : WSys} (hr' : WRun c s') (I : SendInv s) (h : WStep c s s') : SendInv s' := by
  cases h with
  | tick t ht => exact sendInv_of I [] (by simp) (by simp) ht (Or.inl rfl)
  | flush chunks hp h hc =>
    have hx : chunks.flatten = s.batch.bytes := splitAll_flatten hc
    refine ⟨?_, ?_, ?_, ?_⟩
    · intro batch u h
      rcases List.mem_append.1 h with h | h
      · exact I.past batch u h
      · have h := List.mem_singleton.1 h
        injection h with _ h
        rw [h]
    · intro i d t h
      rcases List.mem_append.1 h with h | h
      · obtain ⟨batch, u, g1, g2⟩ := I.again i d t h
        exact ⟨batch, u, List.mem_append_left _ g1, g2⟩
      · cases List.mem_singleton.1 h
    · intro i d r t h
      rcases List.mem_append.1 h with h | h
      · obtain ⟨batch, u, g1, g2⟩ := I.done i d r t h
        exact ⟨batch, u, List.mem_append_left _ g1, g2⟩
      · cases List.mem_singleton.1 h
    · intro cs hcs
      rcases hcs with hcs | ⟨i, d, hcs⟩
      · injection hcs with hcs
        subst hcs
        exact ⟨s.batch.bytes, s.now, List.mem_append_right _ (List.mem_singleton.2 rfl), Int.le_refl _, fun d hd => by rw [← hx]; exact mem_flatten_infix hd⟩
      · cases hcs
  | firstOk chunk rest r hp hr =>
    obtain ⟨batch, u, g1, g2, g3⟩ := I.now (chunk :: rest) (Or.inl hp)
    refine ⟨?_, ?_, ?_, ?_⟩
    · intro batch u h
      rcases List.mem_append.1 h with h | h
      · exact I.past batch u h
      · cases List.mem_singleton.1 h
    · intro i d t h
      rcases List.mem_append.1 h with h | h
      · obtain ⟨batch, u, g1, g2⟩ := I.again i d t h
        exact ⟨batch, u, List.mem_append_left _ g1, g2⟩
      · cases List.mem_singleton.1 h
    · intro i d r' t h
      rcases List.mem_append.1 h with h | h
      · obtain ⟨batch, u, g1, g2⟩ := I.done i d r' t h
        exact ⟨batch, u, List.mem_append_left _ g1, g2⟩
      · have h := List.mem_singleton.1 h
        injection h with _ h1 _ h2
        subst h1
        subst h2
        exact ⟨batch, u, List.mem_append_left _ g1, g2, g3 _ List.mem_cons_self⟩
    · intro cs hcs
      rcases hcs with hcs | ⟨i, d, hcs⟩
      · injection hcs with hcs
        subst hcs
        exact ⟨batch, u, List.mem_append_left _ g1, g2, fun d hd => g3 d (List.mem_cons_of_mem _ hd)⟩
      · cases hcs
  | firstFail chunk rest r e hp hr =>
    obtain ⟨batch, u, g1, g2, g3⟩ := I.now (chunk :: rest) (Or.inl hp)
    refine ⟨?_, ?_, ?_, ?_⟩
    · intro batch u h
      rcases List.mem_append.1 h with h | h
      · exact I.past batch u h
      · cases List.mem_singleton.1 h
    · intro i d t h
      rcases List.mem_append.1 h with h | h
      · obtain ⟨batch, u, g1, g2⟩ := I.again i d t h
        exact ⟨batch, u, List.mem_append_left _ g1, g2⟩
      · cases List.mem_singleton.1 h
    · intro i d r' t h
      rcases List.mem_append.1 h with h | h
      · obtain ⟨batch, u, g1, g2⟩ := I.done i d r' t h
        exact ⟨batch, u, List.mem_append_left _ g1, g2⟩
      · have h := List.mem_singleton.1 h
        injection h with _ h1 _ h2
        subst h1
        subst h2
        exact ⟨batch, u, List.mem_append_left _ g1, g2, g3 _ List.mem_cons_self⟩
    · intro cs hcs
      have key : cs = rest := by
        rcases hcs with hcs | ⟨i, d, hcs⟩ <;> dsimp only at hcs <;> split at hcs <;> first | (injection hcs with _ _ h; exact h.symm) | (injection hcs with h; exact h.symm) | cases hcs
      subst key
      exact ⟨batch, u, List.mem_append_left _ g1, g2, fun d hd => g3 d (List.mem_cons_of_mem _ hd)⟩
  | handoff i chunk rest hp hc =>
    obtain ⟨batch, u, g1, g2, g3⟩ := I.now rest (Or.inr ⟨i, chunk, hp⟩)
    refine ⟨I.past, I.again, I.done, ?_⟩
    intro cs hcs
    rcases hcs with hcs | ⟨i, d, hcs⟩
    · injection hcs with hcs
      subst hcs
      exact ⟨batch, u, g1, g2, g3⟩
    · cases hcs
  | fire dl gone b' q hp hd ht hq =>
    have e := reportWrite_same c { s with rphase := .writing b'.id, nextSend := none, queue := b' :: q, hist := s.hist ++ (gone.map fun g => .expired g.id s.now) ++ [.attempt b'.id b'.buf s.now] }
    refine sendInv_of I ((gone.map fun g => .expired g.id s.now) ++ [.attempt b'.id b'.buf s.now]) ?_ ⟨by simp, by simp, ?_⟩ ?_ (Or.inl e.1)
    · rw [e.2.1]
      exact List.append_assoc _ _ _
    · intro i d t h
      have h0 : WEv.attempt i d t ∈ (WSys.reportWrite c { s with rphase := .writing b'.id, nextSend := none, queue := b' :: q, hist := s.hist ++ (gone.map fun g => .expired g.id s.now) ++ [.attempt b'.id b'.buf s.now] }).hist := by
        rw [e.2.1]
        show _ ∈ s.hist ++ _ ++ _
        rw [List.append_assoc]
        exact List.mem_append_right _ h
      obtain ⟨⟨r, t0, h1⟩, -⟩ := C42_same_data c _ hr' i d t h0
      rw [e.2.1] at h1
      have h1 : WEv.first i d r t0 ∈ s.hist := by simpa using h1
      obtain ⟨batch, u, g1, g2, g3⟩ := I.done i d r t0 h1
      have ht' : t = s.now := by
        have : i = b'.id ∧ d = b'.buf ∧ t = s.now := by simpa using h
        exact this.2.2
      exact ⟨batch, u, g1, by rw [ht']; exact I.past batch u g1, g3⟩
    · rw [e.2.2.2.1]
  | finish i r hp =>
    have e := finishRetry_same c { s with rphase := .top, hist := s.hist ++ [.result i r s.now] } r
    refine sendInv_of I [.result i r s.now] e.2.1 (by simp) ?_ (Or.inl e.1)
    rw [e.2.2.2.1]
  | input i buf q gone hp hc hq => exact sendInv_of I _ (List.append_assoc _ _ _) (by simp) (Int.le_refl _) (Or.inl rfl)
  | fireEmpty d gone hp hd ht hf => exact sendInv_of I _ rfl (by simp) (Int.le_refl _) (Or.inl rfl)
  | recv w data b hp hb => exact sendInv_of I _ rfl (by simp) (Int.le_refl _) (by right; intro cs h; rcases h with h | ⟨_, _, h⟩ <;> cases h)
  | stop => exact sendInv_of I [] (List.append_nil _).symm (by simp) (Int.le_refl _) (Or.inl rfl)
  | arm hp => exact sendInv_of I [] (List.append_nil _).symm (by simp) (Int.le_refl _) (Or.inl rfl)
  | retryQuit hp hw => exact sendInv_of I [] (List.append_nil _).symm (by simp) (Int.le_refl _) (Or.inl rfl)
  | _ => exact sendInv_of I [] (List.append_nil _).symm (by simp) (Int.le_refl _) (by right; intro cs h; rcases h with h | ⟨_, _, h⟩ <;> cases h)

theorem sendInv_reach {c : WConf} {pages : Nat} {now : Int} {s : WSys} (h : WReach c (WSys.start c pages now) s) : SendInv s := by
  generalize ha : WSys.start c pages now = a at h
  induction h with
  | refl =>
    subst ha
    refine ⟨fun _ _ h => (by cases h), fun _ _ _ h => (by cases h), fun i d r t h => (by cases h), fun cs h => ?_⟩
    rcases h with h | ⟨_, _, h⟩ <;> cases h
  | step hab hst ih => exact sendInv_step ⟨pages, now, by rw [ha]; exact .step hab hst⟩ ih hst

/-- **C130 (requests).** The body of every request that the worker of a writer makes, first request or retry, is part of a batch that it had begun to send by then. -/
theorem C130_requests (wc : WConf) (s : WSys) (h : WRun wc s) (i : Nat) (d : Bytes) (t : Int) (hd : (∃ r, WEv.first i d r t ∈ s.hist) ∨ WEv.attempt i d t ∈ s.hist) :
    ∃ batch u, WEv.flush batch u ∈ s.hist ∧ d <:+: batch ∧ u ≤ t := by
  obtain ⟨pages, now, h⟩ := h
  have I := sendInv_reach h
  rcases hd with ⟨r, hd⟩ | hd
  · obtain ⟨batch, u, g1, g2, g3⟩ := I.done i d r t hd
    exact ⟨batch, u, g1, g3, g2⟩
  · obtain ⟨batch, u, g1, g2, g3⟩ := I.again i d t hd
    exact ⟨batch, u, g1, g3, g2⟩

/-! ## The filter -/

/-- The same with the texts that the filter made of the lines it received. -/
theorem C130_filtered {S : Sorter} {delta : Int} {rules : List Rule} {junk sub : Bytes} {ms : List FMsg} {w : FWorker} {st : FStats} {pubss : List (List Pub)} {N : Int} {s : WSys}
    (hf : filterRun S (FWorker.new delta rules junk) (FStats.init rules.length) ms = .ok (w, st, pubss)) (hg : WriterGets ms pubss sub s N)
    {wc : WConf} (hage : 0 ≤ wc.batchMaxAge) (hr : wc.rules = []) {pages : Nat} {start : Int} (h : Prompt wc (WSys.start wc pages start) s) {batch : Bytes} {u : Int} (hu : WEv.flush batch u ∈ s.hist) :
    ∃ G : List Bytes, batch = G.flatten ∧ ∀ txt ∈ G, ∃ m ∈ ms, ∃ line ∈ linesOf m.data, textTo S rules junk sub line = some txt ∧ m.now ≤ u ∧ u ≤ m.now + N + wc.batchMaxAge + 1000000000 := by
  obtain ⟨P, hP, hz⟩ := C130_writer wc hage hr pages start s h batch u hu
  subst hP
  clear hu
  induction P with
  | nil => exact ⟨[], rfl, by simp⟩
  | cons z P ih =>
    obtain ⟨G, g1, g2⟩ := ih fun x hx => hz x (List.mem_cons_of_mem _ hx)
    obtain ⟨z1, z2, z3⟩ := hz z List.mem_cons_self
    obtain ⟨i, m, pubs, q, a1, a2, a3, a4, a5, a6, a7⟩ := hg z.1 z.2 z1
    obtain ⟨g, k1, k2⟩ := filter_from hf a1 a2 a3 a4
    refine ⟨g ++ G, by rw [List.map_cons, List.flatten_cons, g1, List.flatten_append, ← k1, a5], ?_⟩
    intro txt ht
    rcases List.mem_append.1 ht with ht | ht
    · obtain ⟨line, l1, l2⟩ := k2 txt ht
      exact ⟨m, List.mem_of_getElem? a1, line, l1, l2, by omega, by omega⟩
    · exact g2 txt ht

/-! ## End to end -/

/-- **C130 (UDP).** If the listener looks at the clock within `G` of reading and at least every `G`, a message takes at most `N1` to the filter and from there at most `N2` to the writer, then every batch that a promptly scheduled worker of the writer starts to send at `u` is put
together from texts that the rules make of lines of datagrams, each read before `u` and at most `batch_max_age of the listener + G + N1 + N2 + batch_max_age of the writer + 1 s` before. -/
theorem C130_udp {S : Sorter} {G N1 N2 : Int} {lc : LConf} (hsize : lc.batchMaxSize ≤ 1048576) (hA : 0 ≤ lc.batchMaxAge) {t0 : Int} {es : List UDPEvent} (hd : ∀ x ∈ es, x.data.length ≤ 65507) (L : LoopEvery G es)
    {ms : List FMsg} (hfg : FilterGets lc t0 es ms N1) {delta : Int} {rules : List Rule} {junk sub : Bytes} {w : FWorker} {st : FStats} {pubss : List (List Pub)}
    (hf : filterRun S (FWorker.new delta rules junk) (FStats.init rules.length) ms = .ok (w, st, pubss)) {s : WSys} (hg : WriterGets ms pubss sub s N2)
    {wc : WConf} (hage : 0 ≤ wc.batchMaxAge) (hr : wc.rules = []) {pages : Nat} {start : Int} (h : Prompt wc (WSys.start wc pages start) s) {batch : Bytes} {u : Int} (hu : WEv.flush batch u ∈ s.hist) :
    ∃ T : List Bytes, batch = T.flatten ∧ ∀ txt ∈ T, ∃ x ∈ es, ∃ line ∈ linesOf (completed x.data), textTo S rules junk sub line = some txt ∧
      x.tRead ≤ u ∧ u ≤ x.tRead + lc.batchMaxAge + G + N1 + N2 + wc.batchMaxAge + 1000000000 := by
  obtain ⟨T, t1, t2⟩ := C130_filtered hf hg hage hr h hu
  refine ⟨T, t1, ?_⟩
  intro txt ht
  obtain ⟨m, m1, line, l1, l2, l3, l4⟩ := t2 txt ht
  obtain ⟨q, e, q1, q2, q3, q4⟩ := hfg m m1
  rw [q2] at l1
  obtain ⟨x, x1, x2, x3, x4⟩ := C126_listener hsize hA hd L q1 line l1
  exact ⟨x, x1, line, x2, l2, by omega, by omega⟩

/-- **C130 (HTTP).** The same for an HTTP listener whose goroutine that sends old batches is never delayed by more than `D`: each text comes from a line that a request added to the batch before `u` and at most
`batch_max_age of the listener + 2 * D + N1 + N2 + batch_max_age of the writer + 1 s` before. -/
theorem C130_http {S : Sorter} {D N1 N2 : Int} (hD : 0 ≤ D) {lc : LConf} (hA : 0 ≤ lc.batchMaxAge) {t0 : Int} {tr : List Timed} (R : HRun D lc t0 tr) (hwh : PostsWhole tr)
    {ms : List FMsg} (hfg : HTTPFilterGets tr ms N1) {delta : Int} {rules : List Rule} {junk sub : Bytes} {w : FWorker} {st : FStats} {pubss : List (List Pub)}
    (hf : filterRun S (FWorker.new delta rules junk) (FStats.init rules.length) ms = .ok (w, st, pubss)) {s : WSys} (hg : WriterGets ms pubss sub s N2)
    {wc : WConf} (hage : 0 ≤ wc.batchMaxAge) (hr : wc.rules = []) {pages : Nat} {start : Int} (h : Prompt wc (WSys.start wc pages start) s) {batch : Bytes} {u : Int} (hu : WEv.flush batch u ∈ s.hist) :
    ∃ T : List Bytes, batch = T.flatten ∧ ∀ txt ∈ T, ∃ d t, PostedAt tr d t ∧ ∃ line ∈ linesOf d, textTo S rules junk sub line = some txt ∧
      t ≤ u ∧ u ≤ t + lc.batchMaxAge + 2 * D + N1 + N2 + wc.batchMaxAge + 1000000000 := by
  obtain ⟨T, t1, t2⟩ := C130_filtered hf hg hage hr h hu
  refine ⟨T, t1, ?_⟩
  intro txt ht
  obtain ⟨m, m1, line, l1, l2, l3, l4⟩ := t2 txt ht
  obtain ⟨q, t, q1, q2, q3, q4⟩ := hfg m m1
  rw [q2] at l1
  obtain ⟨d, r, d1, d2, d3, d4⟩ := C128_listener hD hA R hwh q1 line l1
  exact ⟨d, r, d1, line, d2, l2, by omega, by omega⟩

/-! ## A case -/

/-- The writer's worker of C109's example: it took up one message and sent it. -/
theorem sf_writer : ∃ s, Prompt exFreshConf (WSys.start exFreshConf 100000 0) s ∧ WEv.flush b!"cpu f=1\n" 1000002100 ∈ s.hist ∧ WriterGets exFreshMs exFreshPubss b!"cpu-subject" s 50 := by
  obtain ⟨s, hs, hs2⟩ := pActs_hist
    (fun s => decide (WEv.flush b!"cpu f=1\n" 1000002100 ∈ s.hist) &&
      s.hist.all (fun e => match e with | .recv d r => decide (d = b!"cpu f=1\n" ∧ r = 2100) | _ => true))
    (c := exFreshConf) (s0 := WSys.start exFreshConf 100000 0) (as := exFreshActs) (by decide +kernel)
  simp only [Bool.and_eq_true, decide_eq_true_eq] at hs2
  refine ⟨s, hs, hs2.1, ?_⟩
  intro d r hdr
  have := List.all_eq_true.1 hs2.2 _ hdr
  obtain ⟨rfl, rfl⟩ := of_decide_eq_true this
  exact ⟨0, _, _, _, rfl, rfl, List.mem_singleton.2 rfl, rfl, rfl, by decide, by decide⟩

theorem sf_filtered : ∃ w st, filterRun insertionSorter (FWorker.new 1000 exRules b!"junk") (FStats.init exRules.length) exFreshMs = .ok (w, st, exFreshPubss) := by
  have hf : (match filterRun insertionSorter (FWorker.new 1000 exRules b!"junk") (FStats.init exRules.length) exFreshMs with
      | .ok (_, _, x) => some x | .panic => none) = some exFreshPubss := by decide +kernel
  cases hc : filterRun insertionSorter (FWorker.new 1000 exRules b!"junk") (FStats.init exRules.length) exFreshMs with
  | panic => rw [hc] at hf; cases hf
  | ok x =>
    obtain ⟨w, st, y⟩ := x
    rw [hc] at hf
    injection hf with hf
    subst hf
    exact ⟨w, st, rfl⟩

/-- The hypotheses of `C130_requests` are met: the worker of C109's example makes a request. -/
example : ∃ s, WRun exFreshConf s ∧ WEv.first 0 b!"cpu f=1\n" (.status 204) 1000002100 ∈ s.hist := by
  obtain ⟨s, hs, hs2⟩ := pActs_hist (fun s => decide (WEv.first 0 b!"cpu f=1\n" (.status 204) 1000002100 ∈ s.hist))
    (c := exFreshConf) (s0 := WSys.start exFreshConf 100000 0) (as := exFreshActs) (by decide +kernel)
  exact ⟨s, ⟨100000, 0, hs.reach⟩, of_decide_eq_true hs2⟩

/-- The hypotheses of `C130_udp` are met by the run of C109's example. -/
example : LoopEvery 2000 exFreshEvents ∧ FilterGets ⟨5, 1000, 1048576⟩ 0 exFreshEvents exFreshMs 50 ∧
    (∃ w st, filterRun insertionSorter (FWorker.new 1000 exRules b!"junk") (FStats.init exRules.length) exFreshMs = .ok (w, st, exFreshPubss)) ∧
    ∃ s, Prompt exFreshConf (WSys.start exFreshConf 100000 0) s ∧ WEv.flush b!"cpu f=1\n" 1000002100 ∈ s.hist ∧ WriterGets exFreshMs exFreshPubss b!"cpu-subject" s 50 := by
  refine ⟨⟨by decide, by decide, ?_⟩, ?_, sf_filtered, sf_writer⟩
  · intro a b x y h
    unfold exFreshEvents at h
    match a, h with
    | [], h =>
      simp only [List.nil_append, List.cons.injEq] at h
      obtain ⟨rfl, rfl, -⟩ := h
      decide
    | z :: a, h =>
      have := congrArg List.length h
      simp at this
      omega
  · intro m hm
    rw [List.mem_singleton.1 hm]
    refine ⟨⟨b!"cpu f=1\n", false⟩, ⟨[], false, 2000, 2001, 2002, fun _ => false⟩, ⟨[⟨b!"cpu f=1", false, 1, 2, 3, fun _ => false⟩], [],
      ⟨⟨5, 1000, 1048576⟩, ⟨b!"cpu f=1\n", 1048576, 1, 1⟩, ⟨1, 0, 0, 0⟩, []⟩, exFreshL, [⟨b!"cpu f=1\n", false⟩], rfl, by decide +kernel, by decide +kernel, rfl, List.mem_singleton.2 rfl⟩, rfl, by decide, by decide⟩

/-- The hypotheses of `C130_http` are met by the run of C125's example. -/
example : HRun 0 ⟨5, 1000, 1048576⟩ 0 exHttpTr ∧ PostsWhole exHttpTr ∧ HTTPFilterGets exHttpTr exFreshMs 1050 ∧
    (∃ w st, filterRun insertionSorter (FWorker.new 1000 exRules b!"junk") (FStats.init exRules.length) exFreshMs = .ok (w, st, exFreshPubss)) ∧
    ∃ s, Prompt exFreshConf (WSys.start exFreshConf 100000 0) s ∧ WEv.flush b!"cpu f=1\n" 1000002100 ∈ s.hist ∧ WriterGets exFreshMs exFreshPubss b!"cpu-subject" s 50 := by
  refine ⟨exHttp_run, ?_, ?_, sf_filtered, sf_writer⟩
  · intro d t h
    rw [(exHttp_posted h).1]
    exact ⟨by decide, by decide +kernel⟩
  · intro m hm
    rw [List.mem_singleton.1 hm]
    exact ⟨⟨b!"cpu f=1\n", false⟩, 1000, ⟨3, _, _, [⟨b!"cpu f=1\n", false⟩], rfl, rfl, rfl, List.mem_singleton.2 rfl, rfl⟩, rfl, by decide, by decide⟩

end Spout.Delivery
