import Verif.Props.Freshness
import Verif.Props.ArchiveFresh
import Verif.Props.DownsamplerTimer

/-! # C126: how long the way to the downsampler may be

What a UDP listener publishes is not old; so what a filter and a downsampler get is not old either, and nothing is refused if the way is shorter than a period. -/

set_option linter.unusedSimpArgs false

namespace Spout.Delivery
open Spout Spout.Listener Spout.Spec

/-! ## Specification -/

/-- The iterations of a UDP listener: it looks at the clock within `G` of reading and at least every `G`, and the clock is not set back. -/
structure LoopEvery (G : Int) (es : List UDPEvent) : Prop where
  check : ∀ x ∈ es, x.tRead ≤ x.tCheck ∧ x.tCheck ≤ x.tRead + G
  order : es.Pairwise fun x y => x.tRead ≤ y.tRead
  gap : ∀ (a b : List UDPEvent) (x y : UDPEvent), es = a ++ x :: y :: b → y.tCheck ≤ x.tCheck + G

/-- The message `q` is published by the iteration `e` of a UDP listener. -/
def PublishedBy (lc : LConf) (t0 : Int) (es : List UDPEvent) (q : LPub) (e : UDPEvent) : Prop :=
  ∃ (seen after : List UDPEvent) (l1 l2 : Listener) (ps : List LPub), es = seen ++ e :: after ∧
    udpRun (Listener.new lc t0) seen = .ok l1 ∧ udpRun (Listener.new lc t0) (seen ++ [e]) = .ok l2 ∧ l2.pubs = l1.pubs ++ ps ∧ q ∈ ps

/-- Each message that the filter takes up was published by the listener at most `N` earlier. -/
def FilterGets (lc : LConf) (t0 : Int) (es : List UDPEvent) (ms : List FMsg) (N : Int) : Prop :=
  ∀ m ∈ ms, ∃ q e, PublishedBy lc t0 es q e ∧ m.data = q.data ∧ e.tCheck ≤ m.now ∧ m.now ≤ e.tCheck + N

/-- Each message that the downsampler takes up was published by the filter on `sub`, and its lines are handled at most `N` after the filter took up the message it came from. -/
def DownsamplerGets (ms : List FMsg) (pubss : List (List Pub)) (sub : Bytes) (evs : List DEvent) (N : Int) : Prop :=
  ∀ ev ∈ evs, ∀ text clk, ev.input = .msg text clk → ∃ (i : Nat) (m : FMsg) (pubs : List Pub) (q : Pub), ms[i]? = some m ∧ pubss[i]? = some pubs ∧ q ∈ pubs ∧ q.subject = sub ∧ q.data = text ∧
    ∀ k < (splitNL text).length, m.now ≤ clk k ∧ clk k ≤ m.now + N

/-- The lines that the clients send and that belong to `sub` are measurements with a time that is at most `K` before they are read. -/
def ClientsStamp (S : Sorter) (rules : List Rule) (junk sub : Bytes) (es : List UDPEvent) (K : Int) : Prop :=
  ∀ x ∈ es, ∀ line ∈ linesOf (completed x.data), ∀ txt, textTo S rules junk sub line = some txt → ∃ pt : Point, pt.WF ∧ txt = pt.text ∧ x.tRead - K ≤ pt.ts ∧ pt.ts ≤ x.tRead

/-! ## The listener -/

/-- What is collected after `seen`: datagrams in the order they were read, none as old as the limit when the clock was last looked at. -/
structure PendInv (c : BLimits) (seen : List UDPEvent) (s : BState) : Prop where
  src : ∀ z ∈ s.2, ∃ x ∈ seen, z = (completed x.data, x.tRead) ∧ x.data ≠ []
  order : s.2.Pairwise fun x y => x.2 ≤ y.2
  young : ∀ f, seen.getLast? = some f → ∀ z ∈ s.2, f.tCheck < z.2 + c.age

theorem bytesOf_ne {p : List (Bytes × Int)} (h : ∀ z ∈ p, z.1 ≠ []) (hb : bytesOf p = []) : p = [] := by
  cases p with
  | nil => rfl
  | cons z p =>
    exfalso
    unfold bytesOf at hb
    rw [List.flatMap_cons] at hb
    exact h z List.mem_cons_self (List.append_eq_nil_iff.1 hb).1

theorem young_of_head {A t : Int} {p : List (Bytes × Int)} (hp : p.Pairwise fun x y => x.2 ≤ y.2) (h : oldEnough A t p = false) : ∀ z ∈ p, t < z.2 + A := by
  cases p with
  | nil => intro z hz; cases hz
  | cons x p =>
    have h : ¬ (x.2 + A ≤ t) := of_decide_eq_false h
    intro z hz
    rcases List.mem_cons.1 hz with rfl | hz
    · omega
    · have := (List.pairwise_cons.1 hp).1 z hz
      omega

theorem pend_step {c : BLimits} {G : Int} (hA : 0 ≤ c.age) {seen : List UDPEvent} {s : BState} (I : PendInv c seen s) (e : UDPEvent)
    (h1 : e.tRead ≤ e.tCheck ∧ e.tCheck ≤ e.tRead + G) (h2 : ∀ x ∈ seen, x.tRead ≤ e.tRead) (h3 : ∀ f, seen.getLast? = some f → e.tCheck ≤ f.tCheck + G) :
    PendInv c (seen ++ [e]) (brun c s (udpOps e)) ∧ ((brun c s (udpOps e)).1 = s.1 ∨ ∃ P : List (Bytes × Int), (brun c s (udpOps e)).1 = s.1 ++ [bytesOf P] ∧
      ∀ z ∈ P, ∃ x ∈ seen ++ [e], z = (completed x.data, x.tRead) ∧ e.tCheck - c.age - G ≤ x.tRead) := by
  obtain ⟨P, hP, hsrc, hord, hage⟩ : ∃ P : List (Bytes × Int), brun c s (udpOps e) = sendIf (full c P || oldEnough c.age e.tCheck P) (s.1, P) ∧
      (∀ z ∈ P, ∃ x ∈ seen ++ [e], z = (completed x.data, x.tRead) ∧ x.data ≠ []) ∧ P.Pairwise (fun x y => x.2 ≤ y.2) ∧ ∀ z ∈ P, e.tCheck - c.age - G ≤ z.2 := by
    have hold : ∀ z ∈ s.2, e.tCheck - c.age - G ≤ z.2 := by
      intro z hz
      obtain ⟨x, hx, -⟩ := I.src z hz
      obtain ⟨f, hf⟩ : ∃ f, seen.getLast? = some f := by
        cases hl : seen.getLast? with
        | none => rw [List.getLast?_eq_none_iff.1 hl] at hx; cases hx
        | some f => exact ⟨f, rfl⟩
      have := I.young f hf z hz
      have := h3 f hf
      omega
    by_cases he : e.data = []
    · refine ⟨s.2, by simp [udpOps, he, brun, bstep], ?_, I.order, hold⟩
      intro z hz
      obtain ⟨x, hx, h⟩ := I.src z hz
      exact ⟨x, List.mem_append_left _ hx, h⟩
    · refine ⟨s.2 ++ [(completed e.data, e.tRead)], by simp [udpOps, he, brun, bstep], ?_, ?_, ?_⟩
      · intro z hz
        rcases List.mem_append.1 hz with hz | hz
        · obtain ⟨x, hx, h⟩ := I.src z hz
          exact ⟨x, List.mem_append_left _ hx, h⟩
        · rw [List.mem_singleton.1 hz]
          exact ⟨e, by simp, rfl, he⟩
      · refine List.pairwise_append.2 ⟨I.order, List.pairwise_singleton .., ?_⟩
        intro z hz y hy
        rw [List.mem_singleton.1 hy]
        obtain ⟨x, hx, h, -⟩ := I.src z hz
        rw [h]
        exact h2 x hx
      · intro z hz
        rcases List.mem_append.1 hz with hz | hz
        · exact hold z hz
        · rw [List.mem_singleton.1 hz]
          show _ ≤ e.tRead
          omega
  rw [hP]
  unfold sendIf
  split
  · refine ⟨⟨by simp, by simp, by simp⟩, Or.inr ⟨P, rfl, ?_⟩⟩
    intro z hz
    obtain ⟨x, hx, h, -⟩ := hsrc z hz
    refine ⟨x, hx, h, ?_⟩
    have := hage z hz
    rw [h] at this
    exact this
  · next hno =>
    refine ⟨⟨hsrc, hord, ?_⟩, Or.inl rfl⟩
    intro f hf
    rw [List.getLast?_append] at hf
    have hf : e = f := by simpa using hf
    subst hf
    by_cases hb : bytesOf P = []
    · have : P = [] := bytesOf_ne (fun z hz => by
        obtain ⟨x, -, h, h0⟩ := hsrc z hz
        rw [h]
        exact (completed_ends _ h0).1) hb
      show ∀ z ∈ P, _
      rw [this]
      intro z hz
      cases hz
    · refine young_of_head hord ?_
      cases ho : oldEnough c.age e.tCheck P with
      | false => rfl
      | true => exact absurd ⟨hb, by rw [ho, Bool.or_true]⟩ hno

theorem pend_run {c : BLimits} {G : Int} (hA : 0 ≤ c.age) : ∀ (rest seen : List UDPEvent) (s : BState), LoopEvery G (seen ++ rest) → PendInv c seen s →
    PendInv c (seen ++ rest) (brun c s (rest.flatMap udpOps)) := by
  intro rest
  induction rest with
  | nil => intro seen s _ I; rw [List.append_nil]; exact I
  | cons e rest ih =>
    intro seen s L I
    rw [List.flatMap_cons, brun_append]
    rw [show seen ++ e :: rest = (seen ++ [e]) ++ rest by simp] at L ⊢
    refine ih (seen ++ [e]) _ L (pend_step (G := G) hA I e (L.check e (by simp)) ?_ ?_).1
    · intro x hx
      have := L.order
      rw [List.append_assoc] at this
      exact (List.pairwise_append.1 this).2.2 x hx e (by simp)
    · intro f hf
      obtain ⟨a, ha⟩ := List.getLast?_eq_some_iff.1 hf
      exact L.gap a rest f e (by rw [ha]; simp)

theorem loop_prefix {G : Int} {a b : List UDPEvent} (L : LoopEvery G (a ++ b)) : LoopEvery G a := by
  refine ⟨fun x hx => L.check x (List.mem_append_left _ hx), (List.pairwise_append.1 L.order).1, ?_⟩
  intro a' b' x y h
  exact L.gap a' (b' ++ b) x y (by rw [h]; simp)

/-- **C126 (listener).** Each line in a message that the UDP listener publishes is a line of a datagram read at most `batch_max_age + G` before the listener looked at the clock to publish it. -/
theorem C126_listener {G : Int} {lc : LConf} (hsize : lc.batchMaxSize ≤ 1048576) (hA : 0 ≤ lc.batchMaxAge) {t0 : Int} {es : List UDPEvent} (hd : ∀ x ∈ es, x.data.length ≤ 65507) (L : LoopEvery G es)
    {q : LPub} {e : UDPEvent} (h : PublishedBy lc t0 es q e) :
    ∀ line ∈ linesOf q.data, ∃ x ∈ es, line ∈ linesOf (completed x.data) ∧ x.tRead ≤ e.tCheck ∧ e.tCheck ≤ x.tRead + lc.batchMaxAge + G := by
  obtain ⟨seen, after, l1, l2, ps, hes, r1, r2, hps, hq⟩ := h
  rw [show seen ++ e :: after = (seen ++ [e]) ++ after by simp] at hes
  subst hes
  have L2 := loop_prefix L
  have hd2 : ∀ x ∈ seen ++ [e], x.data.length ≤ 65507 := fun x hx => hd x (List.mem_append_left _ hx)
  obtain ⟨l1', a1, a2⟩ := udp_run_tracks lc t0 seen (fun x hx => Nat.le_trans (hd2 x (List.mem_append_left _ hx)) (by omega))
  obtain ⟨l2', b1, b2⟩ := udp_run_tracks lc t0 (seen ++ [e]) (fun x hx => Nat.le_trans (hd2 x hx) (by omega))
  rw [r1] at a1
  rw [r2] at b1
  injection a1 with a1
  injection b1 with b1
  subst a1
  subst b1
  have I := pend_run (c := lc.limits) hA seen [] ([], []) (loop_prefix L2) ⟨by simp, by simp, by simp⟩
  rw [List.nil_append] at I
  have hord : ∀ x ∈ seen, x.tRead ≤ e.tRead := fun x hx => (List.pairwise_append.1 L2.order).2.2 x hx e (by simp)
  have hc := L2.check e (by simp)
  obtain ⟨-, hcase⟩ := pend_step (G := G) hA I e hc hord (by
    intro f hf
    obtain ⟨a, ha⟩ := List.getLast?_eq_some_iff.1 hf
    exact L2.gap a [] f e (by rw [ha]; simp))
  have hpub := b2.pubs
  rw [List.flatMap_append, brun_append] at hpub
  simp only [List.flatMap_cons, List.flatMap_nil, List.append_nil] at hpub
  rw [hps, List.map_append, a2.pubs] at hpub
  rcases hcase with hcase | ⟨P, hP, hsrc⟩
  · rw [hcase] at hpub
    have : ps.map (·.data) = [] := by simpa using hpub
    rw [List.map_eq_nil_iff.1 this] at hq
    cases hq
  · rw [hP, List.flatMap_append] at hpub
    have hdat : ps.map (·.data) = messagesOf (bytesOf P) := by simpa using List.append_cancel_left hpub
    have hnl := (listener_lines lc hsize t0 (seen ++ [e]) hd2 l2 r2).2
    intro line hl
    have h1 : line ∈ linesOf (ps.map (·.data)).flatten := by
      rw [linesOf_flatten_complete _ (by
        intro d hdm
        obtain ⟨q', hq', rfl⟩ := List.mem_map.1 hdm
        exact hnl q' (by rw [hps]; exact List.mem_append_right _ hq'))]
      exact List.mem_flatMap.2 ⟨q.data, List.mem_map.2 ⟨q, hq, rfl⟩, hl⟩
    rw [hdat, messagesOf_flatten, show bytesOf P = (P.map (·.1)).flatten by rw [bytesOf, List.flatMap_def], linesOf_flatten_complete _ (by
        intro d hdm
        obtain ⟨z, hz, rfl⟩ := List.mem_map.1 hdm
        obtain ⟨x, -, h, -⟩ := hsrc z hz
        rw [h]
        exact completed_complete _)] at h1
    obtain ⟨d, hdm, hld⟩ := List.mem_flatMap.1 h1
    obtain ⟨z, hz, rfl⟩ := List.mem_map.1 hdm
    obtain ⟨x, hx, h, hage⟩ := hsrc z hz
    rw [h] at hld
    refine ⟨x, List.mem_append_left _ hx, hld, ?_, ?_⟩
    · rcases List.mem_append.1 hx with hx | hx
      · have := hord x hx
        omega
      · rw [List.mem_singleton.1 hx]
        exact hc.1
    · have : e.tCheck - lc.batchMaxAge - G ≤ x.tRead := hage
      omega

/-! ## The filter -/

/-- A message that the filter publishes on `sub` consists of the texts of lines of the message it took up. -/
theorem filter_from {S : Sorter} {delta : Int} {rules : List Rule} {junk sub : Bytes} {ms : List FMsg} {w : FWorker} {st : FStats} {pubss : List (List Pub)}
    (h : filterRun S (FWorker.new delta rules junk) (FStats.init rules.length) ms = .ok (w, st, pubss)) {i : Nat} {m : FMsg} {pubs : List Pub} (hm : ms[i]? = some m) (hp : pubss[i]? = some pubs)
    {q : Pub} (hq : q ∈ pubs) (hs : q.subject = sub) :
    ∃ g : List Bytes, q.data = g.flatten ∧ ∀ t ∈ g, ∃ line ∈ linesOf m.data, textTo S rules junk sub line = some t := by
  obtain ⟨st', pubss', g1, g2⟩ := C16_history S delta rules junk ms
  rw [h] at g1
  injection g1 with g1
  injection g1 with _ g1
  injection g1 with _ g1
  subst g1
  have g3 : pubs.map (fun p => (p.subject, p.data)) = expectedPubs rules junk (outcomes S rules delta m.now m.data) := by
    have := congrArg (fun (x : List (List (Bytes × Bytes))) => x[i]?) g2
    simpa only [List.getElem?_map, hm, hp, Option.map_some, Option.some.injEq] using this
  obtain ⟨D, d1, d2⟩ := message_groups rules junk sub _ (noEmpty_outcomes S rules delta m.now m.data)
  have hin : q.data ∈ onSubject sub pubs := by
    unfold onSubject
    exact List.mem_map.2 ⟨q, List.mem_filter.2 ⟨hq, by simpa using hs⟩, rfl⟩
  rw [onSubject_pairs, g3, d1] at hin
  obtain ⟨g, hg, hgd⟩ := List.mem_map.1 hin
  refine ⟨g, hgd.symm, ?_⟩
  intro t ht
  have : t ∈ grouped rules junk sub (outcomes S rules delta m.now m.data) := by
    rw [← d2]
    exact List.mem_flatten.2 ⟨g, hg, ht⟩
  rw [(grouped_perm rules junk sub _ (fun i out h => routed_lt_outcomes S rules delta m.now m.data i out h)).mem_iff] at this
  unfold outcomes at this
  rw [List.filterMap_map] at this
  obtain ⟨line, hl, hx⟩ := List.mem_filterMap.1 this
  refine ⟨line, hl, ?_⟩
  rw [Function.comp, onSub_outcome] at hx
  split at hx
  · cases hx
  · exact hx

/-! ## The downsampler -/

/-- **C126 (on time).** If the listener looks at the clock at least every `G`, a message takes at most `N1` to the filter and from there at most `N2` to the downsampler, clients send measurements at most `K` after their time, and
`batch_max_age of the listener + G + N1 + N2 + K` is at most the period, then every measurement reaches the downsampler at most a period late, and not early. -/
theorem C126_on_time {S : Sorter} {G N1 N2 K p : Int} {lc : LConf} (hsize : lc.batchMaxSize ≤ 1048576) (hA : 0 ≤ lc.batchMaxAge) {t0 : Int} {es : List UDPEvent} (hd : ∀ x ∈ es, x.data.length ≤ 65507)
    (L : LoopEvery G es) {ms : List FMsg} (hf : FilterGets lc t0 es ms N1) {delta : Int} {rules : List Rule} {junk sub : Bytes} {w : FWorker} {st : FStats} {pubss : List (List Pub)}
    (hr : filterRun S (FWorker.new delta rules junk) (FStats.init rules.length) ms = .ok (w, st, pubss)) {evs : List DEvent} (hg : DownsamplerGets ms pubss sub evs N2)
    (hc : ClientsStamp S rules junk sub es K) (hp : lc.batchMaxAge + G + N1 + N2 + K ≤ p) : AllOnTime p (evs.flatMap evOps) := by
  intro now l ts body hm hne hst
  obtain ⟨ev, hev, hop⟩ := List.mem_flatMap.1 hm
  unfold evOps at hop
  cases hin : ev.input with
  | timeout => rw [hin] at hop; simp at hop
  | msg text clk =>
    rw [hin] at hop
    simp only [List.mem_append, List.mem_map, List.mem_singleton, reduceCtorEq, or_false, AOp.line.injEq] at hop
    obtain ⟨⟨l', k⟩, hk, hk1, hk2⟩ := hop
    simp only at hk1 hk2
    subst hk1
    subst hk2
    obtain ⟨i, m, pubs, q, a1, a2, a3, a4, a5, a6⟩ := hg ev hev text clk hin
    obtain ⟨-, hklt, -⟩ := List.mem_zipIdx hk
    have hb := a6 k (by omega)
    obtain ⟨g, g1, g2⟩ := filter_from hr a1 a2 a3 a4
    obtain ⟨q0, e, e1, e2, e3, e4⟩ := hf m (List.mem_of_getElem? a1)
    have key : ∀ t ∈ g, ∃ pt : Point, pt.WF ∧ pt.text = t ∧ e.tCheck ≤ pt.ts + K + lc.batchMaxAge + G ∧ pt.ts ≤ e.tCheck := by
      intro t ht
      obtain ⟨line, hl, hx⟩ := g2 t ht
      rw [e2] at hl
      obtain ⟨x, hx1, hx2, hx3, hx4⟩ := C126_listener hsize hA hd L e1 line hl
      obtain ⟨pt, p1, p2, p3, p4⟩ := hc x hx1 line hx2 t hx
      exact ⟨pt, p1, p2.symm, by omega, by omega⟩
    have hpts : ∃ pts : List Point, g = pts.map Point.text ∧ ∀ pt ∈ pts, pt.WF ∧ e.tCheck ≤ pt.ts + K + lc.batchMaxAge + G ∧ pt.ts ≤ e.tCheck := by
      clear g1 g2
      induction g with
      | nil => exact ⟨[], rfl, by simp⟩
      | cons t g ih =>
        obtain ⟨pts, h1, h2⟩ := ih (fun t ht => key t (List.mem_cons_of_mem _ ht))
        obtain ⟨pt, p1, p2, p3⟩ := key t List.mem_cons_self
        refine ⟨pt :: pts, by rw [h1, List.map_cons, p2], ?_⟩
        intro x hx
        rcases List.mem_cons.1 hx with rfl | hx
        · exact ⟨p1, p3⟩
        · exact h2 x hx
    obtain ⟨pts, h1, h2⟩ := hpts
    have hlm : l' ∈ (splitNL (pts.map Point.text).flatten).filter (fun l => decide (l ≠ [])) := by
      rw [← h1, ← g1, a5]
      exact List.mem_filter.2 ⟨List.fst_mem_of_mem_zipIdx hk, by simpa using hne⟩
    rw [split_points pts (fun q hq => (h2 q hq).1)] at hlm
    obtain ⟨pt, hpt, rfl⟩ := List.mem_map.1 hlm
    obtain ⟨w1, w2, w3⟩ := h2 pt hpt
    rw [(bare_stamped w1 hst).1]
    omega

/-- **C126.** Under these conditions a downsampler that keeps its timer refuses no measurement. -/
theorem C126_none_refused {S : Sorter} {G N1 N2 K p : Int} {lc : LConf} (hsize : lc.batchMaxSize ≤ 1048576) (hA : 0 ≤ lc.batchMaxAge) {t0 : Int} {es : List UDPEvent} (hd : ∀ x ∈ es, x.data.length ≤ 65507)
    (L : LoopEvery G es) {ms : List FMsg} (hf : FilterGets lc t0 es ms N1) {delta : Int} {rules : List Rule} {junk sub : Bytes} {w : FWorker} {st : FStats} {pubss : List (List Pub)}
    (hr : filterRun S (FWorker.new delta rules junk) (FStats.init rules.length) ms = .ok (w, st, pubss)) {evs : List DEvent} (hg : DownsamplerGets ms pubss sub evs N2)
    (hc : ClientsStamp S rules junk sub es K) (hp : lc.batchMaxAge + G + N1 + N2 + K ≤ p) (fo : FloatOps) {now0 d1 d2 : Int} (hp0 : 0 < p) (hd1 : 0 ≤ d1) (hdd : d1 + d2 ≤ p)
    (hs : Steady now0 (evs.flatMap evOps)) (hk : TimerKept S fo p now0 d1 d2 evs) :
    ∃ dw : DWorker fo, DWorker.run S (DWorker.new fo p now0) evs = .ok dw ∧ dw.stats.invalidTimestamps = 0 := by
  obtain ⟨dw, -, -, -, -, a1, -, -, -, -, -, a2⟩ := C124_in_time S fo p now0 d1 d2 hp0 hd1 hdd evs hs hk
  exact ⟨dw, a1, a2 (C126_on_time hsize hA hd L hf hr hg hc hp)⟩

/-- **C126 (the archive).** And the row with the aggregated values is in a batch that a writer of the downsampler's output starts to send at `q.ts + 3 * period + N + batch_max_age + 1 s` at the latest (as in C123). -/
theorem C126_archived {S : Sorter} {G N1 N2 K p : Int} {lc : LConf} (hsize : lc.batchMaxSize ≤ 1048576) (hA : 0 ≤ lc.batchMaxAge) {t0 : Int} {es : List UDPEvent} (hd : ∀ x ∈ es, x.data.length ≤ 65507)
    (L : LoopEvery G es) {ms : List FMsg} (hf : FilterGets lc t0 es ms N1) {delta : Int} {rules : List Rule} {junk sub : Bytes} {w : FWorker} {st : FStats} {pubss : List (List Pub)}
    (hr : filterRun S (FWorker.new delta rules junk) (FStats.init rules.length) ms = .ok (w, st, pubss)) {evs : List DEvent} (hg : DownsamplerGets ms pubss sub evs N2)
    (hc : ClientsStamp S rules junk sub es K) (hway : lc.batchMaxAge + G + N1 + N2 + K ≤ p) {fo : FloatOps} (hpl : PlainFloats fo) {now0 d1 d2 : Int} (hp : 0 < p) (hd1 : 0 ≤ d1) (hdd : d1 + d2 ≤ p)
    (hst : Steady now0 (evs.flatMap evOps)) (hk : TimerKept S fo p now0 d1 d2 evs) {pts : List Point}
    (hlines : (messagesIn evs).flatMap (fun m => (splitNL m).filter (fun l => decide (l ≠ []))) = pts.map Point.bare)
    (hu : ∀ w, DWorker.run S (DWorker.new fo p now0) evs = .ok w → ∀ m ∈ w.pubs, m.data.getLast? = some NL)
    (hw : ∀ q ∈ pts, q.WF) (C : OneKind fo (pts.map (·.line))) {wc : WConf} (hwr : wc.rules = []) (hage : 0 ≤ wc.batchMaxAge) {ws : List WSys} {N : Int} (hN : TakenWithin S fo p now0 evs ws N)
    {q : Point} (hq : q ∈ pts) (hW : endOf p q.ts < 9223372036854775808) (h1 : now0 < endOf p q.ts + p) (h2 : endOf p q.ts + p ≤ lastLook now0 (evs.flatMap evOps))
    (hs : PromptPastAll wc ws (q.ts + 3 * p + N + wc.batchMaxAge + 1000000000)) :
    ∃ r : SLine, r.key = q.line.key ∧ (r.fields.map (·.1)).Pairwise (fun a b => bytesLt a b = true) ∧
      (∀ n v, (n, v) ∈ r.fields ↔ samplesOf r.key n (inWindow p (endOf p q.ts) pts) ≠ [] ∧ v = aggSample fo (samplesOf r.key n (inWindow p (endOf p q.ts) pts))) ∧
      ∃ s ∈ ws, ∃ batch t, WEv.flush batch t ∈ s.hist ∧ Point.text ⟨r, endOf p q.ts⟩ <:+: batch ∧ t ≤ q.ts + 3 * p + N + wc.batchMaxAge + 1000000000 :=
  C124_archived hp hpl hd1 hdd hst hk (C126_on_time hsize hA hd L hf hr hg hc hway) hlines hu hw C hwr hage hN hq hW h1 h2 hs

/-! ## A case -/

/-- A measurement of 112 is read at 112 and published at 113, taken up by the filter at 114 and by the downsampler of C124's example at 115. -/
def wtEvents : List UDPEvent := [⟨b!"a f=4i 112", false, 112, 113, 113, fun _ => false⟩]

def wtConf : LConf := ⟨1, 1, 1048576⟩

def wtMs : List FMsg := [⟨114, fun _ => false, b!"a f=4i 112\n"⟩]

def wtRules : List Rule := [createBasicRule b!"a" b!"as"]

def wtPubss : List (List Pub) := [[⟨b!"as", b!"a f=4i 112\n", false⟩]]

def wtL : Listener := ⟨wtConf, ⟨[], 1048576, 0, 113⟩, ⟨1, 1, 0, 0⟩, [⟨b!"a f=4i 112\n", false⟩]⟩

def wtPt : Point := ⟨⟨b!"a", [(b!"f", ⟨false, b!"4i"⟩)]⟩, 112⟩

theorem wt_wf : wtPt.WF := by
  refine ⟨⟨delimitable_of_not_mem (by decide) (by decide) (by decide), by decide +kernel, ?_⟩, by decide +kernel, by decide, by decide⟩
  intro f hf
  have hf : f = (b!"f", ⟨false, b!"4i"⟩) := by simpa [wtPt] using hf
  subst hf
  exact ⟨delimitable_of_not_mem (by decide) (by decide) (by decide), by unfold Sample.WF; decide +kernel⟩

theorem wt_published : PublishedBy wtConf 100 wtEvents ⟨b!"a f=4i 112\n", false⟩ ⟨b!"a f=4i 112", false, 112, 113, 113, fun _ => false⟩ :=
  ⟨[], [], Listener.new wtConf 100, wtL, [⟨b!"a f=4i 112\n", false⟩], rfl, rfl, by decide +kernel, rfl, List.mem_singleton.2 rfl⟩

theorem wt_filtered : ∃ w st, filterRun insertionSorter (FWorker.new 1000 wtRules b!"junk") (FStats.init wtRules.length) wtMs = .ok (w, st, wtPubss) := by
  have hf : (match filterRun insertionSorter (FWorker.new 1000 wtRules b!"junk") (FStats.init wtRules.length) wtMs with
      | .ok (_, _, x) => some x | .panic => none) = some wtPubss := by decide +kernel
  cases hc : filterRun insertionSorter (FWorker.new 1000 wtRules b!"junk") (FStats.init wtRules.length) wtMs with
  | panic => rw [hc] at hf; cases hf
  | ok x =>
    obtain ⟨w, st, y⟩ := x
    rw [hc] at hf
    injection hf with hf
    subst hf
    exact ⟨w, st, rfl⟩

/-- All hypotheses of `C126_none_refused` are met. -/
example : wtConf.batchMaxSize ≤ 1048576 ∧ 0 ≤ wtConf.batchMaxAge ∧ (∀ x ∈ wtEvents, x.data.length ≤ 65507) ∧ LoopEvery 1 wtEvents ∧ FilterGets wtConf 100 wtEvents wtMs 1 ∧
    (∃ w st, filterRun insertionSorter (FWorker.new 1000 wtRules b!"junk") (FStats.init wtRules.length) wtMs = .ok (w, st, wtPubss)) ∧ DownsamplerGets wtMs wtPubss b!"as" tkEvents 1 ∧
    ClientsStamp insertionSorter wtRules b!"junk" b!"as" wtEvents 0 ∧ wtConf.batchMaxAge + 1 + 1 + 1 + 0 ≤ 10 ∧ TimerKept insertionSorter wholeFloats 10 115 1 5 tkEvents ∧ Steady 115 (tkEvents.flatMap evOps) := by
  refine ⟨by decide, by decide, by decide, ⟨?_, ?_, ?_⟩, ?_, wt_filtered, ?_, ?_, by decide, tk_kept, ?_⟩
  · intro x hx
    rw [List.mem_singleton.1 hx]
    decide
  · exact List.pairwise_singleton ..
  · intro a b x y h
    have := congrArg List.length h
    simp [wtEvents] at this
    omega
  · intro m hm
    rw [List.mem_singleton.1 hm]
    exact ⟨_, _, wt_published, rfl, by decide, by decide⟩
  · intro ev hev text clk hin
    unfold tkEvents at hev
    simp only [List.mem_cons, List.not_mem_nil, or_false] at hev
    rcases hev with rfl | rfl | rfl
    · simp only [DInput.msg.injEq] at hin
      obtain ⟨rfl, rfl⟩ := hin
      exact ⟨0, _, _, _, rfl, rfl, List.mem_singleton.2 rfl, rfl, rfl, fun k _ => (by decide : (114 : Int) ≤ 115 ∧ (115 : Int) ≤ 114 + 1)⟩
    · cases hin
    · cases hin
  · intro x hx line hl txt ht
    rw [List.mem_singleton.1 hx] at hl ⊢
    have hl : line ∈ [b!"a f=4i 112\n"] := hl
    rw [List.mem_singleton.1 hl] at ht
    rw [show textTo insertionSorter wtRules b!"junk" b!"as" b!"a f=4i 112\n" = some b!"a f=4i 112\n" by decide +kernel] at ht
    injection ht with ht
    subst ht
    exact ⟨wtPt, wt_wf, by decide +kernel, by decide, by decide⟩
  · have e : tkEvents.flatMap evOps = [.line 115 b!"a f=4i 112", .line 115 [], .tick 116 idOrder, .tick 122 idOrder, .tick 131 idOrder] := rfl
    rw [e]
    unfold Steady
    simp [AOp.now]

/-- The condition is needed: a listener with a `batch_max_age` of 50 publishes a measurement of 112 at 162, and a downsampler with a period of 10 refuses it. -/
theorem C126_condition_needed :
    (match udpRun (Listener.new ⟨1000, 50, 1048576⟩ 100) [⟨b!"a f=4i 112", false, 112, 113, 113, fun _ => false⟩, ⟨[], false, 162, 162, 162, fun _ => false⟩] with
      | .ok l => some (l.pubs.map (·.data)) | .panic => none) = some [b!"a f=4i 112\n"] ∧
    (match DWorker.run insertionSorter (DWorker.new wholeFloats 10 155) [⟨.timeout, 160, idOrder, fun _ => false⟩, ⟨.msg b!"a f=4i 112\n" (fun _ => 162), 162, idOrder, fun _ => false⟩] with
      | .ok w => some w.stats.invalidTimestamps | .panic => none) = some 1 := by
  constructor <;> decide +kernel

end Spout.Delivery
