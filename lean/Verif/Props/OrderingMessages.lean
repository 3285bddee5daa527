import Verif.Props.Ordering

/-! # C106: lines of one message stay together and in order, whatever NATS and the filter workers do -/

set_option linter.unusedSimpArgs false

namespace Spout.Deploy
open Spout Spout.Listener Spout.Pool Spout.Spec Spout.Delivery

universe u

theorem filter_at_most_one {α : Type} (p : α → Bool) : ∀ (l : List α) (i : Nat), (∀ (j : Nat) (a : α), l[j]? = some a → p a = true → j = i) → (l.filter p).length ≤ 1
  | [], _, _ => by simp
  | a :: l, i, h => by
    rw [List.filter_cons]
    by_cases ha : p a = true
    · rw [if_pos ha]
      have : l.filter p = [] := by
        rw [List.filter_eq_nil_iff]
        intro b hb hpb
        obtain ⟨j, hj⟩ := List.getElem?_of_mem hb
        have h1 := h (j + 1) b hj hpb
        have h2 := h 0 a rfl ha
        omega
      rw [this]; simp
    · rw [if_neg ha]
      cases i with
      | zero =>
        have : l.filter p = [] := by
          rw [List.filter_eq_nil_iff]
          intro b hb hpb
          obtain ⟨j, hj⟩ := List.getElem?_of_mem hb
          have h1 := h (j + 1) b hj hpb
          omega
        rw [this]; simp
      | succ i => exact filter_at_most_one p l i fun j b hj hb => by have := h (j + 1) b hj hb; omega

/-- A message of a listener causes at most one message on a subject with one rule. -/
theorem one_message (rules : List Rule) (junk sub : Bytes) (os : List Outcome) (ho : OneRule rules junk sub) :
    ((expectedPubs rules junk os).filter fun p => decide (p.1 = sub)).length ≤ 1 := by
  obtain ⟨hj, i, hi⟩ := ho
  unfold expectedPubs
  rw [List.filter_append, List.filter_filter]
  have e2 : (if junkText os = [] then [] else [(junk, junkText os)]).filter (fun p => decide (p.1 = sub)) = [] := by
    split
    · rfl
    · simp [hj]
  rw [e2, List.append_nil]
  refine Nat.le_trans ?_ (filter_at_most_one (fun p => decide (p.1 = sub)) ((rules.map (·.subject)).zip ((List.range rules.length).map (textFor · os))) i ?_)
  · rw [← List.countP_eq_length_filter, ← List.countP_eq_length_filter]
    exact List.countP_mono_left fun x _ hx => by
      simp only [Bool.and_eq_true] at hx
      exact hx.1
  · intro j a hja ha
    rw [List.getElem?_zip_eq_some] at hja
    obtain ⟨h1, -⟩ := hja
    rw [List.getElem?_map] at h1
    cases hr : rules[j]? with
    | none => rw [hr] at h1; cases h1
    | some r =>
      rw [hr] at h1
      injection h1 with h1
      exact hi j r hr (Eq.trans h1 (of_decide_eq_true ha))

/-- What a filter worker publishes on a subject with one rule: per message received at most one message, made of texts of its lines in their order. -/
theorem filter_parts (S : Sorter) (delta : Int) (rules : List Rule) (junk sub : Bytes) (ho : OneRule rules junk sub) (ms : List FMsg)
    (w : FWorker) (st : FStats) (pubss : List (List Pub))
    (h : filterRun S (FWorker.new delta rules junk) (FStats.init rules.length) ms = .ok (w, st, pubss)) :
    ∃ parts : List (Bytes × List Bytes), onSubject sub pubss.flatten = parts.map (fun p => p.2.flatten) ∧
      (parts.map (·.1)).Sublist (ms.map (·.data)) ∧ ∀ p ∈ parts, p.2.Sublist ((linesOf p.1).filterMap (textTo S rules junk sub)) := by
  obtain ⟨st', pubss', h1, h2⟩ := C16_history S delta rules junk ms
  rw [h] at h1
  injection h1 with h1
  injection h1 with _ h1
  injection h1 with _ h1
  subst h1
  clear h
  induction ms generalizing pubss with
  | nil =>
    have : pubss = [] := by simpa using h2
    subst this
    exact ⟨[], rfl, List.Sublist.refl _, fun p hp => by cases hp⟩
  | cons m ms ih =>
    cases pubss with
    | nil => cases h2
    | cons pubs pubss =>
      rw [List.map_cons, List.map_cons] at h2
      injection h2 with h2 h3
      obtain ⟨parts, g1, g2, g3⟩ := ih pubss h3
      obtain ⟨D0, g4, g5⟩ := message_groups rules junk sub _ (noEmpty_outcomes S rules delta m.now m.data)
      have hlen := one_message rules junk sub (outcomes S rules delta m.now m.data) ho
      have hD : D0.length ≤ 1 := by
        have := congrArg List.length g4
        rw [List.length_map, List.length_map] at this
        omega
      have hgr := grouped_ordered rules junk sub _ (fun i out h => routed_lt_outcomes S rules delta m.now m.data i out h) ho
      have hacc := accepted_sublist S rules junk sub delta m
      have hflat : onSubject sub (pubs :: pubss).flatten = D0.map List.flatten ++ parts.map (fun p => p.2.flatten) := by
        rw [List.flatten_cons, onSubject_append, g1, onSubject_pairs, h2, g4]
      cases D0 with
      | nil => exact ⟨parts, hflat, List.Sublist.cons _ g2, g3⟩
      | cons t D0 =>
        cases D0 with
        | cons _ _ => simp at hD
        | nil =>
          refine ⟨(m.data, t) :: parts, hflat, List.Sublist.cons_cons _ g2, ?_⟩
          intro p hp
          rcases List.mem_cons.1 hp with rfl | hp
          · show t.Sublist _
            have : t = Delivery.accepted S rules junk sub delta m := by
              have e : t = [t].flatten := by simp
              rw [e, g5, hgr]; rfl
            rw [this]
            exact hacc
          · exact g3 p hp

variable {d : Setup} {s0 s : State d} {x : WComp} {sub : Bytes}

/-- The messages on their way from listeners' messages: `parts` and what is lost. -/
theorem filters_parts (ho : OneRule d.rules d.junk sub) : ∀ fs : List FComp, (∀ f ∈ fs, filterRun d.S (FWorker.new d.delta d.rules d.junk) (FStats.init d.rules.length) f.past = .ok (f.w, f.st, f.pubss)) →
    ∃ parts : List (Bytes × List Bytes), (fs.flatMap fun f => Delivery.published sub f.pubss.flatten) = parts.map (fun p => p.2.flatten) ∧
      (parts.map (·.1)).Sublist (fs.flatMap fun f => f.past.map (·.data)) ∧ ∀ p ∈ parts, p.2.Sublist ((linesOf p.1).filterMap (textTo d.S d.rules d.junk sub))
  | [], _ => ⟨[], rfl, List.Sublist.refl _, fun p hp => by cases hp⟩
  | f :: fs, h => by
    obtain ⟨E, g1, g2, g3⟩ := filters_parts ho fs fun f hf => h f (List.mem_cons_of_mem _ hf)
    obtain ⟨D, h1, h2, h3⟩ := filter_parts d.S d.delta d.rules d.junk sub ho f.past f.w f.st f.pubss (h f List.mem_cons_self)
    have hp := published_sublist sub f.pubss.flatten
    rw [h1] at hp
    obtain ⟨D', hD, e⟩ := List.sublist_map_iff.1 hp
    refine ⟨D' ++ E, ?_, ?_, ?_⟩
    · rw [List.flatMap_cons, e, g1, List.map_append]
    · rw [List.flatMap_cons, List.map_append]
      exact List.Sublist.append ((hD.map _).trans h2) g2
    · intro p hp
      rcases List.mem_append.1 hp with hp | hp
      · exact h3 p (hD.subset hp)
      · exact g3 p hp

/-- **C106 (messages).** In every state that a deployment can reach, with any number of filters, writers and workers, crashes, and NATS passing on messages in any order: if one rule publishes to the subject of a
writer (or of a queue group of writers), then what each of its workers has sent to InfluxDB (first attempts) and holds unsent is a sequence of parts; a part is made of texts of lines of one
message of a listener, in the order of its lines; and no message of a listener contributes twice. -/
theorem C106_lines_of_a_message_in_order (h0 : Start d s0) (h : Reach d s0 s) (hx : x ∈ s.writers) (hsub : x.subjects = [sub]) (hsep : Separate s x)
    (hrule : OneRule d.rules d.junk sub) (hno : x.conf.rules = []) :
    ∃ (partsBy : List (List (Bytes × List Bytes))) (rest : List Bytes),
      partsBy.map (fun ps => (ps.flatMap (·.2)).flatten) = x.inp.workers.map (fun k => firstData k.hist ++ unsentBytes k) ∧
      (∀ ps ∈ partsBy, ∀ p ∈ ps, p.2.Sublist ((linesOf p.1).filterMap (textTo d.S d.rules d.junk sub))) ∧
      ((partsBy.flatten.map (·.1)) ++ rest).Perm (s.sources.flatMap fun y => publishedL y.l) := by
  have I := inv_reach h0 h
  obtain ⟨hgok, hwr⟩ := I.writers x hx
  obtain ⟨D, d1, d2, d3⟩ := filters_parts hrule s.filters.workers fun f hf => I.fran f hf
  -- the writer received some of these
  have hall := hgok.all
  rw [hsub, List.flatMap_cons, List.flatMap_nil, List.append_nil, out_to_writer hsep (by rw [hsub]; simp), d1] at hall
  have hq := queues_each_once (x.inp.all.map (·.queue)) (by
    intro q hq
    obtain ⟨y, hy, rfl⟩ := List.mem_map.1 hq
    exact ⟨_, _, hgok.run y hy⟩)
  rw [flatMap_got hgok, List.flatMap_map] at hq
  have hrec : ((x.inp.workers.map fun k => received k.hist).flatten ++ (inQueues (x.inp.all.map (·.queue)) ++ x.inp.away)).Perm (D.map fun p => p.2.flatten) := by
    refine List.Perm.trans ?_ hall
    rw [← List.append_assoc]
    exact hq.symm.append_right _
  obtain ⟨E, e1, e2⟩ := perm_map_lift (fun p : Bytes × List Bytes => p.2.flatten) hrec D rfl
  obtain ⟨E1, E2, rfl, f2, f3⟩ := append_eq_map e2
  obtain ⟨xs, rfl, g2⟩ := flatten_eq_map _ _ f2
  -- the messages of the listeners
  have hfall := I.filters.all
  rw [List.flatMap_cons, List.flatMap_nil, List.append_nil, out_to_filters I hsep] at hfall
  have hfq := queues_each_once (s.filters.all.map (·.queue)) (by
    intro q hq
    obtain ⟨y, hy, rfl⟩ := List.mem_map.1 hq
    exact ⟨_, _, I.filters.run y hy⟩)
  rw [flatMap_got I.filters, List.flatMap_map] at hfq
  have hmsgs : ∃ r, ((s.filters.workers.flatMap fun f => f.past.map (·.data)) ++ r).Perm (s.sources.flatMap fun y => publishedL y.l) := by
    refine ⟨(s.filters.workers.flatMap fun f => f.working.toList) ++ (inQueues (s.filters.all.map (·.queue)) ++ s.filters.away), ?_⟩
    refine List.Perm.trans ?_ hfall
    rw [← List.append_assoc, ← List.append_assoc]
    refine List.Perm.append_right _ ?_
    refine List.Perm.trans (List.Perm.append_right _ ?_) hfq.symm
    exact (flatMap_append_perm s.filters.workers (fun f => f.past.map (·.data)) (fun f => f.working.toList)).symm
  obtain ⟨r1, hr1⟩ := sublist_perm d2
  obtain ⟨r2, hr2⟩ := hmsgs
  refine ⟨xs, E2.map (·.1) ++ (r1 ++ r2), ?_, ?_, ?_⟩
  · have hw : (x.inp.workers.map fun k => firstData k.hist ++ unsentBytes k) = (x.inp.workers.map fun k => received k.hist).map List.flatten := by
      rw [List.map_map]
      apply List.map_congr_left
      intro k hk
      exact C34_every_byte_once x.conf k (hwr k hk) hno
    rw [hw, g2, List.map_map]
    apply List.map_congr_left
    intro ps _
    show (ps.flatMap (·.2)).flatten = (ps.map fun p => p.2.flatten).flatten
    rw [List.flatMap_def, List.flatten_flatten, List.map_map]
    rfl
  · intro ps hps p hp
    exact d3 p (e1.mem_iff.1 (List.mem_append_left _ (List.mem_flatten.2 ⟨ps, hps, hp⟩)))
  · have e3 := (e1.map Prod.fst)
    rw [List.map_append] at e3
    rw [← List.append_assoc, ← List.append_assoc]
    refine List.Perm.trans (List.Perm.append_right _ ?_) hr2
    exact (e3.append_right r1).trans hr1

/-! ## Example -/

def omActs : List DAct :=
  [.udp 0 ⟨b!"cpu f=1\ndisk f=2\ncpu f=3", false, 1, 2, 3, fun _ => false⟩, .udp 0 ⟨b!"cpu f=4\ncpu f=5", false, 4, 5, 6, fun _ => false⟩,
   .filterDeliver 0 0 0, .filterPush 0 0, .filterDeliver 0 0 0, .filterPush 0 0,
   .filterTake 0 0, .filterTake 0 1, .filterDo 0 1 15 fun _ => false, .filterDo 0 0 15 fun _ => false] ++ orOut

structure OmDone (s : State orSetup) : Prop where
  sent : s.writers.map (fun x => (x.subjects, x.inp.workers.map fun k => firstData k.hist ++ unsentBytes k)) = [([b!"cpu-subject"], [b!"cpu f=4\ncpu f=5\ncpu f=1\ncpu f=3\n"])]
  conf : s.writers.all (fun x => x.conf.rules.isEmpty) = true
  downs : s.downs.length = 0

instance (s : State orSetup) : Decidable (OmDone s) :=
  decidable_of_iff (_ ∧ _ ∧ _) ⟨fun ⟨a, b, c⟩ => ⟨a, b, c⟩, fun ⟨a, b, c⟩ => ⟨a, b, c⟩⟩

theorem om_done : oAfter (orStart 2) omActs (fun s => decide (OmDone s)) = true := by decide +kernel

/-- The hypotheses of `C106_lines_of_a_message_in_order` are met: two messages, of which the second overtakes the first; the lines of each are in order. -/
example : ∃ (s : State orSetup) (x : WComp), Reach orSetup (orStart 2) s ∧ x ∈ s.writers ∧
    (x.inp.workers.map fun k => firstData k.hist ++ unsentBytes k) = [b!"cpu f=4\ncpu f=5\ncpu f=1\ncpu f=3\n"] ∧
    ∃ (partsBy : List (List (Bytes × List Bytes))) (rest : List Bytes),
      partsBy.map (fun ps => (ps.flatMap (·.2)).flatten) = x.inp.workers.map (fun k => firstData k.hist ++ unsentBytes k) ∧
      (∀ ps ∈ partsBy, ∀ p ∈ ps, p.2.Sublist ((linesOf p.1).filterMap (textTo orSetup.S orSetup.rules orSetup.junk b!"cpu-subject"))) ∧
      ((partsBy.flatten.map (·.1)) ++ rest).Perm (s.sources.flatMap fun y => publishedL y.l) := by
  obtain ⟨s, hr, hd⟩ := oAfter_some om_done
  have hd := of_decide_eq_true hd
  have hs := hd.sent
  cases hw : s.writers with
  | nil => rw [hw] at hs; cases hs
  | cons x xs =>
    rw [hw] at hs
    simp only [List.map_cons, List.cons.injEq, Prod.mk.injEq] at hs
    obtain ⟨⟨h1, h2⟩, -⟩ := hs
    have hx : x ∈ s.writers := by rw [hw]; simp
    have hno : x.conf.rules = [] := by
      have := List.all_eq_true.1 hd.conf x hx
      exact List.isEmpty_iff.1 this
    refine ⟨s, x, hr.reach, hw ▸ hx, h2, C106_lines_of_a_message_in_order (or_start 2) hr.reach hx h1 ⟨by decide, by decide, ?_, ?_⟩ or_rule hno⟩
    · intro y hy
      rw [List.eq_nil_of_length_eq_zero hd.downs] at hy
      cases hy
    · rw [h1]; decide

end Spout.Deploy
