import Verif.Spec.Windows

set_option linter.unusedSimpArgs false

namespace Spout
open Spec

/-- The code run over a history. -/
def aRun {fo : FloatOps} (S : Sorter) : Assigner fo → List AOp → Go (Assigner fo × List AOut)
  | a, [] => .ok (a, [])
  | a, .line now l :: ops => do
    let (a, es) ← a.updateLine now l
    let (a, outs) ← aRun S a ops
    return (a, .errs es :: outs)
  | a, .tick now ord :: ops => do
    let (a, t) := a.bytes S ord now
    let (a, outs) ← aRun S a ops
    return (a, .text t :: outs)

theorem keptFrom_snoc (known : List Bytes) (xs : List (Bytes × List DErr)) (l : Bytes) (e : List DErr) :
    keptFrom known (xs ++ [(l, e)]) = keptFrom known xs ++
      if e = [] ∨ (asRead l).key ∈ known ∨ (asRead l).key ∈ (keptFrom known xs).map (·.key)
      then [asRead l] else [] := by
  induction xs generalizing known with
  | nil =>
    simp only [List.nil_append, keptFrom, List.map_nil, List.not_mem_nil, or_false]
  | cons x xs ih =>
    obtain ⟨l1, e1⟩ := x
    simp only [List.cons_append, keptFrom]
    split
    · rw [ih, List.cons_append]
      congr 2
      simp only [List.mem_cons, List.map_cons]
      have hiff : ∀ (P Q : Prop) [Decidable P] [Decidable Q] (x y : List SLine), (P ↔ Q) →
          (if P then x else y) = (if Q then x else y) := by
        intro P Q _ _ x y hPQ; simp only [hPQ]
      apply hiff
      constructor
      · rintro (h | (h | h) | h)
        · exact Or.inl h
        · exact Or.inr (Or.inr (Or.inl h))
        · exact Or.inr (Or.inl h)
        · exact Or.inr (Or.inr (Or.inr h))
      · rintro (h | h | h | h)
        · exact Or.inl h
        · exact Or.inr (Or.inl (Or.inr h))
        · exact Or.inr (Or.inl (Or.inl h))
        · exact Or.inr (Or.inr h)
    · rw [ih]

theorem window_append_in (p w : Int) (got : List Got) (g : Got) (h : w - p ≤ g.ts ∧ g.ts < w) :
    window p w (got ++ [g]) = window p w got ++ [(g.body, g.errs)] := by
  simp [window, List.filter_append, h]

theorem window_append_out (p w : Int) (got : List Got) (g : Got) (h : ¬ (w - p ≤ g.ts ∧ g.ts < w)) :
    window p w (got ++ [g]) = window p w got := by
  unfold window
  rw [List.filter_append]
  simp only [List.filter_cons, h, decide_false, Bool.false_eq_true, if_false, List.filter_nil, List.append_nil]

/-- The state of the code corresponds to the state of the specification. -/
structure WRel {fo : FloatOps} (p : Int) (a : Assigner fo) (e : Int) (got : List Got) : Prop where
  period : a.period = p
  aligned : Aligned p e
  tmin : a.tmin = e - p
  prevTs : a.prev.ts = e
  currTs : a.curr.ts = e + p
  nextTs : a.next.ts = e + 2 * p
  prevH : Holds a.prev (keptFrom [] (window p e got))
  currH : Holds a.curr (keptFrom [] (window p (e + p) got))
  nextH : Holds a.next (keptFrom [] (window p (e + 2 * p) got))
  bound : ∀ g ∈ got, g.ts < e + 2 * p

theorem truncate_aligned {p t : Int} (h : Aligned p t) : truncateTime t p = t := by
  unfold truncateTime Aligned at *
  split
  · rfl
  · omega

theorem aligned_add {p t : Int} (k : Int) (h : Aligned p t) : Aligned p (t + k * p) := by
  unfold Aligned at *
  rw [show t + k * p + zeroTimeOffset = t + zeroTimeOffset + k * p by omega, Int.add_mul_emod_self_right]
  exact h

theorem aligned_truncate (p t : Int) (hp : 0 < p) : Aligned p (truncateTime t p) := by
  unfold truncateTime Aligned
  rw [if_neg (by omega)]
  have h1 := Int.emod_add_mul_ediv (t + zeroTimeOffset) p
  rw [show t - (t + zeroTimeOffset) % p + zeroTimeOffset = 0 + p * ((t + zeroTimeOffset) / p) by omega,
    Int.add_mul_emod_self_left]
  simp

theorem wrel_new (fo : FloatOps) (p now : Int) (hp : 0 < p) :
    ∃ e, e ≤ now ∧ now < e + p ∧ WRel p (Assigner.new fo p now) e [] := by
  have ha : Aligned p (nextT p now) := aligned_truncate p _ hp
  have ha1 : Aligned p (nextT p now + -p) := by
    have := aligned_add (-1) ha; rwa [show nextT p now + -1 * p = nextT p now + -p by omega] at this
  have ha2 : Aligned p (nextT p now + p) := by
    have := aligned_add 1 ha; rwa [show nextT p now + 1 * p = nextT p now + p by omega] at this
  have hprev : prevT p (nextT p now) = nextT p now + -p := truncate_aligned ha1
  have hnext : nextT p (nextT p now) = nextT p now + p := truncate_aligned ha2
  have hb : now < nextT p now ∧ nextT p now ≤ now + p := by
    unfold nextT truncateTime
    rw [if_neg (by omega)]
    have h1 := Int.emod_nonneg (now + p + zeroTimeOffset) (show p ≠ 0 by omega)
    have h2 := Int.emod_lt_of_pos (now + p + zeroTimeOffset) hp
    omega
  refine ⟨nextT p now + -p, by omega, by omega, ?_⟩
  refine ⟨rfl, ha1, ?_, ?_, ?_, ?_, ?_, ?_, ?_, by simp⟩
  · show prevT p (nextT p now) + -p = _; rw [hprev]; omega
  · show prevT p (nextT p now) = _; rw [hprev]
  · show nextT p now = _; omega
  · show nextT p (nextT p now) = _; rw [hnext]; omega
  · exact holds_new _ _
  · exact holds_new _ _
  · exact holds_new _ _

theorem dsTimestamp_spec (now : Int) (line : Bytes) :
    ∃ ts body, dsTimestamp now line = .ok (ts, body) ∧ Stamped now line ts body := by
  unfold dsTimestamp
  by_cases h : ∃ v off, HasTs line v off
  · obtain ⟨v, off, h⟩ := h
    have hoff : 1 ≤ off ∧ (off - 1).toNat ≤ line.length := by
      obtain ⟨_, pre, ts, hb, _, _, _, rfl⟩ := h
      have h1 : (stripNL line).length ≤ line.length := by unfold stripNL; split <;> simp
      rw [hb] at h1
      simp at h1
      omega
    rw [extractTimestamp_some h, Go.ok_bind]
    simp only []
    rw [if_neg (by omega), sliceTo_ok hoff.2]
    exact ⟨v, _, rfl, .own v off h⟩
  · have h : ∀ v off, ¬ HasTs line v off := fun v off x => h ⟨v, off, x⟩
    rw [extractTimestamp_none h, Go.ok_bind]
    exact ⟨now, line, rfl, .none h⟩

theorem DErr_addLine_nonTimestamp {fo : FloatOps} (b b' : Bucket fo) (line : Bytes) (es : List DErr)
    (h : b.addLine line = .ok (b', es)) : ∀ x ∈ es, x.isTimestamp = false := by
  have hupd : ∀ (v : FieldValue fo) (c : Bytes) (x : DErr), (v.update c).2 = some x → x.isTimestamp = false := by
    intro v c x hx
    cases v <;> simp only [FieldValue.update] at hx <;> (try split at hx) <;>
      simp at hx <;> subst hx <;> rfl
  have hitem : ∀ (fs : Fields fo) (it : Item), ∀ x ∈ (addItem fs it).2, x.isTimestamp = false := by
    intro fs it x hx
    unfold addItem setField at hx
    split at hx
    · simp at hx
    · rename_i v _
      simp only [Option.mem_toList] at hx
      exact hupd v _ x hx
  have hitems : ∀ (is : List Item) (fs : Fields fo), ∀ x ∈ (addItems fs is).2, x.isTimestamp = false := by
    intro is
    induction is with
    | nil => intro fs x hx; simp [addItems] at hx
    | cons it is ih =>
      intro fs x hx
      simp only [addItems, List.mem_append] at hx
      rcases hx with hx | hx
      · exact hitem _ _ x hx
      · exact ih _ x hx
  have hread : ∀ (fuel : Nat) (raw : Bytes) (x : DErr), (readFields fuel raw).2 = some x → x.isTimestamp = false := by
    intro fuel
    induction fuel with
    | zero => intro raw x hx; simp [readFields] at hx
    | succ fuel ih =>
      intro raw x hx
      match raw with
      | [] => simp [readFields] at hx
      | s :: raw =>
        rw [readFields] at hx
        split at hx
        · simp at hx; subst hx; rfl
        · split at hx
          · simp at hx; subst hx; rfl
          · split at hx
            · simp at hx; subst hx; rfl
            · split at hx
              · split at hx
                · simp at hx; subst hx; rfl
                · split at hx
                  · simp at hx; subst hx; rfl
                  · exact ih _ x hx
              · exact ih _ x hx
  rw [addLine_eq] at h
  have hall : ∀ (fs : Fields fo), ∀ x ∈ (addItems fs (readLine line).2.1).2 ++ (readLine line).2.2.toList,
      x.isTimestamp = false := by
    intro fs x hx
    rw [List.mem_append] at hx
    rcases hx with hx | hx
    · exact hitems _ _ x hx
    · simp only [Option.mem_toList] at hx
      exact hread _ _ x hx
  cases hm : mget b.lines (readLine line).1 with
  | some fs =>
    rw [hm] at h
    obtain ⟨-, rfl⟩ := Prod.mk.inj (Go.ok.inj h)
    exact hall fs
  | none =>
    rw [hm] at h
    simp only [] at h
    split at h
    · obtain ⟨-, rfl⟩ := Prod.mk.inj (Go.ok.inj h)
      simp
    · obtain ⟨-, rfl⟩ := Prod.mk.inj (Go.ok.inj h)
      exact hall []

theorem holds_add {fo : FloatOps} (p w : Int) (b : Bucket fo) (got : List Got)
    (h : Holds b (keptFrom [] (window p w got))) (ts : Int) (hts : w - p ≤ ts ∧ ts < w) (body : Bytes) :
    ∃ b' es, b.addLine body = .ok (b', es) ∧ b'.ts = b.ts ∧ (∀ x ∈ es, x.isTimestamp = false) ∧
      Holds b' (keptFrom [] (window p w (got ++ [⟨ts, body, es⟩]))) := by
  obtain ⟨b', es, h1, h2, h3⟩ := addLine_holds h body
  refine ⟨b', es, h1, h2, DErr_addLine_nonTimestamp _ _ _ _ h1, ?_⟩
  rw [window_append_in p w got ⟨ts, body, es⟩ hts, keptFrom_snoc]
  simpa using h3

theorem updateLine_legal {fo : FloatOps} {p : Int} {a : Assigner fo} {e : Int} {got : List Got} (_hp : 0 < p)
    (h : WRel p a e got) {now0 : Int} {em : List Emission} {hist : List (AOp × AOut)}
    (hleg : Legal fo p now0 e got em hist) (now : Int) (line : Bytes) :
    ∃ a' es got', a.updateLine now line = .ok (a', es) ∧ WRel p a' e got' ∧
      Legal fo p now0 e got' em (hist ++ [(.line now line, .errs es)]) := by
  unfold Assigner.updateLine
  by_cases hl : line = []
  · subst hl
    exact ⟨a, [], got, rfl, h, hleg.empty⟩
  rw [if_neg (by have := List.length_pos_iff.2 hl; omega)]
  obtain ⟨ts, body, h1, h2⟩ := dsTimestamp_spec now line
  rw [h1, Go.ok_bind]
  simp only []
  unfold Assigner.findBucket
  rw [h.tmin, h.prevTs, h.currTs, h.nextTs]
  by_cases c0 : ts < e - p
  · rw [if_pos c0]
    exact ⟨a, _, got, rfl, h, hleg.old hl h2 c0⟩
  rw [if_neg c0]
  by_cases c1 : ts < e
  · rw [if_pos c1]
    obtain ⟨b', es, g1, g2, g3, g4⟩ := holds_add p e a.prev got h.prevH ts ⟨by omega, c1⟩ body
    simp only [Assigner.addTo, g1, Go.ok_bind]
    refine ⟨_, _, got ++ [⟨ts, body, es⟩], rfl, ?_, hleg.accept hl h2 (by omega) (by omega) g3⟩
    refine ⟨h.period, h.aligned, h.tmin, by show b'.ts = _; rw [g2, h.prevTs], h.currTs, h.nextTs, g4, ?_, ?_, ?_⟩
    · rw [window_append_out _ _ _ _ (by show ¬ (_ ≤ ts ∧ ts < _); omega)]; exact h.currH
    · rw [window_append_out _ _ _ _ (by show ¬ (_ ≤ ts ∧ ts < _); omega)]; exact h.nextH
    · intro g hg; rw [List.mem_append, List.mem_singleton] at hg
      rcases hg with hg | rfl
      · exact h.bound g hg
      · show ts < _; omega
  rw [if_neg c1]
  by_cases c2 : ts < e + p
  · rw [if_pos c2]
    obtain ⟨b', es, g1, g2, g3, g4⟩ := holds_add p (e + p) a.curr got h.currH ts ⟨by omega, c2⟩ body
    simp only [Assigner.addTo, g1, Go.ok_bind]
    refine ⟨_, _, got ++ [⟨ts, body, es⟩], rfl, ?_, hleg.accept hl h2 (by omega) (by omega) g3⟩
    refine ⟨h.period, h.aligned, h.tmin, h.prevTs, by show b'.ts = _; rw [g2, h.currTs], h.nextTs, ?_, g4, ?_, ?_⟩
    · rw [window_append_out _ _ _ _ (by show ¬ (_ ≤ ts ∧ ts < _); omega)]; exact h.prevH
    · rw [window_append_out _ _ _ _ (by show ¬ (_ ≤ ts ∧ ts < _); omega)]; exact h.nextH
    · intro g hg; rw [List.mem_append, List.mem_singleton] at hg
      rcases hg with hg | rfl
      · exact h.bound g hg
      · show ts < _; omega
  rw [if_neg c2]
  by_cases c3 : ts < e + 2 * p
  · rw [if_pos c3]
    obtain ⟨b', es, g1, g2, g3, g4⟩ := holds_add p (e + 2 * p) a.next got h.nextH ts ⟨by omega, c3⟩ body
    simp only [Assigner.addTo, g1, Go.ok_bind]
    refine ⟨_, _, got ++ [⟨ts, body, es⟩], rfl, ?_, hleg.accept hl h2 (by omega) (by omega) g3⟩
    refine ⟨h.period, h.aligned, h.tmin, h.prevTs, h.currTs, by show b'.ts = _; rw [g2, h.nextTs], ?_, ?_, g4, ?_⟩
    · rw [window_append_out _ _ _ _ (by show ¬ (_ ≤ ts ∧ ts < _); omega)]; exact h.prevH
    · rw [window_append_out _ _ _ _ (by show ¬ (_ ≤ ts ∧ ts < _); omega)]; exact h.currH
    · intro g hg; rw [List.mem_append, List.mem_singleton] at hg
      rcases hg with hg | rfl
      · exact h.bound g hg
      · show ts < _; omega
  · rw [if_neg c3]
    exact ⟨a, _, got, rfl, h, hleg.new hl h2 (by omega)⟩

theorem windowText_of_holds {fo : FloatOps} (S : Sorter) (ord : MapOrder) (p : Int) (b : Bucket fo) (got : List Got)
    (h : Holds b (keptFrom [] (window p b.ts got))) : WindowText fo p b.ts got (b.bytes S ord) := by
  refine ⟨(ord.order b.lines).map (rowOf S), ?_, bytes_rows S ord b⟩
  have hp : ((ord.order b.lines).map (rowOf S)).Perm (b.lines.map (rowOf S)) := (ord.perm b.lines).map _
  obtain ⟨h1, h2, h3⟩ := rows_aggregate S b _ h
  refine ⟨(hp.map _).nodup_iff.2 h1, ?_, ?_⟩
  · intro k; rw [(hp.map _).mem_iff]; exact h2 k
  · intro r hr; exact h3 r (hp.mem_iff.1 hr)

theorem bytes_legal {fo : FloatOps} {p : Int} {a : Assigner fo} {e : Int} {got : List Got} (hp : 0 < p)
    (h : WRel p a e got) {now0 : Int} {em : List Emission} {hist : List (AOp × AOut)}
    (hleg : Legal fo p now0 e got em hist) (S : Sorter) (now : Int) (ord : MapOrder) :
    ∃ e' em', WRel p (a.bytes S ord now).1 e' got ∧
      Legal fo p now0 e' got em' (hist ++ [(.tick now ord, .text (a.bytes S ord now).2)]) ∧
      ((now < e + p ∧ e' = e ∧ em' = em ∧ (a.bytes S ord now).2 = []) ∨
       (e + p ≤ now ∧ e' = e + p ∧ em' = em ++ [⟨e, now, (a.bytes S ord now).2⟩])) := by
  unfold Assigner.bytes
  rw [h.currTs]
  by_cases c : now < e + p
  · rw [if_pos c]
    exact ⟨e, em, h, hleg.early c, Or.inl ⟨c, rfl, rfl, rfl⟩⟩
  · rw [if_neg c]
    refine ⟨e + p, _, ?_, hleg.emit (by omega) ?_, Or.inr ⟨by omega, rfl, rfl⟩⟩
    · have ha : Aligned p (e + 2 * p + p) := by
        have := aligned_add 3 h.aligned
        rwa [show e + 3 * p = e + 2 * p + p by omega] at this
      have hn : nextT a.period a.next.ts = e + p + 2 * p := by
        unfold nextT; rw [h.period, h.nextTs, truncate_aligned ha]; omega
      refine ⟨h.period, ?_, ?_, h.currTs, ?_, hn, h.currH, ?_, ?_, ?_⟩
      · have := aligned_add 1 h.aligned
        rwa [show e + 1 * p = e + p by omega] at this
      · show e + p + -a.period = _; rw [h.period]; omega
      · show a.next.ts = _; rw [h.nextTs]; omega
      · rw [show e + p + p = e + 2 * p by omega]; exact h.nextH
      · have : window p (e + p + 2 * p) got = [] := by
          unfold window
          rw [List.map_eq_nil_iff, List.filter_eq_nil_iff]
          intro g hg
          have := h.bound g hg
          simp only [decide_eq_true_eq]
          omega
        rw [this]
        exact holds_new _ _
      · intro g hg
        have := h.bound g hg
        omega
    · have := windowText_of_holds S ord p a.prev got (by rw [h.prevTs]; exact h.prevH)
      rwa [h.prevTs] at this

theorem aRun_legal {fo : FloatOps} {p : Int} (hp : 0 < p) (S : Sorter) (now0 : Int) (ops : List AOp)
    (a : Assigner fo) (e : Int) (got : List Got) (em : List Emission) (hist : List (AOp × AOut))
    (h : WRel p a e got) (hleg : Legal fo p now0 e got em hist) :
    ∃ a' outs e' got' em', aRun S a ops = .ok (a', outs) ∧ outs.length = ops.length ∧ WRel p a' e' got' ∧
      Legal fo p now0 e' got' em' (hist ++ ops.zip outs) := by
  induction ops generalizing a e got em hist with
  | nil => exact ⟨a, [], e, got, em, rfl, rfl, h, by simpa using hleg⟩
  | cons op ops ih =>
    cases op with
    | line now l =>
      obtain ⟨a1, es, got1, h1, h2, h3⟩ := updateLine_legal hp h hleg now l
      obtain ⟨a2, outs, e2, got2, em2, g1, g2, g3, g4⟩ := ih a1 e got1 em _ h2 h3
      exact ⟨a2, .errs es :: outs, e2, got2, em2, by simp [aRun, h1, g1], by simp [g2], g3, by simpa using g4⟩
    | tick now ord =>
      obtain ⟨e1, em1, h2, h3, -⟩ := bytes_legal hp h hleg S now ord
      obtain ⟨a2, outs, e2, got2, em2, g1, g2, g3, g4⟩ := ih _ e1 got em1 _ h2 h3
      exact ⟨a2, .text (a.bytes S ord now).2 :: outs, e2, got2, em2, by simp [aRun, g1], by simp [g2], g3, by simpa using g4⟩

end Spout
