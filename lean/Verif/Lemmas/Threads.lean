import Verif.Model.Threads

/-! # The discipline of `Verif.Model.Threads` is sound -/

set_option linter.unusedSimpArgs false
set_option linter.unusedSectionVars false

namespace Spout.Threads
open Spec

variable {V M K : Type} [DecidableEq V] [DecidableEq M] [DecidableEq K]

/-! ## Programs -/

/-- Check a sequence of operations. -/
def okList (d : Disc V M K) (k : K) : List M → List K → List (Op V M K) → Prop
  | _, _, [] => True
  | h, s, o :: l => okOp d k h s o = true ∧ okList d k (heldAfter h o) (spAfter s o) l

def runHeld (h : List M) (w : List (Op V M K)) : List M := w.foldl heldAfter h
def runSp (s : List K) (w : List (Op V M K)) : List K := w.foldl spAfter s

theorem okList_append (d : Disc V M K) (k : K) (a b : List (Op V M K)) : ∀ (h : List M) (s : List K),
    okList d k h s a → okList d k (runHeld h a) (runSp s a) b → okList d k h s (a ++ b) := by
  induction a with
  | nil => intro h s _ hb; exact hb
  | cons o a ih => intro h s ha hb; exact ⟨ha.1, ih _ _ ha.2 hb⟩

theorem okAcc_mono (d : Disc V M K) (k : K) (h : List M) (s s0 : List K) (v : V) (r t : Bool) (hs : ∀ x ∈ s0, x ∈ s)
    (ho : okAcc d k h s v r t = true) : okAcc d k h s0 v r t = true := by
  unfold okAcc at ho ⊢
  rw [Bool.or_eq_true, Bool.and_eq_true, List.all_eq_true] at ho ⊢
  rcases ho with ⟨h1, h2⟩ | ho
  · exact Or.inl ⟨h1, fun x hx => h2 x (hs x hx)⟩
  · exact Or.inr ho

theorem okOp_mono (d : Disc V M K) (k : K) (h : List M) (s s0 : List K) (o : Op V M K) (hs : ∀ x ∈ s0, x ∈ s)
    (ho : okOp d k h s o = true) : okOp d k h s0 o = true := by
  cases o with
  | rd v => exact okAcc_mono d k h s s0 v _ _ hs ho
  | wr v => exact okAcc_mono d k h s s0 v _ _ hs ho
  | atom v => exact okAcc_mono d k h s s0 v _ _ hs ho
  | lock m => exact ho
  | unlock m => exact ho
  | go k' =>
    unfold okOp at ho ⊢
    rw [Bool.and_eq_true, List.all_eq_true] at ho ⊢
    refine ⟨ho.1, fun v hv => ?_⟩
    have h1 := ho.2 v hv
    rw [Bool.and_eq_true] at h1 ⊢
    refine ⟨h1.1, ?_⟩
    have h2 := h1.2
    cases hc : d.cls v with
    | owned k0 =>
      rw [hc] at h2
      simp only [Bool.and_eq_true, Bool.or_eq_true, Bool.not_eq_true', decide_eq_true_eq, List.contains_eq_mem, decide_eq_false_iff_not] at h2 ⊢
      refine ⟨h2.1, ?_⟩
      rcases h2.2 with h3 | h3
      · exact Or.inl h3
      · exact Or.inr ⟨h3.1, fun hm => h3.2 (hs _ hm)⟩
    | _ => rfl

theorem mem_spAfter (s : List K) (o : Op V M K) (x : K) : x ∈ spAfter s o ↔ x ∈ spAfter [] o ∨ x ∈ s := by
  cases o <;> simp [spAfter]

theorem mem_runSp (w : List (Op V M K)) : ∀ (s : List K) (x : K), x ∈ runSp s w ↔ x ∈ runSp [] w ∨ x ∈ s := by
  induction w with
  | nil => intro s x; simp [runSp]
  | cons o w ih =>
    intro s x
    have h1 := ih (spAfter s o) x
    have h2 := ih (spAfter [] o) x
    unfold runSp at h1 h2 ⊢
    rw [List.foldl_cons, List.foldl_cons, h1, h2, mem_spAfter s]
    exact or_assoc.symm

theorem runSp_append (s : List K) (a b : List (Op V M K)) : runSp s (a ++ b) = runSp (runSp s a) b := List.foldl_append
theorem runHeld_append (s : List M) (a b : List (Op V M K)) : runHeld s (a ++ b) = runHeld (runHeld s a) b := List.foldl_append

theorem spawns_words {p : Prog V M K} {w : List (Op V M K)} (h : Words p w) : ∀ x ∈ runSp [] w, x ∈ spawns p := by
  induction h with
  | skip => intro x hx; cases hx
  | op o => intro x hx; exact hx
  | seq _ _ h1 h2 =>
    intro x hx
    rw [runSp_append, mem_runSp] at hx
    rcases hx with hx | hx
    · exact List.mem_append_right _ (h2 x hx)
    · exact List.mem_append_left _ (h1 x hx)
  | left _ h => intro x hx; exact List.mem_append_left _ (h x hx)
  | right _ h => intro x hx; exact List.mem_append_right _ (h x hx)
  | done => intro x hx; cases hx
  | again _ _ h1 h2 =>
    intro x hx
    rw [runSp_append, mem_runSp] at hx
    rcases hx with hx | hx
    · exact h2 x hx
    · exact h1 x hx

theorem star_words {p q : Prog V M K} {w : List (Op V M K)} (h : Words q w) (hq : q = .star p) (P : List (Op V M K) → Prop)
    (h0 : P []) (h1 : ∀ a b, Words p a → P b → P (a ++ b)) : P w := by
  induction h with
  | done => exact h0
  | again ha _ _ ih2 => injection hq with hq; subst hq; exact h1 _ _ ha (ih2 rfl)
  | _ => cases hq

theorem chk_sound (d : Disc V M K) (k : K) (p : Prog V M K) : ∀ (h h' : List M) (s s' : List K),
    chk d k p (h, s) = some (h', s') → ∀ w, Words p w → ∀ s0, (∀ x ∈ s0, x ∈ s) →
      okList d k h s0 w ∧ runHeld h w = h' ∧ ∀ x ∈ runSp s0 w, x ∈ s' := by
  induction p with
  | skip =>
    intro h h' s s' hc w hw s0 hs
    cases hw
    simp only [chk, Option.some.injEq, Prod.mk.injEq] at hc
    obtain ⟨rfl, rfl⟩ := hc
    exact ⟨trivial, rfl, hs⟩
  | op o =>
    intro h h' s s' hc w hw s0 hs
    cases hw
    unfold chk at hc
    split at hc
    · rename_i ho
      simp only [Option.some.injEq, Prod.mk.injEq] at hc
      obtain ⟨rfl, rfl⟩ := hc
      refine ⟨⟨okOp_mono d k h s s0 o hs ho, trivial⟩, rfl, ?_⟩
      intro x hx
      have hx : x ∈ spAfter s0 o := hx
      rw [mem_spAfter] at hx ⊢
      exact hx.imp id (hs x)
    · cases hc
  | seq p q ihp ihq =>
    intro h h' s s' hc w hw s0 hs
    cases hw with
    | seq ha hb =>
      unfold chk at hc
      cases h1 : chk d k p (h, s) with
      | none => rw [h1] at hc; cases hc
      | some st =>
        obtain ⟨hm, sm⟩ := st
        rw [h1] at hc
        obtain ⟨a1, a2, a3⟩ := ihp h hm s sm h1 _ ha s0 hs
        obtain ⟨b1, b2, b3⟩ := ihq hm h' sm s' hc _ hb _ a3
        refine ⟨okList_append d k _ _ _ _ a1 (by rw [a2]; exact b1), ?_, ?_⟩
        · rw [runHeld_append, a2, b2]
        · rw [runSp_append]; exact b3
  | alt p q ihp ihq =>
    intro h h' s s' hc w hw s0 hs
    unfold chk at hc
    split at hc
    · rename_i h1 s1 h2 s2 e1 e2
      split at hc
      · rename_i he
        simp only [Option.some.injEq, Prod.mk.injEq] at hc
        obtain ⟨rfl, rfl⟩ := hc
        cases hw with
        | left ha =>
          obtain ⟨a1, a2, a3⟩ := ihp h h1 s s1 e1 _ ha s0 hs
          exact ⟨a1, a2, fun x hx => List.mem_append_left _ (a3 x hx)⟩
        | right ha =>
          obtain ⟨a1, a2, a3⟩ := ihq h h2 s s2 e2 _ ha s0 hs
          exact ⟨a1, by rw [a2, he], fun x hx => List.mem_append_right _ (a3 x hx)⟩
      · cases hc
    · cases hc
  | star p ih =>
    intro h h' s s' hc w hw s0 hs
    unfold chk at hc
    split at hc
    · rename_i h1 s1 e1
      split at hc
      · rename_i he
        subst he
        simp only [Option.some.injEq, Prod.mk.injEq] at hc
        obtain ⟨rfl, rfl⟩ := hc
        refine star_words hw rfl (fun w => ∀ s0, (∀ x ∈ s0, x ∈ spawns p ++ s) → okList d k h1 s0 w ∧ runHeld h1 w = h1 ∧
          ∀ x ∈ runSp s0 w, x ∈ spawns p ++ s) ?_ ?_ s0 (fun x hx => List.mem_append_right _ (hs x hx))
        · intro s0 hs0; exact ⟨trivial, rfl, hs0⟩
        · intro a b ha hb s0 hs0
          obtain ⟨a1, a2, -⟩ := ih h1 h1 _ s1 e1 a ha s0 hs0
          have a3 : ∀ x ∈ runSp s0 a, x ∈ spawns p ++ s := by
            intro x hx
            rw [mem_runSp] at hx
            rcases hx with hx | hx
            · exact List.mem_append_left _ (spawns_words ha x hx)
            · exact hs0 x hx
          obtain ⟨b1, b2, b3⟩ := hb _ a3
          refine ⟨okList_append d k _ _ _ _ a1 (by rw [a2]; exact b1), ?_, ?_⟩
          · rw [runHeld_append, a2, b2]
          · rw [runSp_append]; exact b3
      · cases hc
    · cases hc

/-! ## Knowledge -/

theorem get_append {α : Type} {t : List α} {i : Nat} {a : α} (u : List α) (h : t[i]? = some a) : (t ++ u)[i]? = some a := by
  rw [List.getElem?_append_left (List.getElem?_eq_some_iff.1 h).1]; exact h

theorem hb_mono {t : List (Ev V M)} (u : List (Ev V M)) {i j : Nat} (h : HB t i j) : HB (t ++ u) i j := by
  induction h with
  | program h1 h2 h3 h4 => exact .program h1 (get_append u h2) (get_append u h3) h4
  | start h1 h2 h3 h4 => exact .start h1 (get_append u h2) h3 (get_append u h4)
  | mutex m h1 h2 h3 h4 h5 => exact .mutex m h1 (get_append u h2) h3 (get_append u h4) h5
  | trans _ _ h1 h2 => exact .trans h1 h2

/-- What goroutine `g` does next happens after event `i`. -/
def Knows (t : List (Ev V M)) (g i : Nat) : Prop :=
  ∃ j a, t[j]? = some a ∧ (a.g = g ∨ a.a = .go g) ∧ (i = j ∨ HB t i j)

/-- What is done after the next lock of `m` happens after event `i`. -/
def KnowsM (t : List (Ev V M)) (m : M) (i : Nat) : Prop :=
  ∃ j a, t[j]? = some a ∧ a.a = .unlock m ∧ (i = j ∨ HB t i j)

theorem knows_mono {t : List (Ev V M)} (u : List (Ev V M)) {g i : Nat} (h : Knows t g i) : Knows (t ++ u) g i := by
  obtain ⟨j, a, h1, h2, h3⟩ := h
  exact ⟨j, a, get_append u h1, h2, h3.imp id (hb_mono u)⟩

theorem knowsM_mono {t : List (Ev V M)} (u : List (Ev V M)) {m : M} {i : Nat} (h : KnowsM t m i) : KnowsM (t ++ u) m i := by
  obtain ⟨j, a, h1, h2, h3⟩ := h
  exact ⟨j, a, get_append u h1, h2, h3.imp id (hb_mono u)⟩

theorem get_last {α : Type} (t : List α) (e : α) : (t ++ [e])[t.length]? = some e := by simp

theorem knows_hb {t : List (Ev V M)} {g i : Nat} (h : Knows t g i) (e : Ev V M) (he : e.g = g) : HB (t ++ [e]) i t.length := by
  obtain ⟨j, a, h1, h2, h3⟩ := h
  have hj : j < t.length := (List.getElem?_eq_some_iff.1 h1).1
  have h4 : HB (t ++ [e]) j t.length := by
    rcases h2 with h2 | h2
    · exact .program hj (get_append _ h1) (get_last t e) (by rw [h2, he])
    · exact .start hj (get_append _ h1) (by rw [h2, he]) (get_last t e)
  rcases h3 with h3 | h3
  · rw [h3]; exact h4
  · exact .trans (hb_mono _ h3) h4

theorem knows_self (t : List (Ev V M)) (e : Ev V M) : Knows (t ++ [e]) e.g t.length := ⟨t.length, e, get_last t e, Or.inl rfl, Or.inl rfl⟩

theorem knows_own {t : List (Ev V M)} {i : Nat} {e : Ev V M} (h : t[i]? = some e) : Knows t e.g i := ⟨i, e, h, Or.inl rfl, Or.inl rfl⟩

theorem knows_lock {t : List (Ev V M)} {m : M} {i : Nat} (h : KnowsM t m i) (g : Nat) : Knows (t ++ [⟨g, .lock m⟩]) g i := by
  obtain ⟨j, a, h1, h2, h3⟩ := h
  have hj : j < t.length := (List.getElem?_eq_some_iff.1 h1).1
  have h4 : HB (t ++ [⟨g, .lock m⟩]) j t.length := .mutex m hj (get_append _ h1) h2 (get_last t _) rfl
  refine ⟨t.length, ⟨g, .lock m⟩, get_last t _, Or.inl rfl, Or.inr ?_⟩
  rcases h3 with h3 | h3
  · rw [h3]; exact h4
  · exact .trans (hb_mono _ h3) h4

theorem knows_unlock {t : List (Ev V M)} {g i : Nat} (h : Knows t g i) (m : M) : KnowsM (t ++ [⟨g, .unlock m⟩]) m i :=
  ⟨t.length, ⟨g, .unlock m⟩, get_last t _, rfl, Or.inr (knows_hb h ⟨g, .unlock m⟩ rfl)⟩

theorem knows_go {t : List (Ev V M)} {g i : Nat} (h : Knows t g i) (c : Nat) : Knows (t ++ [⟨g, .go c⟩]) c i :=
  ⟨t.length, ⟨g, .go c⟩, get_last t _, Or.inr rfl, Or.inr (knows_hb h ⟨g, .go c⟩ rfl)⟩

/-! ## The invariant -/

/-- All goroutines that may access `v` know event `i`. -/
def All (d : Disc V M K) (kinds : List K) (t : List (Ev V M)) (v : V) (i : Nat) : Prop :=
  ∀ g k, kinds[g]? = some k → g = 0 ∨ d.acc k v = true → Knows t g i

/-- Who knows about access `i` of `v`. -/
def Known (d : Disc V M K) (kinds : List K) (holder : M → Option Nat) (t : List (Ev V M)) (v : V) (i : Nat) (a : Act V M) : Prop :=
  match d.cls v with
  | .guarded m => All d kinds t v i ∨ match holder m with
    | some g => Knows t g i
    | none => KnowsM t m i
  | .init => a.isRead ∨ All d kinds t v i
  | .atomic => a.isAtomic ∨ All d kinds t v i
  | .owned k0 => ∀ g k, kinds[g]? = some k → k = k0 → g = 0 ∨ d.acc k v = true → Knows t g i

/-- The part of the invariant about the execution. -/
structure Core (d : Disc V M K) (kinds : List K) (holder : M → Option Nat) (sp : List K) (t : List (Ev V M)) : Prop where
  zero : kinds[0]? = some d.main
  other : ∀ (g : Nat) (k : K), kinds[g]? = some k → g ≠ 0 → k ≠ d.main
  gid : ∀ (i : Nat) (e : Ev V M), t[i]? = some e → e.g < kinds.length
  spawned : ∀ (g : Nat) (k : K) (v : V), kinds[g]? = some k → g ≠ 0 → d.acc k v = true → ∃ k' ∈ sp, d.acc k' v = true
  once : ∀ (v : V) (k0 : K), d.cls v = .owned k0 → ∀ (g g' : Nat), kinds[g]? = some k0 → kinds[g']? = some k0 → g = g'
  has : ∀ (v : V) (k0 : K), d.cls v = .owned k0 → ∀ (g : Nat), kinds[g]? = some k0 → g ≠ 0 → k0 ∈ sp
  own : ∀ (v : V) (k0 : K), d.cls v = .owned k0 → ∀ (g : Nat) (k : K), kinds[g]? = some k → g ≠ 0 → d.acc k v = true → k = k0
  race : RaceFree t
  priv : ∀ (i : Nat) (e : Ev V M) (v : V), t[i]? = some e → e.a.loc = some v → (∀ (g : Nat) (k : K), kinds[g]? = some k → g ≠ 0 → d.acc k v = false) → e.g = 0
  known : ∀ (i : Nat) (e : Ev V M) (v : V), t[i]? = some e → e.a.loc = some v → Known d kinds holder t v i e.a

theorem all_mono {d : Disc V M K} {kinds : List K} {t : List (Ev V M)} {v : V} {i : Nat} (u : List (Ev V M)) (h : All d kinds t v i) :
    All d kinds (t ++ u) v i := fun g k h1 h2 => knows_mono u (h g k h1 h2)

theorem get_snoc {α : Type} {t : List α} {e a : α} {i : Nat} (h : (t ++ [e])[i]? = some a) : t[i]? = some a ∨ (i = t.length ∧ a = e) := by
  rcases Nat.lt_or_ge i t.length with hl | hl
  · rw [List.getElem?_append_left hl] at h; exact Or.inl h
  · rw [List.getElem?_append_right hl] at h
    obtain ⟨h1, h2⟩ := List.getElem?_eq_some_iff.1 h
    simp only [List.length_singleton] at h1
    have : i = t.length := by omega
    subst this
    simp at h2
    exact Or.inr ⟨rfl, h2.symm⟩

/-- Extend the execution by an event that is ordered after all conflicting ones. -/
theorem race_snoc {t : List (Ev V M)} (h : RaceFree t) (e : Ev V M)
    (he : ∀ i a, t[i]? = some a → a.g ≠ e.g → Conflict a.a e.a → HB (t ++ [e]) i t.length) : RaceFree (t ++ [e]) := by
  intro i j a b hij hi hj hg hc
  rcases get_snoc hj with hj | ⟨rfl, rfl⟩
  · have hi' : t[i]? = some a := by
      rcases get_snoc hi with hi | ⟨rfl, -⟩
      · exact hi
      · have := (List.getElem?_eq_some_iff.1 hj).1; omega
    exact hb_mono _ (h i j a b hij hi' hj hg hc)
  · have hi' : t[i]? = some a := by
      rcases get_snoc hi with hi | ⟨rfl, -⟩
      · exact hi
      · omega
    exact he i a hi' hg hc

theorem race_other {t : List (Ev V M)} (h : RaceFree t) (e : Ev V M) (he : e.a.loc = none) : RaceFree (t ++ [e]) := by
  apply race_snoc h
  intro i a _ _ hc
  obtain ⟨⟨v, -, h2⟩, -⟩ := hc
  rw [he] at h2; cases h2

theorem known_mono {d : Disc V M K} {kinds : List K} {holder : M → Option Nat} {t : List (Ev V M)} {v : V} {i : Nat} {a : Act V M}
    (u : List (Ev V M)) (h : Known d kinds holder t v i a) : Known d kinds holder (t ++ u) v i a := by
  unfold Known at h ⊢
  cases hc : d.cls v with
  | guarded m =>
    rw [hc] at h
    refine h.imp (all_mono u) ?_
    intro h
    cases hm : holder m with
    | none => rw [hm] at h; exact knowsM_mono u h
    | some g => rw [hm] at h; exact knows_mono u h
  | init => rw [hc] at h; exact h.imp id (all_mono u)
  | atomic => rw [hc] at h; exact h.imp id (all_mono u)
  | owned k0 => rw [hc] at h; exact fun g k h1 h2 h3 => knows_mono u (h g k h1 h2 h3)

/-- An access. -/
theorem core_access {d : Disc V M K} {kinds : List K} {holder : M → Option Nat} {sp : List K} {t : List (Ev V M)}
    (c : Core d kinds holder sp t) (g : Nat) (k : K) (hk : kinds[g]? = some k) (held : List M)
    (hheld : ∀ m ∈ held, holder m = some g) (spg : List K) (hsp : g = 0 → spg = sp) (v : V) (a : Act V M) (ha : a.loc = some v)
    (r x : Bool) (hr : r = true → a.isRead) (hx : x = true → a.isAtomic) (ok : okAcc d k held spg v r x = true) :
    Core d kinds holder sp (t ++ [⟨g, a⟩]) := by
  have hlen : g < kinds.length := (List.getElem?_eq_some_iff.1 hk).1
  have hmain : k = d.main → g = 0 := fun h => Classical.byContradiction fun hg => c.other g k hk hg h
  unfold okAcc at ok
  rw [Bool.or_eq_true, Bool.and_eq_true, Bool.and_eq_true, List.all_eq_true, decide_eq_true_eq] at ok
  -- privacy of the location
  by_cases hp : ∀ g k, kinds[g]? = some k → g ≠ 0 → d.acc k v = false
  · -- only the first goroutine has accessed it
    have hg : g = 0 := by
      rcases ok with ⟨h1, -⟩ | ⟨h1, -⟩
      · exact hmain h1
      · rw [Bool.or_eq_true, decide_eq_true_eq] at h1
        rcases h1 with h1 | h1
        · exact hmain h1
        · apply Classical.byContradiction
          intro hg
          rw [hp g k hk hg] at h1; cases h1
    subst hg
    refine ⟨c.zero, c.other, ?_, c.spawned, c.once, c.has, c.own, ?_, ?_, ?_⟩
    · intro i e h
      rcases get_snoc h with h | ⟨-, rfl⟩
      · exact c.gid i e h
      · exact hlen
    · apply race_snoc c.race
      intro i b hi hne hc
      obtain ⟨⟨v', h1, h2⟩, -⟩ := hc
      rw [ha] at h2; injection h2 with h2; subst h2
      exact absurd (c.priv i b v hi h1 hp) hne
    · intro i e v' h1 h2 h3
      rcases get_snoc h1 with h1 | ⟨-, rfl⟩
      · exact c.priv i e v' h1 h2 h3
      · rfl
    · intro i e v' h1 h2
      rcases get_snoc h1 with h1 | ⟨rfl, rfl⟩
      · exact known_mono _ (c.known i e v' h1 h2)
      · have h2 : a.loc = some v' := h2
        rw [ha] at h2; injection h2 with h2; subst h2
        have hall : All d kinds (t ++ [⟨0, a⟩]) v t.length := by
          intro g k h1 h2
          by_cases hg : g = 0
          · subst hg; exact knows_self t ⟨0, a⟩
          · rcases h2 with h2 | h2
            · exact absurd h2 hg
            · rw [hp g k h1 hg] at h2; cases h2
        unfold Known
        split
        · exact Or.inl hall
        · exact Or.inr hall
        · exact Or.inr hall
        · exact fun g k h1 _ h3 => hall g k h1 h3
  · -- published
    have hq : ∃ g k, kinds[g]? = some k ∧ g ≠ 0 ∧ d.acc k v = true := by
      apply Classical.byContradiction
      intro hq
      apply hp
      intro g k h1 h2
      cases hc : d.acc k v with
      | false => rfl
      | true => exact absurd ⟨g, k, h1, h2, hc⟩ hq
    have ok2 : (decide (k = d.main) || d.acc k v) = true ∧ (match d.cls v with
        | .guarded m => held.contains m
        | .init => r
        | .atomic => x
        | .owned k0 => decide (k = k0)) = true := by
      rcases ok with ⟨h1, h2⟩ | h
      · obtain ⟨g', k', q1, q2, q3⟩ := hq
        obtain ⟨k'', m1, m2⟩ := c.spawned g' k' v q1 q2 q3
        rw [← hsp (hmain h1)] at m1
        have := h2 k'' m1
        rw [m2] at this; cases this
      · exact h
    obtain ⟨acc, ok3⟩ := ok2
    have hacc : g = 0 ∨ d.acc k v = true := by
      rw [Bool.or_eq_true, decide_eq_true_eq] at acc
      exact acc.imp hmain id
    refine ⟨c.zero, c.other, ?_, c.spawned, c.once, c.has, c.own, ?_, ?_, ?_⟩
    · intro i e h
      rcases get_snoc h with h | ⟨-, rfl⟩
      · exact c.gid i e h
      · exact hlen
    · apply race_snoc c.race
      intro i b hi hne hc
      obtain ⟨⟨v', h1, h2⟩, hc1, hc2⟩ := hc
      have h2 : a.loc = some v' := h2
      rw [ha] at h2; injection h2 with h2; subst h2
      have kn := c.known i b v hi h1
      suffices Knows t g i from knows_hb this ⟨g, a⟩ rfl
      unfold Known at kn
      cases hcl : d.cls v with
      | guarded m =>
        rw [hcl] at kn ok3
        rcases kn with kn | kn
        · exact kn g k hk hacc
        · have hm := hheld m (by simpa using ok3)
          rw [hm] at kn
          exact kn
      | init =>
        rw [hcl] at kn ok3
        rcases kn with kn | kn
        · exact absurd ⟨kn, hr ok3⟩ hc1
        · exact kn g k hk hacc
      | atomic =>
        rw [hcl] at kn ok3
        rcases kn with kn | kn
        · exact absurd ⟨kn, hx ok3⟩ hc2
        · exact kn g k hk hacc
      | owned k0 =>
        rw [hcl] at kn ok3
        exact kn g k hk (of_decide_eq_true ok3) hacc
    · intro i e v' h1 h2 h3
      rcases get_snoc h1 with h1 | ⟨-, rfl⟩
      · exact c.priv i e v' h1 h2 h3
      · have h2 : a.loc = some v' := h2
        rw [ha] at h2; injection h2 with h2; subst h2
        exact absurd h3 hp
    · intro i e v' h1 h2
      rcases get_snoc h1 with h1 | ⟨rfl, rfl⟩
      · exact known_mono _ (c.known i e v' h1 h2)
      · have h2 : a.loc = some v' := h2
        rw [ha] at h2; injection h2 with h2; subst h2
        unfold Known
        cases hcl : d.cls v with
        | guarded m =>
          rw [hcl] at ok3
          right
          rw [hheld m (by simpa using ok3)]
          exact knows_self t ⟨g, a⟩
        | init => rw [hcl] at ok3; exact Or.inl (hr ok3)
        | atomic => rw [hcl] at ok3; exact Or.inl (hx ok3)
        | owned k0 =>
          rw [hcl] at ok3
          intro g' k' h1 h2 _
          rw [h2] at h1
          rw [of_decide_eq_true ok3] at hk
          rw [c.once v k0 hcl g' g h1 hk]
          exact knows_self t ⟨g, a⟩

theorem core_lock {d : Disc V M K} {kinds : List K} {holder : M → Option Nat} {sp : List K} {t : List (Ev V M)}
    (c : Core d kinds holder sp t) (g : Nat) (hg : g < kinds.length) (m : M) (hm : holder m = none) :
    Core d kinds (setHolder holder m (some g)) sp (t ++ [⟨g, .lock m⟩]) := by
  refine ⟨c.zero, c.other, ?_, c.spawned, c.once, c.has, c.own, race_other c.race _ rfl, ?_, ?_⟩
  · intro i e h
    rcases get_snoc h with h | ⟨-, rfl⟩
    · exact c.gid i e h
    · exact hg
  · intro i e v h1 h2 h3
    rcases get_snoc h1 with h1 | ⟨-, rfl⟩
    · exact c.priv i e v h1 h2 h3
    · cases h2
  · intro i e v h1 h2
    rcases get_snoc h1 with h1 | ⟨-, rfl⟩
    · have kn := c.known i e v h1 h2
      by_cases hcl : d.cls v = .guarded m
      · unfold Known at kn ⊢
        rw [hcl] at kn ⊢
        refine kn.imp (all_mono _) ?_
        rw [hm]
        unfold setHolder
        rw [if_pos rfl]
        exact fun h => knows_lock h g
      · have kn := known_mono [⟨g, .lock m⟩] kn
        unfold Known at kn ⊢
        cases hc : d.cls v with
        | guarded m' =>
          rw [hc] at kn
          dsimp only at kn ⊢
          unfold setHolder
          rw [if_neg (fun h => hcl (by rw [hc, h]))]
          exact kn
        | init => rw [hc] at kn; exact kn
        | atomic => rw [hc] at kn; exact kn
        | owned k0 => rw [hc] at kn; exact kn
    · cases h2

theorem core_unlock {d : Disc V M K} {kinds : List K} {holder : M → Option Nat} {sp : List K} {t : List (Ev V M)}
    (c : Core d kinds holder sp t) (g : Nat) (hg : g < kinds.length) (m : M) (hm : holder m = some g) :
    Core d kinds (setHolder holder m none) sp (t ++ [⟨g, .unlock m⟩]) := by
  refine ⟨c.zero, c.other, ?_, c.spawned, c.once, c.has, c.own, race_other c.race _ rfl, ?_, ?_⟩
  · intro i e h
    rcases get_snoc h with h | ⟨-, rfl⟩
    · exact c.gid i e h
    · exact hg
  · intro i e v h1 h2 h3
    rcases get_snoc h1 with h1 | ⟨-, rfl⟩
    · exact c.priv i e v h1 h2 h3
    · cases h2
  · intro i e v h1 h2
    rcases get_snoc h1 with h1 | ⟨-, rfl⟩
    · have kn := c.known i e v h1 h2
      by_cases hcl : d.cls v = .guarded m
      · unfold Known at kn ⊢
        rw [hcl] at kn ⊢
        refine kn.imp (all_mono _) ?_
        rw [hm]
        unfold setHolder
        rw [if_pos rfl]
        exact fun h => knows_unlock h m
      · have kn := known_mono [⟨g, .unlock m⟩] kn
        unfold Known at kn ⊢
        cases hc : d.cls v with
        | guarded m' =>
          rw [hc] at kn
          dsimp only at kn ⊢
          unfold setHolder
          rw [if_neg (fun h => hcl (by rw [hc, h]))]
          exact kn
        | init => rw [hc] at kn; exact kn
        | atomic => rw [hc] at kn; exact kn
        | owned k0 => rw [hc] at kn; exact kn
    · cases h2

theorem core_go {d : Disc V M K} (hlocs : ∀ v, v ∈ d.locs) {kinds : List K} {holder : M → Option Nat} {sp : List K} {t : List (Ev V M)}
    (c : Core d kinds holder sp t) (g : Nat) (k k' : K) (hk : kinds[g]? = some k) (held : List M) (spg : List K) (hsp : g = 0 → spg = sp)
    (ok : okOp d k held spg (.go k') = true) :
    Core d (kinds ++ [k']) holder (if g = 0 then k' :: sp else sp) (t ++ [⟨g, .go kinds.length⟩]) := by
  have hlen : g < kinds.length := (List.getElem?_eq_some_iff.1 hk).1
  have hmain : k = d.main → g = 0 := fun h => Classical.byContradiction fun hg => c.other g k hk hg h
  have hpos : 0 < kinds.length := (List.getElem?_eq_some_iff.1 c.zero).1
  unfold okOp at ok
  rw [Bool.and_eq_true, List.all_eq_true] at ok
  obtain ⟨ok1, ok2⟩ := ok
  have ok1 : k' ≠ d.main := by simpa using ok1
  have sub : ∀ x ∈ sp, x ∈ (if g = 0 then k' :: sp else sp) := by
    intro x hx; split
    · exact List.mem_cons_of_mem _ hx
    · exact hx
  have closed : ∀ v, d.acc k' v = true → g = 0 ∨ d.acc k v = true := by
    intro v hv
    have := ok2 v (hlocs v)
    rw [Bool.and_eq_true, hv] at this
    have := this.1
    simp only [Bool.not_true, Bool.false_or, Bool.or_eq_true, decide_eq_true_eq] at this
    exact this.imp hmain id
  have ownedk : ∀ v k0, d.cls v = .owned k0 → (d.acc k' v = true → k' = k0) ∧ (k' = k0 → g = 0 ∧ k0 ∉ sp) := by
    intro v k0 hc
    have := ok2 v (hlocs v)
    rw [Bool.and_eq_true, hc] at this
    have := this.2
    simp only [Bool.and_eq_true, Bool.or_eq_true, Bool.not_eq_true', decide_eq_true_eq, decide_eq_false_iff_not, List.contains_eq_mem] at this
    refine ⟨fun h => this.1.resolve_left (by rw [h]; simp), fun h => ?_⟩
    have h2 := this.2.resolve_left (fun hn => hn h)
    have hg := hmain h2.1
    rw [hsp hg] at h2
    exact ⟨hg, h2.2⟩
  -- a goroutine that may access `v`, and the new one
  have childAll : ∀ v i, All d kinds t v i → All d (kinds ++ [k']) (t ++ [⟨g, .go kinds.length⟩]) v i := by
    intro v i h g' k'' h1 h2
    rcases get_snoc h1 with h1 | ⟨rfl, rfl⟩
    · exact knows_mono _ (h g' k'' h1 h2)
    · rcases h2 with h2 | h2
      · omega
      · exact knows_go (h g k hk (closed v h2)) _
  refine ⟨get_append _ c.zero, ?_, ?_, ?_, ?_, ?_, ?_, race_other c.race _ rfl, ?_, ?_⟩
  · intro g' k'' h1 h2
    rcases get_snoc h1 with h1 | ⟨-, rfl⟩
    · exact c.other g' k'' h1 h2
    · exact ok1
  · intro i e h
    rw [List.length_append]
    rcases get_snoc h with h | ⟨-, rfl⟩
    · have := c.gid i e h; omega
    · exact Nat.lt_add_right _ hlen
  · intro g' k'' v h1 h2 h3
    rcases get_snoc h1 with h1 | ⟨-, rfl⟩
    · obtain ⟨x, hx, hx2⟩ := c.spawned g' k'' v h1 h2 h3
      exact ⟨x, sub x hx, hx2⟩
    · by_cases hg : g = 0
      · exact ⟨k'', by rw [if_pos hg]; simp, h3⟩
      · obtain ⟨x, hx, hx2⟩ := c.spawned g k v hk hg ((closed v h3).resolve_left hg)
        exact ⟨x, sub x hx, hx2⟩
  · intro v k0 hc g1 g2 h1 h2
    have noOld : k' = k0 → ∀ (g' : Nat), kinds[g']? = some k0 → False := by
      intro he g' hg'
      obtain ⟨hg0, hn⟩ := (ownedk v k0 hc).2 he
      by_cases hz : g' = 0
      · subst hz
        rw [c.zero] at hg'; injection hg' with hg'
        exact ok1 (he.trans hg'.symm)
      · exact hn (c.has v k0 hc g' hg' hz)
    rcases get_snoc h1 with h1 | ⟨e1, e1'⟩
    · rcases get_snoc h2 with h2 | ⟨e2, e2'⟩
      · exact c.once v k0 hc g1 g2 h1 h2
      · exact absurd h1 fun h => noOld e2'.symm _ h
    · rcases get_snoc h2 with h2 | ⟨e2, e2'⟩
      · exact absurd h2 fun h => noOld e1'.symm _ h
      · omega
  · intro v k0 hc g' h1 h2
    rcases get_snoc h1 with h1 | ⟨-, e1'⟩
    · exact sub _ (c.has v k0 hc g' h1 h2)
    · obtain ⟨hg0, -⟩ := (ownedk v k0 hc).2 e1'.symm
      rw [if_pos hg0, e1']; simp
  · intro v k0 hc g' k'' h1 h2 h3
    rcases get_snoc h1 with h1 | ⟨-, rfl⟩
    · exact c.own v k0 hc g' k'' h1 h2 h3
    · exact (ownedk v k0 hc).1 h3
  · intro i e v h1 h2 h3
    rcases get_snoc h1 with h1 | ⟨-, rfl⟩
    · exact c.priv i e v h1 h2 fun g' k'' h4 h5 => h3 g' k'' (get_append _ h4) h5
    · cases h2
  · intro i e v h0 h2
    rcases get_snoc h0 with h1 | ⟨-, rfl⟩
    · have kn := c.known i e v h1 h2
      unfold Known at kn ⊢
      cases hc : d.cls v with
      | guarded m =>
        rw [hc] at kn
        refine kn.imp (childAll v i) ?_
        intro h
        cases hm : holder m with
        | none => rw [hm] at h; exact knowsM_mono _ h
        | some g => rw [hm] at h; exact knows_mono _ h
      | init => rw [hc] at kn; exact kn.imp id (childAll v i)
      | atomic => rw [hc] at kn; exact kn.imp id (childAll v i)
      | owned k0 =>
        rw [hc] at kn
        dsimp only at kn ⊢
        intro g' k'' h4 h5 h6
        rcases get_snoc h4 with h4 | ⟨rfl, rfl⟩
        · exact knows_mono _ (kn g' k'' h4 h5 h6)
        · -- the owner starts: so far only the first goroutine has accessed the location
          obtain ⟨hg0, hn⟩ := (ownedk v k0 hc).2 h5
          subst hg0
          have he : e.g = 0 := by
            apply c.priv i e v h1 h2
            intro g1 k1 q1 q2
            cases hq : d.acc k1 v with
            | false => rfl
            | true =>
              have := c.own v k0 hc g1 k1 q1 q2 hq
              subst this
              exact absurd (c.has v k1 hc g1 q1 q2) hn
          have := knows_own h1
          rw [he] at this
          exact knows_go this _
    · cases h2

/-! ## Executions -/

structure Inv (d : Disc V M K) (s : St V M K) (hs : Nat → List M) (ss : Nat → List K) : Prop where
  core : Core d (s.threads.map (·.kind)) s.holder (ss 0) s.trace
  code : ∀ (g : Nat) (th : Thread V M K), s.threads[g]? = some th → okList d th.kind (hs g) (ss g) th.code
  held : ∀ m g, s.holder m = some g ↔ m ∈ hs g
  nodup : ∀ g, (hs g).Nodup
  fresh : ∀ g, s.threads.length ≤ g → hs g = []

theorem get_set {α : Type} {l : List α} {g g' : Nat} {x y : α} (h : (l.set g x)[g']? = some y) : (g' = g ∧ y = x) ∨ (g' ≠ g ∧ l[g']? = some y) := by
  rw [List.getElem?_set] at h
  split at h
  · rename_i he
    subst he
    split at h
    · injection h with h; exact Or.inl ⟨rfl, h.symm⟩
    · cases h
  · rename_i he
    exact Or.inr ⟨fun e => he e.symm, h⟩

theorem kinds_set (l : List (Thread V M K)) (g : Nat) (k : K) (o : Op V M K) (c c' : List (Op V M K)) (h : l[g]? = some ⟨k, o :: c⟩) :
    (l.set g ⟨k, c'⟩).map (·.kind) = l.map (·.kind) := by
  rw [List.map_set]
  apply List.ext_getElem?
  intro i
  rw [List.getElem?_set]
  split
  · rename_i he
    subst he
    have hl := (List.getElem?_eq_some_iff.1 h).1
    rw [if_pos (by simpa using hl), List.getElem?_map, h]
    rfl
  · rfl

theorem kind_of {l : List (Thread V M K)} {g : Nat} {th : Thread V M K} (h : l[g]? = some th) : (l.map (·.kind))[g]? = some th.kind := by
  rw [List.getElem?_map, h]; rfl

/-- The code after a step that changes neither mutexes nor the goroutines. -/
theorem code_step {d : Disc V M K} {s : St V M K} {hs : Nat → List M} {ss : Nat → List K} (inv : Inv d s hs ss) {g : Nat} {k : K}
    {o : Op V M K} {l : List (Op V M K)} (h : s.threads[g]? = some ⟨k, o :: l⟩) :
    ∀ (g' : Nat) (th : Thread V M K), (s.cont g k l)[g']? = some th →
      okList d th.kind (if g' = g then heldAfter (hs g) o else hs g') (if g' = g then spAfter (ss g) o else ss g') th.code := by
  intro g' th hg
  rcases get_set hg with ⟨rfl, rfl⟩ | ⟨hne, hg⟩
  · rw [if_pos rfl, if_pos rfl]; exact (inv.code _ _ h).2
  · rw [if_neg hne, if_neg hne]; exact inv.code g' th hg

theorem inv_access {d : Disc V M K} {s : St V M K} {hs : Nat → List M} {ss : Nat → List K} (inv : Inv d s hs ss) {g : Nat} {k : K}
    {o : Op V M K} {l : List (Op V M K)} (h : s.threads[g]? = some ⟨k, o :: l⟩) (v : V) (a : Act V M) (ha : a.loc = some v)
    (r x : Bool) (hr : r = true → a.isRead) (hx : x = true → a.isAtomic) (ok : okAcc d k (hs g) (ss g) v r x = true)
    (ho : heldAfter (hs g) o = hs g) (hsp : spAfter (ss g) o = ss g) :
    Inv d ⟨s.cont g k l, s.holder, s.trace ++ [⟨g, a⟩]⟩ hs ss := by
  refine ⟨?_, ?_, inv.held, inv.nodup, ?_⟩
  · show Core d ((s.cont g k l).map _) _ _ _
    unfold St.cont
    rw [kinds_set _ _ _ _ _ _ h]
    exact core_access inv.core g k (kind_of h) (hs g) (fun m hm => (inv.held m g).2 hm) (ss g) (fun h => by rw [h]) v a ha r x hr hx ok
  · intro g' th hg
    have := code_step inv h g' th hg
    rw [ho, hsp] at this
    by_cases he : g' = g
    · subst he; simpa using this
    · simpa [he] using this
  · intro g' hg'
    apply inv.fresh
    have : (s.cont g k l).length ≤ g' := hg'
    unfold St.cont at this
    rwa [List.length_set] at this

theorem inv_step {d : Disc V M K} {prog : K → Prog V M K} (hlocs : ∀ v, v ∈ d.locs)
    (hchk : ∀ k, (chk d k (prog k) ([], [])).isSome = true) {s s' : St V M K} {hs : Nat → List M} {ss : Nat → List K}
    (inv : Inv d s hs ss) (st : Step prog s s') : ∃ hs' ss', Inv d s' hs' ss' := by
  cases st with
  | rd h => exact ⟨hs, ss, inv_access inv h _ (.rd _) rfl true false (fun _ => trivial) (fun h => (by cases h)) (inv.code _ _ h).1 rfl rfl⟩
  | wr h => exact ⟨hs, ss, inv_access inv h _ (.wr _) rfl false false (fun h => (by cases h)) (fun h => (by cases h)) (inv.code _ _ h).1 rfl rfl⟩
  | atom h => exact ⟨hs, ss, inv_access inv h _ (.atom _) rfl false true (fun h => (by cases h)) (fun _ => trivial) (inv.code _ _ h).1 rfl rfl⟩
  | @lock g k m l h hm =>
    have hlen : g < s.threads.length := (List.getElem?_eq_some_iff.1 h).1
    refine ⟨fun g' => if g' = g then m :: hs g else hs g', ss, ?_, ?_, ?_, ?_, ?_⟩
    · show Core d ((s.cont g k l).map _) _ _ _
      unfold St.cont
      rw [kinds_set _ _ _ _ _ _ h]
      exact core_lock inv.core g (by simpa using hlen) m hm
    · intro g' th hg
      have := code_step inv h g' th hg
      by_cases he : g' = g
      · subst he; simpa [heldAfter, spAfter] using this
      · simpa [he] using this
    · intro m' g'
      show setHolder s.holder m (some g) m' = some g' ↔ _
      unfold setHolder
      by_cases hm' : m' = m
      · subst hm'
        rw [if_pos rfl]
        constructor
        · intro he; injection he with he; subst he; simp
        · intro hmem
          split at hmem
          · rename_i he; rw [he]
          · have := (inv.held m' g').2 hmem
            rw [hm] at this; cases this
      · rw [if_neg hm', inv.held]
        split
        · rename_i he; subst he; simp [hm']
        · exact Iff.rfl
    · intro g'
      split
      · refine List.nodup_cons.2 ⟨fun hmem => ?_, inv.nodup g⟩
        have := (inv.held m g).2 hmem
        rw [hm] at this; cases this
      · exact inv.nodup g'
    · intro g' hg'
      have hg' : (s.cont g k l).length ≤ g' := hg'
      unfold St.cont at hg'
      rw [List.length_set] at hg'
      rw [if_neg (by omega)]
      exact inv.fresh g' hg'
  | @unlock g k m l h =>
    have hlen : g < s.threads.length := (List.getElem?_eq_some_iff.1 h).1
    have hmem : m ∈ hs g := by
      have := (inv.code _ _ h).1
      simpa [okOp] using this
    refine ⟨fun g' => if g' = g then (hs g).erase m else hs g', ss, ?_, ?_, ?_, ?_, ?_⟩
    · show Core d ((s.cont g k l).map _) _ _ _
      unfold St.cont
      rw [kinds_set _ _ _ _ _ _ h]
      exact core_unlock inv.core g (by simpa using hlen) m ((inv.held m g).2 hmem)
    · intro g' th hg
      have := code_step inv h g' th hg
      by_cases he : g' = g
      · subst he; simpa [heldAfter, spAfter] using this
      · simpa [he] using this
    · intro m' g'
      show setHolder s.holder m none m' = some g' ↔ _
      unfold setHolder
      by_cases hm' : m' = m
      · subst hm'
        rw [if_pos rfl]
        constructor
        · intro he; cases he
        · intro hmem2
          split at hmem2
          · exact absurd hmem2 (fun h => (List.Nodup.mem_erase_iff (inv.nodup g)).1 h |>.1 rfl)
          · have h1 := (inv.held m' g').2 hmem2
            have h2 := (inv.held m' g).2 hmem
            rw [h1] at h2
            injection h2 with h2
            contradiction
      · rw [if_neg hm', inv.held]
        split
        · rename_i he
          subst he
          rw [List.Nodup.mem_erase_iff (inv.nodup g')]
          simp [hm']
        · exact Iff.rfl
    · intro g'
      split
      · exact (inv.nodup g).erase m
      · exact inv.nodup g'
    · intro g' hg'
      have hg' : (s.cont g k l).length ≤ g' := hg'
      unfold St.cont at hg'
      rw [List.length_set] at hg'
      rw [if_neg (by omega)]
      exact inv.fresh g' hg'
  | @go g k k' l w h hw =>
    have hlen : g < s.threads.length := (List.getElem?_eq_some_iff.1 h).1
    have hcl : (s.cont g k l).length = s.threads.length := by unfold St.cont; rw [List.length_set]
    refine ⟨hs, fun g' => if g' = s.threads.length then [] else if g' = g then k' :: ss g else ss g', ?_, ?_, inv.held, inv.nodup, ?_⟩
    · show Core d ((s.cont g k l ++ [(⟨k', w⟩ : Thread V M K)]).map _) _ _ _
      rw [List.map_append]
      have e1 : (s.cont g k l).map (·.kind) = s.threads.map (·.kind) := kinds_set _ _ _ _ _ _ h
      rw [e1]
      have := core_go hlocs inv.core g k k' (kind_of h) (hs g) (ss g) (fun h => by rw [h]) (inv.code _ _ h).1
      rw [List.length_map] at this
      dsimp only
      rw [if_neg (show ¬ 0 = s.threads.length by omega)]
      by_cases hg : g = 0
      · subst hg; simpa using this
      · have hg' : ¬ 0 = g := fun e => hg e.symm
        simpa [hg, hg'] using this
    · intro g' th hg
      rcases get_snoc hg with hg | ⟨he, rfl⟩
      · have h1 : g' < (s.cont g k l).length := (List.getElem?_eq_some_iff.1 hg).1
        have := code_step inv h g' th hg
        rw [if_neg (by omega)]
        by_cases he : g' = g
        · subst he; simpa [heldAfter, spAfter] using this
        · simpa [he] using this
      · rw [he, hcl]
        dsimp only
        rw [if_pos rfl, inv.fresh _ (Nat.le_refl _)]
        have := hchk k'
        cases hc : chk d k' (prog k') ([], []) with
        | none => rw [hc] at this; cases this
        | some st =>
          exact (chk_sound d k' (prog k') [] st.1 [] st.2 hc w hw [] (fun x hx => hx)).1
    · intro g' hg'
      apply inv.fresh
      have : (s.cont g k l ++ [(⟨k', w⟩ : Thread V M K)]).length ≤ g' := hg'
      rw [List.length_append, hcl, List.length_singleton] at this
      omega

/-- A checked set of programs has no data race, in any execution. -/
theorem race_free {d : Disc V M K} {prog : K → Prog V M K} (hlocs : ∀ v, v ∈ d.locs)
    (hchk : ∀ k, (chk d k (prog k) ([], [])).isSome = true) {s : St V M K} (h : Reach prog d.main s) :
    RaceFree s.trace := by
  suffices ∃ hs ss, Inv d s hs ss by
    obtain ⟨hs, ss, inv⟩ := this
    exact inv.core.race
  induction h with
  | @start w hw =>
    refine ⟨fun _ => [], fun _ => [], ?_, ?_, ?_, fun _ => List.nodup_nil, fun _ _ => rfl⟩
    · refine ⟨rfl, ?_, ?_, ?_, ?_, ?_, ?_, ?_, ?_, ?_⟩
      · intro g k h1 h2
        have := (List.getElem?_eq_some_iff.1 h1).1
        simp only [List.map_cons, List.map_nil, List.length_singleton] at this
        omega
      · intro i e h; cases h
      · intro g k v h1 h2
        have := (List.getElem?_eq_some_iff.1 h1).1
        simp only [List.map_cons, List.map_nil, List.length_singleton] at this
        omega
      · intro v k0 hc g g' h1 h2
        have h1 := (List.getElem?_eq_some_iff.1 h1).1
        have h2 := (List.getElem?_eq_some_iff.1 h2).1
        simp only [List.map_cons, List.map_nil, List.length_singleton] at h1 h2
        omega
      · intro v k0 hc g h1 h2
        have h1 := (List.getElem?_eq_some_iff.1 h1).1
        simp only [List.map_cons, List.map_nil, List.length_singleton] at h1
        omega
      · intro v k0 hc g k h1 h2
        have h1 := (List.getElem?_eq_some_iff.1 h1).1
        simp only [List.map_cons, List.map_nil, List.length_singleton] at h1
        omega
      · intro i j a b _ h; cases h
      · intro i e v h; cases h
      · intro i e v h; cases h
    · intro g th hg
      have h1 := (List.getElem?_eq_some_iff.1 hg).1
      simp only [List.length_singleton] at h1
      have : g = 0 := by omega
      subst this
      simp at hg
      subst hg
      have := hchk d.main
      cases hc : chk d d.main (prog d.main) ([], []) with
      | none => rw [hc] at this; cases this
      | some st =>
        exact (chk_sound d d.main (prog d.main) [] st.1 [] st.2 hc w hw [] (fun x hx => hx)).1
    · intro m g
      constructor
      · intro h; cases h
      · intro h; cases h
  | step _ st ih =>
    obtain ⟨hs, ss, inv⟩ := ih
    exact inv_step hlocs hchk inv st

/-! ## Conflicting accesses next to each other -/

theorem hb_lt {t : List (Ev V M)} {i j : Nat} (h : HB t i j) : i < j := by
  induction h with
  | program h _ _ _ => exact h
  | start h _ _ _ => exact h
  | mutex _ h _ _ _ _ => exact h
  | trans _ _ h1 h2 => exact Nat.lt_trans h1 h2

/-- What happens next to an access is not ordered by it, unless the goroutine is the same. -/
theorem hb_next {t : List (Ev V M)} {i j : Nat} {a b : Ev V M} {v : V} (h : HB t i j) : j = i + 1 → t[i]? = some a → t[j]? = some b →
    a.a.loc = some v → a.g = b.g := by
  induction h with
  | program _ h1 h2 h3 =>
    intro _ q1 q2 _
    rw [h1] at q1; rw [h2] at q2
    injection q1 with q1; injection q2 with q2
    subst q1; subst q2; exact h3
  | start _ h1 h2 _ =>
    intro _ q1 _ q3
    rw [h1] at q1; injection q1 with q1; subst q1
    rw [h2] at q3; cases q3
  | mutex m _ h1 h2 _ _ =>
    intro _ q1 _ q3
    rw [h1] at q1; injection q1 with q1; subst q1
    rw [h2] at q3; cases q3
  | trans h1 h2 _ _ =>
    intro hj _ _ _
    have := hb_lt h1
    have := hb_lt h2
    omega

/-- Two conflicting accesses of different goroutines, one immediately after the other, are a race. -/
theorem adjacent_race {t : List (Ev V M)} {a b : Ev V M} (hg : a.g ≠ b.g) (hc : Conflict a.a b.a) : ¬ RaceFree (t ++ [a] ++ [b]) := by
  intro h
  have h1 : (t ++ [a] ++ [b])[t.length]? = some a := get_append _ (get_last t a)
  have h2 : (t ++ [a] ++ [b])[t.length + 1]? = some b := by
    have := get_last (t ++ [a]) b
    rwa [List.length_append, List.length_singleton] at this
  obtain ⟨v, hv, -⟩ := hc.1
  exact hg (hb_next (h _ _ a b (by omega) h1 h2 hg hc) rfl h1 h2 hv)

/-- The access that an operation is. -/
def Op.access : Op V M K → Option (Act V M)
  | .rd v => some (.rd v)
  | .wr v => some (.wr v)
  | .atom v => some (.atom v)
  | _ => none

theorem step_access {prog : K → Prog V M K} {s : St V M K} {g : Nat} {k : K} {o : Op V M K} {l : List (Op V M K)} {a : Act V M}
    (h : s.threads[g]? = some ⟨k, o :: l⟩) (ha : o.access = some a) : Step prog s ⟨s.cont g k l, s.holder, s.trace ++ [⟨g, a⟩]⟩ := by
  cases o with
  | rd v => injection ha with ha; subst ha; exact .rd h
  | wr v => injection ha with ha; subst ha; exact .wr h
  | atom v => injection ha with ha; subst ha; exact .atom h
  | _ => cases ha

/-- If no execution has a race, two goroutines are never both about to make conflicting accesses. -/
theorem exclusive {prog : K → Prog V M K} {main : K} (hr : ∀ s, Reach prog main s → RaceFree s.trace) {s : St V M K} (h : Reach prog main s)
    {g g' : Nat} {k k' : K} {o o' : Op V M K} {l l' : List (Op V M K)} {a a' : Act V M} (hg : g ≠ g')
    (h1 : s.threads[g]? = some ⟨k, o :: l⟩) (h2 : s.threads[g']? = some ⟨k', o' :: l'⟩) (ha : o.access = some a) (ha' : o'.access = some a') :
    ¬ Conflict a a' := by
  intro hc
  have r1 := Reach.step h (step_access (prog := prog) h1 ha)
  have h2' : (s.cont g k l)[g']? = some ⟨k', o' :: l'⟩ := by
    unfold St.cont
    rw [List.getElem?_set_ne hg]; exact h2
  have r2 := Reach.step r1 (step_access (prog := prog) h2' ha')
  exact adjacent_race (t := s.trace) (a := ⟨g, a⟩) (b := ⟨g', a'⟩) hg hc (hr _ r2)

/-! ## Concrete executions -/

/-- A sequence of operations of a program: `c` says which branches are taken (0 the first) and how often loops run. -/
def pick : Prog V M K → List Nat → List (Op V M K) × List Nat
  | .skip, c => ([], c)
  | .op o, c => ([o], c)
  | .seq p q, c => ((pick p c).1 ++ (pick q (pick p c).2).1, (pick q (pick p c).2).2)
  | .alt p _, 0 :: c => pick p c
  | .alt _ q, _ :: c => pick q c
  | .alt _ q, [] => pick q []
  | .star p, n :: c => n.rec ([], c) fun _ r => (r.1 ++ (pick p r.2).1, (pick p r.2).2)
  | .star _, [] => ([], [])

theorem star_snoc {p q : Prog V M K} {a : List (Op V M K)} (h : Words q a) (hq : q = .star p) {b : List (Op V M K)} (hb : Words p b) : Words (.star p) (a ++ b) := by
  refine star_words h hq (fun a => Words (.star p) (a ++ b)) ?_ ?_
  · have := Words.again hb Words.done; simpa using this
  · intro x y hx hy; rw [List.append_assoc]; exact .again hx hy

theorem pick_words (p : Prog V M K) : ∀ c, Words p (pick p c).1 := by
  induction p with
  | skip => intro c; exact .skip
  | op o => intro c; exact .op o
  | seq p q h1 h2 => intro c; exact .seq (h1 c) (h2 _)
  | alt p q h1 h2 =>
    intro c
    match c with
    | [] => exact .right (h2 _)
    | 0 :: c => exact .left (h1 c)
    | (n + 1) :: c => exact .right (h2 c)
  | star p ih =>
    intro c
    match c with
    | [] => exact .done
    | n :: c =>
      show Words (.star p) (Nat.rec (motive := fun _ => List (Op V M K) × List Nat) ([], c) (fun _ r => (r.1 ++ (pick p r.2).1, (pick p r.2).2)) n).1
      induction n with
      | zero => exact .done
      | succ n ihn => exact star_snoc ihn rfl (ih _)

/-- The next step of goroutine `g`; a goroutine that it starts makes the choices `c`. -/
def exec1 (prog : K → Prog V M K) (s : St V M K) (g : Nat) (c : List Nat) : Option (St V M K) :=
  match s.threads[g]? with
  | some ⟨k, .rd v :: l⟩ => some ⟨s.cont g k l, s.holder, s.trace ++ [⟨g, .rd v⟩]⟩
  | some ⟨k, .wr v :: l⟩ => some ⟨s.cont g k l, s.holder, s.trace ++ [⟨g, .wr v⟩]⟩
  | some ⟨k, .atom v :: l⟩ => some ⟨s.cont g k l, s.holder, s.trace ++ [⟨g, .atom v⟩]⟩
  | some ⟨k, .lock m :: l⟩ => match s.holder m with
    | none => some ⟨s.cont g k l, setHolder s.holder m (some g), s.trace ++ [⟨g, .lock m⟩]⟩
    | some _ => none
  | some ⟨k, .unlock m :: l⟩ => some ⟨s.cont g k l, setHolder s.holder m none, s.trace ++ [⟨g, .unlock m⟩]⟩
  | some ⟨k, .go k' :: l⟩ => some ⟨s.cont g k l ++ [⟨k', (pick (prog k') c).1⟩], s.holder, s.trace ++ [⟨g, .go s.threads.length⟩]⟩
  | _ => none

theorem exec1_step {prog : K → Prog V M K} {s s' : St V M K} {g : Nat} {c : List Nat} (h : exec1 prog s g c = some s') : Step prog s s' := by
  unfold exec1 at h
  split at h
  · rename_i e; injection h with h; subst h; exact .rd e
  · rename_i e; injection h with h; subst h; exact .wr e
  · rename_i e; injection h with h; subst h; exact .atom e
  · rename_i e
    split at h
    · rename_i e2; injection h with h; subst h; exact .lock e e2
    · cases h
  · rename_i e; injection h with h; subst h; exact .unlock e
  · rename_i e; injection h with h; subst h; exact .go e (pick_words _ c)
  · cases h

/-- Run a schedule: `(g, n, c)` lets goroutine `g` make `n` steps. -/
def execN (prog : K → Prog V M K) : Nat → St V M K → Nat → List Nat → Option (St V M K)
  | 0, s, _, _ => some s
  | n + 1, s, g, c => match exec1 prog s g c with
    | some s' => execN prog n s' g c
    | none => none

def exec (prog : K → Prog V M K) : List (Nat × Nat × List Nat) → St V M K → Option (St V M K)
  | [], s => some s
  | (g, n, c) :: l, s => match execN prog n s g c with
    | some s' => exec prog l s'
    | none => none

theorem execN_reach {prog : K → Prog V M K} {main : K} (n : Nat) : ∀ {s s' : St V M K} {g : Nat} {c : List Nat}, Reach prog main s →
    execN prog n s g c = some s' → Reach prog main s' := by
  induction n with
  | zero => intro s s' g c h e; injection e with e; subst e; exact h
  | succ n ih =>
    intro s s' g c h e
    unfold execN at e
    split at e
    · rename_i e1; exact ih (.step h (exec1_step e1)) e
    · cases e

theorem exec_reach {prog : K → Prog V M K} {main : K} (l : List (Nat × Nat × List Nat)) : ∀ {s s' : St V M K}, Reach prog main s →
    exec prog l s = some s' → Reach prog main s' := by
  induction l with
  | nil => intro s s' h e; injection e with e; subst e; exact h
  | cons x l ih =>
    intro s s' h e
    obtain ⟨g, n, c⟩ := x
    unfold exec at e
    split at e
    · rename_i e1; exact ih (execN_reach n h e1) e
    · cases e

/-- The first state, the first goroutine making the choices `c`. -/
def first (prog : K → Prog V M K) (main : K) (c : List Nat) : St V M K := ⟨[⟨main, (pick (prog main) c).1⟩], fun _ => none, []⟩

theorem first_reach (prog : K → Prog V M K) (main : K) (c : List Nat) : Reach prog main (first prog main c) := .start (pick_words _ c)

end Spout.Threads
